import Verif.Network.Production

/-!
# Reflected regions

Model of `updateReflectedRegionsForCoefs` and `getReflectedDispersionForCoefs`
(`/repo/xolotl/core/include/xolotl/core/network/detail/ReactionUtility.h:53-367`) for one vacancy and one interstitial species (PSI, Fe, NE), two and one (Zr) and three and three (Alloy). Only the vacancy axis
is changed by these functions; the other axes are copied (`initReflectedRegions`, 20-44).

The sizes are `uint32_t`, and the differences wrap around modulo 2^32 before they are converted to the signed 32 bit
`plsm::DifferenceType`; `toSigned_wrap` (in the Props file) shows that this gives the true difference below 2^31, so
integers are used here.
-/

namespace Xolotl.Network.Reflect

open Xolotl.Network

/-- The axes of a region that are merged: vacancy type axes and interstitial type axes. -/
structure Box where
  v : List Ival
  i : List Ival

/-- One species each, "project on I" (ReactionUtility.h:259-270). -/
def one_I (v i : Ival) : Ival := ⟨i.b - v.e + 1, i.e - v.b⟩

/-- One species each, "project on V" (274-285). -/
def one_V (v i : Ival) : Ival := ⟨v.b - i.e + 1, v.e - i.b⟩

/-- Zr, "project on I" (188-203). -/
def zr_I (v basal i : Ival) : Ival := ⟨i.b - v.e - basal.e + 2, i.e - v.b - basal.b⟩

/-- Zr, "project on V" (207-222). -/
def zr_V (v basal i : Ival) : Ival := ⟨v.b + basal.b - i.e + 1, v.e + basal.e - i.b - 1⟩

/-- Alloy, "project on I" (77-112). -/
def alloy_I (v void faulted i perfect frank : Ival) : Ival :=
  ⟨i.b + perfect.b + frank.b - v.e - void.e - faulted.e + 3,
   i.e + perfect.e + frank.e - v.b - void.b - faulted.b - 2⟩

/-- Alloy, "project on V" (116-151). -/
def alloy_V (v void faulted i perfect frank : Ival) : Ival :=
  ⟨v.b + void.b + faulted.b - i.e - perfect.e - frank.e + 3,
   v.e + void.e + faulted.e - i.b - perfect.b - frank.b - 2⟩

/-- `project on I` is chosen when an interstitial axis of the first product has `end() > 1` (74-75, 186, 257). -/
def projectOnI (pr1 : Box) : Bool := pr1.i.any fun x => decide (1 < x.e)

variable {K : Type*} [Field K]

/-- `getReflectedDispersionForCoefs`, vacancy entry, for several vacancy species (320-332): `disp` lists the dispersions of all species. -/
def dispMany (disp : List K) : K := disp.sum - ((disp.length : K) - 1)

/-- The same for one vacancy species (344-352). -/
def dispOne (dv di : K) : K := dv + (di - 1)

end Xolotl.Network.Reflect
