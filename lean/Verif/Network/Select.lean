import Mathlib.Algebra.Order.Ring.Rat

/-!
# Which clusters exist in fuel, iron, zirconium and alloy networks

Model of `select` of the four generators and of `refine` of the fuel, zirconium and alloy ones.  `AmountType` is taken as the natural numbers: sizes are far below `2^32`.  `refine` gives its result and whether each axis is to be refined.  How the subdivision library uses these answers is not modelled.
-/

namespace Xolotl.Network.Select

/-! ### Fuel and iron: gas, vacancies, interstitials -/

/-- Amounts of xenon or helium, of vacancies and of interstitials. -/
structure C3 where
  g : ℕ
  v : ℕ
  i : ℕ
  deriving DecidableEq, Repr

/-- Origin and upper limit point (excluded). -/
structure R3 where
  lo : C3
  hi : C3
  deriving DecidableEq, Repr

/-- The region of one composition. -/
def point3 (c : C3) : R3 := ⟨c, ⟨c.g + 1, c.v + 1, c.i + 1⟩⟩

/-- The members of the generators: `_maxXe` or `_maxHe`, `_maxV`, `_groupingMin`, `_groupingWidthXe`, `_groupingWidthV`.  xolotl/core/include/xolotl/core/network/NEClusterGenerator.h:63-67, xolotl/core/include/xolotl/core/network/FeClusterGenerator.h:76-80. -/
structure O3 where
  maxG : ℕ
  maxV : ℕ
  gmin : ℕ
  wG : ℕ
  wV : ℕ
  deriving DecidableEq

/-- `NEClusterGenerator::select`.  xolotl/core/include/xolotl/core/network/impl/NEClusterGenerator.tpp:82-123. -/
def neSelect (o : O3) (r : R3) : Bool :=
  if r.hi.g = 1 ∧ r.hi.v = 1 ∧ r.hi.i = 1 then false
  else if r.lo.i > 0 ∧ (r.lo.g > 0 ∨ r.lo.v > 0) then false
  else if r.lo.g > 1 ∧ r.hi.v = 1 ∧ r.hi.i = 1 then false
  else if r.lo.g > o.maxG then false
  else if r.lo.v > 2 ∧ r.hi.g = 1 ∧ r.hi.i = 1 then false
  else if r.lo.v > o.maxV then false
  else if r.lo.g = 1 ∧ r.hi.v > 9 ∧ r.hi.i = 1 then false
  else true

/-- `FeClusterGenerator::select`.  xolotl/core/include/xolotl/core/network/impl/FeClusterGenerator.tpp:104-139. -/
def feSelect (o : O3) (r : R3) : Bool :=
  if r.hi.g = 1 ∧ r.hi.v = 1 ∧ r.hi.i = 1 then false
  else if r.lo.i > 0 ∧ (r.lo.g > 0 ∨ r.lo.v > 0) then false
  else if r.lo.g > 8 ∧ r.hi.v = 1 ∧ r.hi.i = 1 then false
  else if r.lo.g > o.maxG then false
  else if r.lo.v > 10 ∧ r.hi.g = 1 ∧ r.hi.i = 1 then false
  else if r.lo.v > o.maxV then false
  else true

/-- Length of an interval against the width or a fraction of its start. -/
def narrow (lo hi w : ℕ) (f : ℚ) : Bool := ((hi - lo : ℕ) : ℚ) < max ((w : ℚ) + 1) ((lo : ℚ) * f)

/-- `NEClusterGenerator::refine`: the result and the flags of xenon, vacancies and interstitials.  xolotl/core/include/xolotl/core/network/impl/NEClusterGenerator.tpp:12-80. -/
def neRefine (o : O3) (r : R3) : Bool × Bool × Bool × Bool :=
  if r.lo.i > 0 then (true, true, true, true)
  else if r.hi.v > 1 ∧ r.lo.v < 3 ∧ r.lo.g = 0 ∧ r.lo.i = 0 then (true, true, true, true)
  else if r.hi.g > 1 ∧ r.lo.g < 2 ∧ r.lo.v = 0 ∧ r.lo.i = 0 then (true, true, true, true)
  else if r.lo.g < o.gmin ∧ r.lo.v < o.gmin then (true, true, true, true)
  else if r.hi.g > o.maxG + 1 ∧ r.hi.v > o.maxV + 1 then (true, true, true, true)
  else
    let a := !narrow r.lo.g r.hi.g o.wG (1 / 10) || decide (r.lo.g = 0) || decide (r.hi.g > o.maxG + 1)
    let b := !narrow r.lo.v r.hi.v o.wV (1 / 10) || decide (r.lo.v = 0) || decide (r.hi.v > o.maxV + 1)
    (a || b, a, b, true)

/-! ### Zirconium: vacancies, basal loops, interstitials -/

/-- Amounts. -/
structure CZ where
  v : ℕ
  b : ℕ
  i : ℕ
  deriving DecidableEq, Repr

/-- Origin and upper limit point (excluded). -/
structure RZ where
  lo : CZ
  hi : CZ
  deriving DecidableEq, Repr

/-- The region of one composition. -/
def pointZ (c : CZ) : RZ := ⟨c, ⟨c.v + 1, c.b + 1, c.i + 1⟩⟩

/-- The members of the generator.  xolotl/core/include/xolotl/core/network/ZrClusterGenerator.h:63-67. -/
structure OZ where
  maxV : ℕ
  maxB : ℕ
  maxI : ℕ
  gmin : ℕ
  w : ℕ
  deriving DecidableEq

/-- `(n > 0)` as a number. -/
def one (n : ℕ) : ℕ := if n > 0 then 1 else 0

/-- `ZrClusterGenerator::select`.  xolotl/core/include/xolotl/core/network/impl/ZrClusterGenerator.tpp:66-102. -/
def zrSelect (o : OZ) (r : RZ) : Bool :=
  let nAxis := one r.lo.v + one r.lo.i + one r.lo.b
  if nAxis > 1 then false
  else if r = pointZ r.lo ∧ (nAxis ≠ 1 ∨ r.lo.i > o.maxI ∨ r.lo.v > o.maxV ∨ r.lo.b > o.maxB) then false
  else if r.lo.v > o.maxV ∨ r.lo.b > o.maxB ∨ r.lo.i > o.maxI then false
  else true

/-- `ZrClusterGenerator::refine`.  xolotl/core/include/xolotl/core/network/impl/ZrClusterGenerator.tpp:12-64. -/
def zrRefine (o : OZ) (r : RZ) : Bool × Bool × Bool × Bool :=
  let nAxis := one r.lo.v + one r.lo.i + one r.lo.b
  if nAxis > 1 then (false, false, false, false)
  else if r.lo.v < o.gmin ∧ r.lo.b < o.gmin ∧ r.lo.i < o.gmin then (true, true, true, true)
  else if r.hi.v > o.maxV ∧ r.hi.b > o.maxB ∧ r.hi.i > o.maxI then (true, true, true, true)
  else if (r.hi.v > o.maxV ∧ o.maxV > 0) ∨ (r.hi.b > o.maxB ∧ o.maxB > 0) ∨ (r.hi.i > o.maxI ∧ o.maxI > 0) then (true, true, true, true)
  else (true, !(decide (r.lo.v > 0) && narrow r.lo.v r.hi.v o.w (2 / 100)), !(decide (r.lo.b > 0) && narrow r.lo.b r.hi.b o.w (2 / 100)),
    !(decide (r.lo.i > 0) && narrow r.lo.i r.hi.i o.w (2 / 100)))

/-! ### Alloys: vacancies, voids, faulted loops, interstitials, perfect loops, Frank loops -/

/-- Amounts. -/
structure CA where
  v : ℕ
  void : ℕ
  faulted : ℕ
  i : ℕ
  perfect : ℕ
  frank : ℕ
  deriving DecidableEq, Repr

/-- Origin and upper limit point (excluded). -/
structure RA where
  lo : CA
  hi : CA
  deriving DecidableEq, Repr

/-- The region of one composition. -/
def pointA (c : CA) : RA := ⟨c, ⟨c.v + 1, c.void + 1, c.faulted + 1, c.i + 1, c.perfect + 1, c.frank + 1⟩⟩

/-- The members of the generator.  xolotl/core/include/xolotl/core/network/AlloyClusterGenerator.h:64-69. -/
structure OA where
  maxV : ℕ
  maxI : ℕ
  maxSize : ℕ
  maxVoid : ℕ
  gmin : ℕ
  w : ℕ
  deriving DecidableEq

/-- `nAxis`.  xolotl/core/include/xolotl/core/network/impl/AlloyClusterGenerator.tpp:22-27, 95-100. -/
def nAxis (c : CA) : ℕ := one c.v + one c.i + one c.perfect + one c.frank + one c.faulted + one c.void

/-- The tests for single compositions.  xolotl/core/include/xolotl/core/network/impl/AlloyClusterGenerator.tpp:106-149. -/
def alloyPointBad (o : OA) (c : CA) : Prop :=
  nAxis c ≠ 1 ∨ c.i > o.maxI ∨ c.v > o.maxV
  ∨ (c.perfect > 0 ∧ c.perfect < o.maxI) ∨ (c.perfect > 0 ∧ c.perfect > o.maxSize)
  ∨ (c.frank > 0 ∧ c.frank ≤ o.maxI) ∨ (c.frank > 0 ∧ c.frank > o.maxSize)
  ∨ (c.faulted > 0 ∧ c.faulted ≤ o.maxV) ∨ (c.faulted > 0 ∧ c.faulted > o.maxSize)
  ∨ (c.void > 0 ∧ c.void ≤ o.maxV) ∨ (c.void > 0 ∧ c.void > o.maxVoid)

instance (o : OA) (c : CA) : Decidable (alloyPointBad o c) := inferInstanceAs (Decidable (_ ∨ _))

/-- `AlloyClusterGenerator::select`.  xolotl/core/include/xolotl/core/network/impl/AlloyClusterGenerator.tpp:91-167. -/
def alloySelect (o : OA) (r : RA) : Bool :=
  if nAxis r.lo > 1 then false
  else if r = pointA r.lo ∧ alloyPointBad o r.lo then false
  else if r.lo.v = 0 ∧ r.lo.i = 0 ∧ r.hi.void - 1 ≤ o.maxV ∧ r.hi.faulted - 1 ≤ o.maxV ∧ r.hi.perfect - 1 ≤ o.maxI ∧ r.hi.frank - 1 ≤ o.maxI then false
  else if r.lo.void > o.maxVoid ∨ r.lo.faulted > o.maxSize ∨ r.lo.perfect > o.maxSize ∨ r.lo.frank > o.maxSize then false
  else true

/-- `AlloyClusterGenerator::refine`: the result and the flags in the order of the species.  xolotl/core/include/xolotl/core/network/impl/AlloyClusterGenerator.tpp:12-89. -/
def alloyRefine (o : OA) (r : RA) : Bool × List Bool :=
  let all := [true, true, true, true, true, true]
  if nAxis r.lo > 1 then (false, [false, false, false, false, false, false])
  else if nAxis r.lo = 0 then (true, all)
  else if r.lo.v > 0 then (true, all)
  else if r.lo.i > 0 then (true, all)
  else if r.lo.void < o.gmin ∧ r.lo.faulted < o.gmin ∧ r.lo.frank < o.gmin ∧ r.lo.perfect < o.gmin then (true, all)
  else if r.hi.void > o.maxVoid ∧ o.maxVoid > 0 then (true, all)
  else if r.hi.faulted > o.maxSize ∧ o.maxSize > 0 then (true, all)
  else if r.hi.frank > o.maxSize ∧ o.maxSize > 0 then (true, all)
  else if r.hi.perfect > o.maxSize ∧ o.maxSize > 0 then (true, all)
  else (true, [true, !(decide (r.lo.void > 0) && narrow r.lo.void r.hi.void o.w (5 / 100)),
    !(decide (r.lo.faulted > 0) && narrow r.lo.faulted r.hi.faulted o.w (5 / 100)), true,
    !(decide (r.lo.perfect > 0) && narrow r.lo.perfect r.hi.perfect o.w (5 / 100)),
    !(decide (r.lo.frank > 0) && narrow r.lo.frank r.hi.frank o.w (5 / 100))])

end Xolotl.Network.Select
