import Mathlib.Algebra.BigOperators.Group.List.Basic
import Mathlib.Algebra.BigOperators.Ring.List
import Mathlib.Algebra.Field.Basic
import Mathlib.Logic.Function.Basic
import Mathlib.Data.Rat.Floor

/-!
# The source terms handed to the sub-instances

Model of the tables of `AlphaZrFitFluxHandler` and `AlloyFitFluxHandler`: which cluster receives which source, how the table of the full network is cut into one table per sub-network, and what the sub-instances do with it.

Simplifications: the vectors `fluxIndices` and `incidentFluxVec` of the code are always pushed together and each row of the second one has a single entry, so they are modelled as one list of pairs.  Numbers are elements of a field.  For the alloy handler only column 0 of the rate view is modelled; it is the only one `getImplantedFlux` and `setImplantedFlux` use and, without a grid, the only one there is.
-/

namespace Xolotl.Flux

variable {K : Type*} [Field K]

/-- A source table: cluster and value, in the order they were pushed. -/
abbrev Table (K : Type*) := List (ℕ × K)

/-- One atomic addition of the kernel.  xolotl/core/include/xolotl/core/flux/AlphaZrFitFluxHandler.h:187-188, AlloyFitFluxHandler.h:357-358. -/
def addOne (att : K) (u : ℕ → K) (p : ℕ × K) : ℕ → K := Function.update u p.1 (u p.1 + p.2 * att)

/-- The kernel of `computeIncidentFlux`, run in the order given by the list.  The kernel is a parallel loop, so the properties quantify over every permutation of the table.
xolotl/core/include/xolotl/core/flux/AlphaZrFitFluxHandler.h:183-189, AlloyFitFluxHandler.h:353-359. -/
def kernel (att : K) (order : Table K) (u : ℕ → K) : ℕ → K := order.foldl (addOne att) u

/-- `getImplantedFlux`: for every entry of the map, in order, the *first* entry of the table for that cluster.
xolotl/core/include/xolotl/core/flux/AlphaZrFitFluxHandler.h:195-211, AlloyFitFluxHandler.h:365-385. -/
def getImplanted (table : Table K) (map : List ℕ) : Table K :=
  map.zipIdx.filterMap fun m => (table.find? fun p => m.1 == p.1).map fun p => (m.2, p.2)

/-- The two copies of the table an `AlphaZrFitFluxHandler` keeps: the host vectors and the device views read by the kernel. -/
structure ZrState (K : Type*) where
  /-- `fluxIndices` and `incidentFluxVec`. -/
  host : Table K
  /-- `fluxIds` and `incidentFlux`. -/
  device : Table K

/-- `AlphaZrFitFluxHandler::setImplantedFlux`: only the host vectors are replaced.  xolotl/core/include/xolotl/core/flux/AlphaZrFitFluxHandler.h:216-228. -/
def zrSet (st : ZrState K) (l : Table K) : ZrState K := { st with host := l }

/-- `AlloyFitFluxHandler::setImplantedFlux`: the device views are replaced, but only by a table with the same number of entries.  `none` is the exception.
xolotl/core/include/xolotl/core/flux/AlloyFitFluxHandler.h:390-411. -/
def alloySet (st l : Table K) : Option (Table K) := if l.length ≠ st.length then none else some l

/-- The kinds of clusters an AlphaZr source feeds. -/
inductive ZrKind | i | v | basal
  deriving DecidableEq

/-- The entries wanted for one kind of cluster, sizes from 1 up to the smaller of the given maximum and the table; sizes without a cluster are skipped.
xolotl/core/include/xolotl/core/flux/AlphaZrFitFluxHandler.h:119-127, 131-143, 147-159. -/
def zrKindTable (find : ZrKind → ℕ → Option ℕ) (kind : ZrKind) (maxSize : ℕ) (flux : List K) (scale : ℕ → K) : Table K :=
  (List.range (min maxSize flux.length)).filterMap fun i =>
    (find kind (i + 1)).map fun c => (c, flux.getD i 0 * scale (i + 1))

/-- Fraction of the vacancy source that goes to pyramids: nothing up to size 18, the portion `Qb` above.  xolotl/core/include/xolotl/core/flux/AlphaZrFitFluxHandler.h:138-142, 154-158. -/
def basalShare (Qb : K) (size : ℕ) : K := if size > 18 then Qb else 0

/-- `AlphaZrFitFluxHandler::initializeFluxHandler` on fresh vectors.  `find` is `findCluster` of the network for the composition with one species set.
xolotl/core/include/xolotl/core/flux/AlphaZrFitFluxHandler.h:103-164. -/
def zrInit (find : ZrKind → ℕ → Option ℕ) (maxI maxV maxB : ℕ) (fluxI fluxV : List K) (Qb : K) : ZrState K :=
  let t := zrKindTable find .i maxI fluxI (fun _ => 1) ++
    zrKindTable find .v maxV fluxV (fun n => 1 - basalShare Qb n) ++
    zrKindTable find .basal maxB fluxV (basalShare Qb)
  { host := t, device := t }

end Xolotl.Flux
