import Verif.Network.Simple
import Verif.Network.TrapMutationTables

/-!
# The temperatures of the one-dimensional solver

Model of the sweep over the grid points with which `updateConcentration` and `computeJacobian` begin: how often the heat equation is applied at a point, which temperatures the rates are computed with, the depths handed to the network with them, and which temperature the network chooses for modified trap mutation.

Numbers are elements of an ordered field instead of doubles.  The temperature grid is the grid (`interpolateTemperature` returns its argument; the other case is in `TempTransfer`).
-/

namespace Xolotl.Solver.Sweep

open Xolotl.Network

variable {K : Type*} [Field K] [LinearOrder K] [IsStrictOrderedRing K]

/-! ### The heat equation -/

/-- How often `computeTemperature` (and `computePartialsForTemperature`) is called at grid point `xi`: once for the heat condition, and once if the point is not skipped.  `gb` are the points on grain boundaries.
xolotl/solver/src/handler/PetscSolver1DHandler.cpp:817-819, 849, 876-890, 915-918; 1112-1116, 1147-1165. -/
def calls (nX left right : ℕ) (robin : Bool) (gb : ℕ → Bool) (xi : ℕ) : ℕ :=
  (if xi = 0 ∨ (xi = nX - 1 ∧ robin = true) then 1 else 0) + if xi < left ∨ xi > nX - 1 - right then 0 else if gb xi then 0 else 1

/-! ### Refreshing the temperatures -/

/-- What a process holds: `temperature`, and the temperatures of the network, by local index from 0 to the number of local points plus 1. -/
@[ext] structure Held (K : Type*) where
  temp : ℕ → K
  net : ℕ → K

/-- The test.  xolotl/solver/src/handler/PetscSolver1DHandler.cpp:871, 1142. -/
def differs (t T : ℕ → K) (i : ℕ) : Bool := decide (|T i - t i| > 1 / 10)

/-- One local temperature; `t` is what the handler returns.  xolotl/solver/src/handler/PetscSolver1DHandler.cpp:870-874, 1141-1145. -/
def refresh (t T : ℕ → K) (i : ℕ) : K := if differs t T i then t i else T i

/-- One evaluation on all processes; `len r` is the number of local temperatures of process `r`, `t r` what the handler returns there.
xolotl/solver/src/handler/PetscSolver1DHandler.cpp:814-874, 921-940; 1068-1145, 1176-1195. -/
def evaluate (np : ℕ) (len : ℕ → ℕ) (t : ℕ → ℕ → K) (st : ℕ → Held K) : ℕ → Held K :=
  let any := (List.range np).any fun r => (List.range (len r)).any fun i => differs (t r) (st r).temp i
  fun r =>
    let T := fun i => if i < len r then refresh (t r) (st r).temp i else (st r).temp i
    ⟨T, if any then T else (st r).net⟩

/-- A sequence of evaluations. -/
def evaluations (np : ℕ) (len : ℕ → ℕ) (ts : List (ℕ → ℕ → K)) (st : ℕ → Held K) : ℕ → Held K := ts.foldl (fun s t => evaluate np len t s) st

/-! ### Depths -/

/-- The depth of a grid point, as used for fluxes and initial temperatures.  xolotl/solver/src/handler/PetscSolver1DHandler.cpp:316-321, 1012-1015. -/
def depth (g : ℕ → K) (surf p : ℕ) : K := (g p + g (p + 1)) / 2 - g (surf + 1)

/-- The grid point a local temperature belongs to; index 0 of the first process belongs to none.  xolotl/solver/src/handler/PetscSolver1DHandler.cpp:308-323. -/
def pointOf (xs i : ℕ) : ℤ := (xs : ℤ) + i - 1

/-- The depths handed to the network; `surf` is 0 in one dimension.  xolotl/solver/src/handler/PetscSolver1DHandler.cpp:371-379 and the same loops below, PetscSolver2DHandler.cpp:395-404. -/
def depths (g : ℕ → K) (nX xs surf len : ℕ) : List K :=
  (List.range len).map fun i => if xs + i = nX + 1 then g (xs + i) - g (surf + 1) else (g (xs + i + 1) + g (xs + i)) / 2 - g (surf + 1)

/-- The index chosen.  xolotl/core/include/xolotl/core/network/impl/PSIReactionNetwork.tpp:73-77. -/
def tempId (ds : List K) : ℕ := ds.findIdx fun d => decide (d > 1 / 100)

/-- The tables chosen; `none` is a read outside the vector.  xolotl/core/include/xolotl/core/network/impl/PSIReactionNetwork.tpp:72-79. -/
def tables (m : TmMaterial) (temps ds : List K) : Option ((Fin 7 → ℚ) × (Fin 7 → ℕ) × ℕ × ℚ) := temps[tempId ds]?.map fun t => m.updateData t

end Xolotl.Solver.Sweep
