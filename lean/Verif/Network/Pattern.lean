import Verif.Network.DofIds
import Verif.Solver.FillMap

/-!
# From the reactions to the matrix

Model of the path of the derivatives without dimension of space: `generateConnectivity` on the requests of the reactions (`/repo/xolotl/core/include/xolotl/core/network/detail/impl/ReactionGenerator.tpp:169-280`),
the positions that each reaction keeps (`detail/ReactionCollection.h:92-100`, `Reaction.h:170-175`, `impl/Reaction.tpp:1836-1950, 3001-3080`), the list of coordinates and the array of values
(`/repo/xolotl/solver/src/handler/PetscSolver0DHandler.cpp:68-82`), and one evaluation (`PetscSolver0DHandler.cpp:303-346`, `PetscSolverHandler.cpp:108-115`, `/repo/xolotl/solver/src/PetscSolver.cpp:529-571`).

PETSc is modelled as documented: `MatZeroEntries` sets the matrix to zero, `MatSetValuesCOO` with `ADD_VALUES` adds the `k`-th value to the entry at the `k`-th coordinates and reads as many values as there are coordinates.
The change of the rates with the temperature (`PetscSolver0DHandler.cpp:318-327`) is left to the networks given to the evaluations.
-/

namespace Xolotl.Network.Pattern

open Xolotl.Network Xolotl.Network.Conn

variable {d : ℕ} {K : Type*} [Field K] [LinearOrder K]

/-- The calls of `add` of every reaction.  detail/impl/ReactionGenerator.tpp:188-201, 232-244. -/
def requests (rxns : List (Rxn d K)) : List (List (Option ℕ × Option ℕ)) := rxns.map fun r => r.connectivity.map fun u => (some u.1, some u.2)

/-- A complete execution of `generateConnectivity` for `D` degrees of freedom: some schedule of the counting pass, some schedule of the filling pass at the end of which every task is done.
detail/impl/ReactionGenerator.tpp:169-280. -/
structure Build (D : ℕ) (ts : List (List (Option ℕ × Option ℕ))) where
  counts : List (ℕ × ℕ)
  counted : Interleaves (ts.map countUpdates) counts
  sched : List (Fin (tasksOf D ts.flatten).length)
  final : St (tasksOf D ts.flatten).length
  runs : (fillOf D (tasksOf D ts.flatten) (applyUpdates (initCounts D) counts)).run (fillOf D (tasksOf D ts.flatten) (applyUpdates (initCounts D) counts)).init sched = some final
  done : ∀ i, final.pc i = .done

namespace Build

variable {D : ℕ} {ts : List (List (Option ℕ × Option ℕ))} (B : Build D ts)

/-- The rows left by the shrinking. -/
def rows : List (List ℕ) := (List.range D).map (shrinkRow (fillOf D (tasksOf D ts.flatten) (applyUpdates (initCounts D) B.counts)).start B.final.ent)

/-- The connectivity. -/
def crs : Crs := crsOf B.rows

/-- The coordinates: those of the diagonal fill and one more for the temperature.  PetscSolver0DHandler.cpp:69-75. -/
def coo : List (ℕ × ℕ) := Solver.FillMap.pairs D (Solver.FillMap.diagonal B.crs D) ++ [(D, D)]

/-- The number of values: `getDiagonalFill` returns the sum of the lengths of the rows, and one more.  impl/ReactionNetwork.tpp:1663-1672, PetscSolver0DHandler.cpp:69, 75. -/
def nPartials : ℕ := Solver.FillMap.nNonZeros (Solver.FillMap.diagonal B.crs D) + 1

end Build

/-- The updates of `values`, with the positions found at set up in place of rows and columns; `none` if there is none: the position is then `invalidIndex`. -/
def place (C : Crs) (us : List ((ℕ × ℕ) × K)) : Option (List (ℕ × K)) := us.mapM fun u => (C.getPosition u.1.1 u.1.2).map fun p => (p, u.2)

/-- One atomic update of the values; `none` outside of the array. -/
def bump (v : List K) (u : ℕ × K) : Option (List K) := if u.1 < v.length then some (v.modify u.1 (· + u.2)) else none

/-- What one evaluation finds and leaves: the array of values and the matrix. -/
structure Mem (K : Type*) where
  vals : List K
  J : ℕ → ℕ → K

/-- `MatSetValuesCOO(J, vals.data(), ADD_VALUES)`; `none` if it reads outside of the array. -/
def addCoo (coo : List (ℕ × ℕ)) (v : List K) (J : ℕ → ℕ → K) : Option (ℕ → ℕ → K) := if coo.length ≤ v.length then some fun r c => J r c + netOf (coo.zip v) (r, c) else none

/-- `rhsJacobian`: the matrix is zeroed, the derivatives are accumulated in the order `l`, given to the matrix, and the values are reset.
PetscSolver.cpp:529-571, PetscSolver0DHandler.cpp:331-340, PetscSolverHandler.cpp:108-115. -/
def rhsJacobian (coo : List (ℕ × ℕ)) (m : Mem K) (l : List (ℕ × K)) : Option (Mem K) :=
  (l.foldlM bump m.vals).bind fun v => (addCoo coo v fun _ _ => 0).map fun J => ⟨v.map fun _ => 0, J⟩

/-- The state after the set up: Kokkos views start with zeros.  PetscSolver0DHandler.cpp:82. -/
def start (n : ℕ) (J : ℕ → ℕ → K) : Mem K := ⟨List.replicate n 0, J⟩

/-- Evaluations one after the other. -/
def evaluations (coo : List (ℕ × ℕ)) (m : Mem K) (ls : List (List (ℕ × K))) : Option (Mem K) := ls.foldlM (rhsJacobian coo) m

end Xolotl.Network.Pattern
