import Verif.Solver.Move
import Verif.Solver.Sweep

/-!
# The state after the surface moved

Model of the second branch of `PetscSolver1DHandler::initializeConcentration`, after the concentrations of the new points have been interpolated (`Move`, `Messages`): the temperatures each rank keeps and gives to the network, the values written at the first two points, and the scatter of the surface point.

Numbers are elements of an ordered field instead of doubles.  A new global vector of the solver library holds zeros.  The temperature grid is the grid.  A state is a function of the grid point and of the component; component `dof` is the temperature.
-/

namespace Xolotl.Solver.Carried

variable {K : Type*} [Field K] [LinearOrder K] [IsStrictOrderedRing K]

/-- The new vector after the loop over the points: the first point is not visited.  xolotl/solver/src/handler/PetscSolver1DHandler.cpp:405-504. -/
def visited (old : ℕ → K) (size : ℕ) (new : ℕ → K) (nX : ℕ) (c : ℕ → ℕ → K) (p k : ℕ) : K :=
  if 1 ≤ p ∧ p < nX then (Move.transfer old size (fun i => c i k) (Move.distance new (nX + 2) p)).getD 0 else 0

/-- The temperatures of a rank with `xm` points from `xs` on, by local index: first zeros, then those of its points.  xolotl/solver/src/handler/PetscSolver1DHandler.cpp:267-272, 506-513. -/
def read (v : ℕ → ℕ → K) (dof xs xm i : ℕ) : K := if 1 ≤ i ∧ i ≤ xm then v (xs + i - 1) dof else 0

/-- The surface takes the temperature of the next point.  The test for growth holds for every move, see `Move.treatedAsGrown`.  xolotl/solver/src/handler/PetscSolver1DHandler.cpp:514-515. -/
def levelled (v : ℕ → ℕ → K) (dof xs xm i : ℕ) : K := if xs = 0 ∧ i = 1 then read v dof xs xm 2 else read v dof xs xm i

/-- The temperatures the rank ends with: the two entries of its neighbours are those of its own first and last point.  xolotl/solver/src/handler/PetscSolver1DHandler.cpp:521-522. -/
def temps (v : ℕ → ℕ → K) (dof xs xm i : ℕ) : K :=
  if i = 0 then levelled v dof xs xm 1 else if i = xm + 1 then levelled v dof xs xm xm else levelled v dof xs xm i

/-- The values the first rank writes into the vector; `none` if it writes at a point it does not hold.  xolotl/solver/src/handler/PetscSolver1DHandler.cpp:516-519. -/
def written (init : List (ℕ × K)) (v : ℕ → ℕ → K) (dof xm : ℕ) : Option (ℕ → ℕ → K) :=
  if xm < 2 ∧ init ≠ [] then none
  else
    let w := Function.update v 0 (Function.update (v 0) dof (levelled v dof 0 xm 1))
    some (Function.update w 1 (init.foldl (fun f a => Function.update f a.1 a.2) (w 1)))

/-- The scatter of the surface point, with all its components.  xolotl/solver/src/handler/PetscSolver1DHandler.cpp:541-570. -/
def scattered (c v : ℕ → ℕ → K) : ℕ → ℕ → K := Function.update v 0 (c 0)

/-- The new vector.  xolotl/solver/src/handler/PetscSolver1DHandler.cpp:387-570. -/
def carried (old : ℕ → K) (size : ℕ) (new : ℕ → K) (nX : ℕ) (init : List (ℕ × K)) (c : ℕ → ℕ → K) (dof xm : ℕ) : Option (ℕ → ℕ → K) :=
  (written init (visited old size new nX c) dof xm).map (scattered c)

/-- The temperatures of a rank after the move, with those of the network.  xolotl/solver/src/handler/PetscSolver1DHandler.cpp:506-535. -/
def held (old : ℕ → K) (size : ℕ) (new : ℕ → K) (nX : ℕ) (c : ℕ → ℕ → K) (dof xs xm : ℕ) : Sweep.Held K :=
  ⟨temps (visited old size new nX c) dof xs xm, temps (visited old size new nX c) dof xs xm⟩

end Xolotl.Solver.Carried
