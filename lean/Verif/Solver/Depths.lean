import Mathlib.Algebra.Order.Field.Basic
import Verif.Network.TrapMutationTables

/-!
# The depths given to the network and the temperature that decides on trap mutation

Model of the vector of depths that the handlers give to the network together with the temperatures, and of the part of `PSIReactionNetwork::updateExtraClusterData` that chooses one of the temperatures for the tables of
trap mutation.  Numbers are elements of an ordered field, the grid is a function of the index.  `none` stands for a read outside of the vector of temperatures.
-/

namespace Xolotl.Solver.Depths

open Xolotl.Network

variable {K : Type*} [Field K] [LinearOrder K]

/-- The depth of one entry: `k` is the sum of the first grid point of the rank and the place in the vector, `surf` the position of the surface, 0 in one dimension and at the start.
xolotl/solver/src/handler/PetscSolver1DHandler.cpp:372-379, 527-534, 736-742, 931-938, 1186-1193; xolotl/solver/src/handler/PetscSolver2DHandler.cpp:396-404, 562-569, 772-780, 947-955, 1268-1276;
xolotl/solver/src/handler/PetscSolver3DHandler.cpp:458-466, 632-639, 851-859, 1052-1060, 1408-1416. -/
def depth (nX : ℕ) (grid : ℕ → K) (surf k : ℕ) : K :=
  if k = nX + 1 then grid k - grid (surf + 1) else (grid (k + 1) + grid k) / 2 - grid (surf + 1)

/-- The vector of depths of a rank: as many as temperatures, two more than its grid points.  The same lines. -/
def depths (nX : ℕ) (grid : ℕ → K) (surf xs xm : ℕ) : List K := (List.range (xm + 2)).map fun i => depth nX grid surf (xs + i)

/-- Without dimension.  xolotl/solver/src/handler/PetscSolver0DHandler.cpp:160, 238, 280, 325. -/
def depths0 : List K := [1]

/-- Without solver.  xolotl/interface/src/XolotlInterface.cpp:127. -/
def depthsNoSolve : List K := [0]

/-- The loop that looks for the index; without a `break` it ends with the size.  xolotl/core/include/xolotl/core/network/impl/PSIReactionNetwork.tpp:72-77. -/
def tempIndex : List K → ℕ
  | [] => 0
  | x :: l => if x > 1 / 100 then 0 else tempIndex l + 1

/-- The temperature given to the tables.  xolotl/core/include/xolotl/core/network/impl/PSIReactionNetwork.tpp:79. -/
def trapTemp (temps depths : List K) : Option K := temps[tempIndex depths]?

/-- The tables after `updateExtraClusterData`: left as they are without trap mutation.  xolotl/core/include/xolotl/core/network/impl/PSIReactionNetwork.tpp:63-110. -/
def update (enabled : Bool) (m : TmMaterial) (old : (Fin 7 → ℚ) × (Fin 7 → ℕ) × ℕ × ℚ) (temps depths : List K) : Option ((Fin 7 → ℚ) × (Fin 7 → ℕ) × ℕ × ℚ) :=
  if enabled then (trapTemp temps depths).map m.updateData else some old

end Xolotl.Solver.Depths
