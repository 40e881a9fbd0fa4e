import Verif.Solver.Matrix

/-!
# The heat equation in the matrix in two and three dimensions

The terms of the temperature in `rhsFunction` and their numbers in `rhsJacobian` on grids of two and three dimensions, where every column of points has a surface of its own.  The rest of the right-hand side is that of `Verif.Solver.Matrix`.
The case `zeroFlux`, in which the handler adds nothing and reports nothing, is that of `terms2` and `values2` there.
-/

namespace Xolotl.Solver.Matrix

open Xolotl.Transport

variable {K : Type} [Field K] [LinearOrder K] [IsStrictOrderedRing K]

/-- The columns of a grid of two (`z` is 0) or three dimensions, as the loops over the temperature see them. -/
structure Columns (K : Type) where
  left : ℕ
  right : ℕ
  /-- `surfacePosition` -/
  surf : ℕ → ℕ → ℕ
  /-- `gbVector` -/
  gb : List (ℕ × ℕ × ℕ)
  /-- the handler of the heat equation without surface, spacings and scales -/
  heat : Heat.Ctx K

namespace Space

variable (E : Space K) (H : Columns K)

/-- The point is below the surface, above the bulk and not on a grain boundary.  PetscSolver2DHandler.cpp:891-906, 1236-1246; PetscSolver3DHandler.cpp:986-1002, 1370-1382. -/
def freeAt (x y z : ℕ) : Bool := decide (H.surf y z + H.left ≤ x) && decide (x ≤ E.nX - 1 - H.right) && !H.gb.contains (x, y, z)

/-- How often the heat equation is evaluated at a local point: once more at the surface.  PetscSolver2DHandler.cpp:824-863, 935-939, 1197-1213, 1248-1262; PetscSolver3DHandler.cpp:907-953, 1038-1044, 1325-1343, 1384-1400. -/
def heatTimes (x y z : ℕ) : ℕ := (if x = H.surf y z then 1 else 0) + (if E.freeAt H x y z then 1 else 0)

/-- The handler at a point of column `(y, z)` in `dim` dimensions: its surface is that of the column, its spacings are those of the grid.  PetscSolver2DHandler.cpp:819-820, 846-862, 920-938, 1154-1176; PetscSolver3DHandler.cpp:902-903, 1023-1043, 1284-1300. -/
def heatCtx (dim x y z : ℕ) : Heat.Ctx K :=
  { H.heat with dim := dim, surf := H.surf y z, hL := hxLeft E.grid x, hR := hxRight E.nX E.grid x, s := fun d => if d = 0 then 0 else if d = 1 then E.sy else E.sz }

/-- The temperatures of the stencil by index.  PetscSolver2DHandler.cpp:908-918, 1185-1193; PetscSolver3DHandler.cpp:1004-1021, 1310-1321. -/
def stencilT {Q : Type} (cols : List Q) (c : Q → ℕ → K) (dof k : ℕ) : K := (cols.map fun q => c q dof).getD k 0

/-- The numbers `computePartialsForTemperature` reports, by index.  /repo/xolotl/core/src/temperature/HeatEquationHandler.cpp:394-478. -/
def heatVal (h : Heat.Ctx K) (x : ℕ) (t : ℕ → K) (k : ℕ) : K :=
  if k = 0 then (Heat.part h x t).1 else if k = 1 then (Heat.part h x t).2.1 else if k = 2 then (Heat.part h x t).2.2 else Heat.partT h x t ((k - 1) / 2)

/-- The terms in two dimensions with the heat equation.  PetscSolver2DHandler.cpp:817-940, 1017-1104. -/
def heatTerms2 (dof : ℕ) (dif adv : List ℕ) (src : ℕ × ℕ → List (ℕ × K)) (nw : ℕ × ℕ → (ℕ → K) → List (ℕ × K)) : Terms (ℕ × ℕ) (ℤ × ℤ) K :=
  { E.terms2 dif adv src nw with temp := fun p c => E.heatTimes H p.1 p.2 0 * Heat.rhs (E.heatCtx H 2 p.1 p.2 0) p.1 (stencilT (cols2 p) c dof) }

/-- The numbers in two dimensions with the heat equation.  PetscSolver2DHandler.cpp:1151-1263, 1335-1410. -/
def heatValues2 (dof : ℕ) (dif adv : List ℕ) (nw : ℕ × ℕ → List (ℕ × K)) (c : ℤ × ℤ → ℕ → K) : Values (ℕ × ℕ) K :=
  { E.values2 dif adv nw with temp := fun p k => E.heatTimes H p.1 p.2 0 * heatVal (E.heatCtx H 2 p.1 p.2 0) p.1 (stencilT (cols2 p) c dof) k }

/-- The terms in three dimensions with the heat equation.  PetscSolver3DHandler.cpp:898-1045, 1118-1226. -/
def heatTerms3 (dof : ℕ) (dif adv : List ℕ) (src : ℕ × ℕ × ℕ → List (ℕ × K)) (nw : ℕ × ℕ × ℕ → (ℕ → K) → List (ℕ × K)) : Terms (ℕ × ℕ × ℕ) (ℤ × ℤ × ℤ) K :=
  { E.terms3 dif adv src nw with temp := fun p c => E.heatTimes H p.1 p.2.1 p.2.2 * Heat.rhs (E.heatCtx H 3 p.1 p.2.1 p.2.2) p.1 (stencilT (cols3 p) c dof) }

/-- The numbers in three dimensions with the heat equation.  PetscSolver3DHandler.cpp:1278-1401, 1473-1565. -/
def heatValues3 (dof : ℕ) (dif adv : List ℕ) (nw : ℕ × ℕ × ℕ → List (ℕ × K)) (c : ℤ × ℤ × ℤ → ℕ → K) : Values (ℕ × ℕ × ℕ) K :=
  { E.values3 dif adv nw with temp := fun p k => E.heatTimes H p.1 p.2.1 p.2.2 * heatVal (E.heatCtx H 3 p.1 p.2.1 p.2.2) p.1 (stencilT (cols3 p) c dof) k }

end Space

end Xolotl.Solver.Matrix
