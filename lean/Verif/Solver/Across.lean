import Verif.Solver.Boundary

/-!
# Grain boundaries across the second dimension in the matrix

The terms of the advection towards grain boundaries across `y` (`YGBAdvectionHandler`) in `rhsFunction` and their numbers in `rhsJacobian` on a grid of two dimensions, beside the advection towards the surface.  The columns of the numbers
are announced once, for the position 0 in `y`, whatever the row.
-/

namespace Xolotl.Solver.Matrix

open Xolotl.Solver.Coo Xolotl.Transport

variable {K : Type} [Field K] [LinearOrder K] [IsStrictOrderedRing K]

namespace Space

variable (E : Space K) (H : Bounds K) (hY : K)

/-- The announced rows of the two columns of a point in row `y`: the position given to the handler is 0.  PetscSolver2DHandler.cpp:232-252; /repo/xolotl/core/src/advection/YGBAdvectionHandler.cpp:217-228. -/
def announcedY (loc : K) (y : ℕ) : ℤ × ℤ := advCols (decide (Adv.onSink loc 0)) (Adv.stencil loc 0) y

/-- The layout: the advection of `surf` towards the surface, then that of `ids` towards each boundary.  The numbers are put where they are announced.  PetscSolver2DHandler.cpp:208-266. -/
def acrossSetup (dof xs xm ys ym : ℕ) (dif surf ids : List ℕ) (nw : List (ℕ × ℕ)) : Setup (ℕ × ℕ) (ℤ × ℤ) :=
  { setup2 dof xs xm ys ym dif (some surf) nw with
    adv := (setup2 dof xs xm ys ym dif (some surf) nw).adv ++
      H.locs.map fun loc => ⟨ids, fun p => ((p.1, (announcedY loc p.2).1), (p.1, (announcedY loc p.2).2)), fun p => ((p.1, (announcedY loc p.2).1), (p.1, (announcedY loc p.2).2))⟩ }

/-- The rate of the `k`-th advecting cluster `n` at the point `(x, y)` towards a boundary, from its concentrations by row.  PetscSolver2DHandler.cpp:1009, 1083-1088; YGBAdvectionHandler.cpp:109-167. -/
def acrossRate (loc : K) (x y k n : ℕ) (c : ℤ → K) : K :=
  (Adv.yConc 5 (H.sink k) E.kB loc (y * hY) hY (E.dif x n).mid (E.temp x).mid fun i => if i = 3 then c ((y : ℤ) - 1) else if i = 4 then c ((y : ℤ) + 1) else c y).getD 0

/-- Its numbers.  PetscSolver2DHandler.cpp:1328, 1380-1387; YGBAdvectionHandler.cpp:182-214. -/
def acrossPart (loc : K) (x y k n : ℕ) : K × K := Adv.yPart (H.sink k) E.kB loc (y * hY) hY (E.dif x n).mid (E.temp x).mid

/-- The terms; handler 0 is that of the surface. -/
def acrossTerms (dif surf ids : List ℕ) (src : ℕ × ℕ → List (ℕ × K)) (nw : ℕ × ℕ → (ℕ → K) → List (ℕ × K)) : Terms (ℕ × ℕ) (ℤ × ℤ) K :=
  { E.terms2 dif surf src nw with
    adv := fun a p k c =>
      if a = 0 then (E.terms2 dif surf src nw).adv a p k c
      else E.acrossRate H hY (H.locs.getD (a - 1) 0) p.1 p.2 k (ids.getD k 0) fun y => c (p.1, y) (ids.getD k 0) }

/-- The numbers. -/
def acrossValues (dif surf ids : List ℕ) (nw : ℕ × ℕ → List (ℕ × K)) : Values (ℕ × ℕ) K :=
  { E.values2 dif surf nw with
    adv := fun a p k => if a = 0 then (E.values2 dif surf nw).adv a p k else E.acrossPart H hY (H.locs.getD (a - 1) 0) p.1 p.2 k (ids.getD k 0) }

end Space

end Xolotl.Solver.Matrix
