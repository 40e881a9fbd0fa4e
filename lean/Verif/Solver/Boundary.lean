import Verif.Solver.Matrix

/-!
# Grain boundaries across the depth in the matrix

The terms of the advection towards grain boundaries across `x` (`XGBAdvectionHandler`) in `rhsFunction` and their numbers in `rhsJacobian` on grids of two and three dimensions, beside the advection towards the surface, which is the first
handler (C101).  The rest of the right-hand side is that of `Verif.Solver.Matrix`.  In one dimension such a boundary stops the run; boundaries across `y` and `z` are announced for position 0 and not modelled here (C53).
-/

namespace Xolotl.Solver.Matrix

open Xolotl.Solver.Coo Xolotl.Transport

variable {K : Type} [Field K] [LinearOrder K] [IsStrictOrderedRing K]

/-- What the handlers of the boundaries know: their locations and, by position of the cluster, the strengths of the sinks, which are the same for all of them.  /repo/xolotl/core/src/advection/XGBAdvectionHandler.cpp:51-85. -/
structure Bounds (K : Type) where
  locs : List K
  sink : ℕ → K

namespace Space

variable (E : Space K) (H : Bounds K)

/-- The centre of the cell relative to the first depth, for the announcement as well as for the terms and the numbers.  PetscSolver2DHandler.cpp:233, 1082, 1379; PetscSolver3DHandler.cpp:286, 1203, 1531. -/
def centre (x : ℕ) : K := (E.grid x + E.grid (x + 1)) / 2 - E.grid 1

/-- The announced depths of the two columns.  PetscSolver2DHandler.cpp:234-252; PetscSolver3DHandler.cpp:287-308; XGBAdvectionHandler.cpp:234-244. -/
def announced (loc : K) (x : ℕ) : ℤ × ℤ := advCols (decide (Adv.onSink loc (E.centre x))) (Adv.stencil loc (E.centre x)) x

/-- The depths of the columns to which the two numbers belong: left and right on the boundary, otherwise the middle and the neighbour on the far side.  XGBAdvectionHandler.cpp:192-231. -/
def meant (loc : K) (x : ℕ) : ℤ × ℤ :=
  if |loc - E.centre x| < 1 / 1000 then ((x : ℤ) - 1, (x : ℤ) + 1) else if loc < E.centre x then ((x : ℤ), (x : ℤ) + 1) else ((x : ℤ), (x : ℤ) - 1)

/-- The layout in two dimensions: the advection of `surf` towards the surface, then that of `ids` towards each boundary.  PetscSolver2DHandler.cpp:208-266. -/
def boundSetup2 (dof xs xm ys ym : ℕ) (dif surf ids : List ℕ) (nw : List (ℕ × ℕ)) : Setup (ℕ × ℕ) (ℤ × ℤ) :=
  { setup2 dof xs xm ys ym dif (some surf) nw with
    adv := (setup2 dof xs xm ys ym dif (some surf) nw).adv ++
      H.locs.map fun loc => ⟨ids, fun p => (((E.announced loc p.1).1, p.2), ((E.announced loc p.1).2, p.2)), fun p => (((E.meant loc p.1).1, p.2), ((E.meant loc p.1).2, p.2))⟩ }

/-- The layout in three dimensions.  PetscSolver3DHandler.cpp:240-324. -/
def boundSetup3 (dof xs xm ys ym zs zm : ℕ) (dif surf ids : List ℕ) (nw : List (ℕ × ℕ)) : Setup (ℕ × ℕ × ℕ) (ℤ × ℤ × ℤ) :=
  { setup3 dof xs xm ys ym zs zm dif (some surf) nw with
    adv := (setup3 dof xs xm ys ym zs zm dif (some surf) nw).adv ++
      H.locs.map fun loc => ⟨ids, fun p => (((E.announced loc p.1).1, p.2.1, p.2.2), ((E.announced loc p.1).2, p.2.1, p.2.2)), fun p => (((E.meant loc p.1).1, p.2.1, p.2.2), ((E.meant loc p.1).2, p.2.1, p.2.2))⟩ }

/-- The rate of the `k`-th advecting cluster `n` towards a boundary, from its concentrations in the middle, left and right; the stencils of two and three dimensions are large enough for the handler.  PetscSolver2DHandler.cpp:1083-1088;
PetscSolver3DHandler.cpp:1204-1210; XGBAdvectionHandler.cpp:109-175. -/
def boundRate (dim : ℕ) (loc : K) (x k n : ℕ) (c : S1 K) : K :=
  (Adv.xConc (2 * dim + 1) (H.sink k) E.kB loc (E.centre x) (hxLeft E.grid x) (hxRight E.nX E.grid x) (E.dif x n).mid (E.temp x).mid (Line.nth c)).getD 0

/-- Its numbers; where the handler writes nothing the array keeps its zeros.  PetscSolver2DHandler.cpp:1380-1387; PetscSolver3DHandler.cpp:1532-1539; XGBAdvectionHandler.cpp:192-231. -/
def boundPart (dim : ℕ) (loc : K) (x k n : ℕ) : K × K :=
  Adv.xPart dim (H.sink k) E.kB loc (E.centre x) (hxLeft E.grid x) (hxRight E.nX E.grid x) (E.dif x n).mid (E.temp x).mid (0, 0)

/-- The terms in two dimensions; handler 0 is that of the surface. -/
def boundTerms2 (dif surf ids : List ℕ) (src : ℕ × ℕ → List (ℕ × K)) (nw : ℕ × ℕ → (ℕ → K) → List (ℕ × K)) : Terms (ℕ × ℕ) (ℤ × ℤ) K :=
  { E.terms2 dif surf src nw with
    adv := fun a p k c =>
      if a = 0 then (E.terms2 dif surf src nw).adv a p k c
      else E.boundRate H 2 (H.locs.getD (a - 1) 0) p.1 k (ids.getD k 0) ⟨c (p.1, p.2) (ids.getD k 0), c (p.1 - 1, p.2) (ids.getD k 0), c (p.1 + 1, p.2) (ids.getD k 0)⟩ }

/-- The numbers in two dimensions. -/
def boundValues2 (dif surf ids : List ℕ) (nw : ℕ × ℕ → List (ℕ × K)) : Values (ℕ × ℕ) K :=
  { E.values2 dif surf nw with
    adv := fun a p k => if a = 0 then (E.values2 dif surf nw).adv a p k else E.boundPart H 2 (H.locs.getD (a - 1) 0) p.1 k (ids.getD k 0) }

/-- The terms in three dimensions. -/
def boundTerms3 (dif surf ids : List ℕ) (src : ℕ × ℕ × ℕ → List (ℕ × K)) (nw : ℕ × ℕ × ℕ → (ℕ → K) → List (ℕ × K)) : Terms (ℕ × ℕ × ℕ) (ℤ × ℤ × ℤ) K :=
  { E.terms3 dif surf src nw with
    adv := fun a p k c =>
      if a = 0 then (E.terms3 dif surf src nw).adv a p k c
      else E.boundRate H 3 (H.locs.getD (a - 1) 0) p.1 k (ids.getD k 0) ⟨c (p.1, p.2.1, p.2.2) (ids.getD k 0), c (p.1 - 1, p.2.1, p.2.2) (ids.getD k 0), c (p.1 + 1, p.2.1, p.2.2) (ids.getD k 0)⟩ }

/-- The numbers in three dimensions. -/
def boundValues3 (dif surf ids : List ℕ) (nw : ℕ × ℕ × ℕ → List (ℕ × K)) : Values (ℕ × ℕ × ℕ) K :=
  { E.values3 dif surf nw with
    adv := fun a p k => if a = 0 then (E.values3 dif surf nw).adv a p k else E.boundPart H 3 (H.locs.getD (a - 1) 0) p.1 k (ids.getD k 0) }

end Space

end Xolotl.Solver.Matrix
