import Verif.Solver.Across

/-!
# Grain boundaries across the second and third dimension in the matrix of three dimensions

The terms of the advection towards grain boundaries across `y` and `z` (`YGBAdvectionHandler`, `ZGBAdvectionHandler`) on a grid of three dimensions, in any order, beside the advection towards the surface.  The columns of the numbers are
announced for the position 0 in `y` and `z`.
-/

namespace Xolotl.Solver.Matrix

open Xolotl.Solver.Coo Xolotl.Transport

variable {K : Type} [Field K] [LinearOrder K] [IsStrictOrderedRing K]

namespace Space

/-- The boundaries, each with its direction (`true` across `z`, `false` across `y`) and location; the sink strengths, the same in all three handlers; the spacings.  YGBAdvectionHandler.cpp:15-90; ZGBAdvectionHandler.cpp:15-90. -/
structure Walls (K : Type) where
  locs : List (Bool × K)
  sink : ℕ → K
  hY : K
  hZ : K

/-- The row of a point in the direction of a boundary. -/
def along (w : Bool) (p : ℕ × ℕ × ℕ) : ℕ := if w then p.2.2 else p.2.1

/-- The point in row `r` of that direction. -/
def across (w : Bool) (p : ℕ × ℕ × ℕ) (r : ℤ) : ℤ × ℤ × ℤ := if w then (p.1, p.2.1, r) else (p.1, r, p.2.2)

variable (E : Space K) (W : Walls K)

/-- The announced columns: the position given to the handler is 0 in `y` and `z`.  PetscSolver3DHandler.cpp:284-308; YGBAdvectionHandler.cpp:217-228; ZGBAdvectionHandler.cpp:219-229. -/
def wallCols (w : Bool × K) (p : ℕ × ℕ × ℕ) : (ℤ × ℤ × ℤ) × (ℤ × ℤ × ℤ) :=
  (across w.1 p (announcedY w.2 (along w.1 p)).1, across w.1 p (announcedY w.2 (along w.1 p)).2)

/-- The layout.  PetscSolver3DHandler.cpp:240-324. -/
def wallSetup (dof xs xm ys ym zs zm : ℕ) (dif surf ids : List ℕ) (nw : List (ℕ × ℕ)) : Setup (ℕ × ℕ × ℕ) (ℤ × ℤ × ℤ) :=
  { setup3 dof xs xm ys ym zs zm dif (some surf) nw with
    adv := (setup3 dof xs xm ys ym zs zm dif (some surf) nw).adv ++ W.locs.map fun w => ⟨ids, wallCols w, wallCols w⟩ }

/-- The rate of the `k`-th advecting cluster `n` at the depth `x` in row `r` of the direction, from its concentrations by row.  PetscSolver3DHandler.cpp:1119-1120, 1204-1210; YGBAdvectionHandler.cpp:109-167; ZGBAdvectionHandler.cpp:109-169. -/
def wallRate (w : Bool × K) (x r k n : ℕ) (c : ℤ → K) : K :=
  if w.1 then (Adv.zConc 7 (W.sink k) E.kB w.2 (r * W.hZ) W.hZ (E.dif x n).mid (E.temp x).mid fun i => if i = 5 then c ((r : ℤ) - 1) else if i = 6 then c ((r : ℤ) + 1) else c r).getD 0
  else (Adv.yConc 7 (W.sink k) E.kB w.2 (r * W.hY) W.hY (E.dif x n).mid (E.temp x).mid fun i => if i = 3 then c ((r : ℤ) - 1) else if i = 4 then c ((r : ℤ) + 1) else c r).getD 0

/-- Its numbers.  PetscSolver3DHandler.cpp:1474-1475, 1532-1539; YGBAdvectionHandler.cpp:182-214; ZGBAdvectionHandler.cpp:184-216. -/
def wallPart (w : Bool × K) (x r k n : ℕ) : K × K :=
  if w.1 then Adv.zPart (W.sink k) E.kB w.2 (r * W.hZ) W.hZ (E.dif x n).mid (E.temp x).mid
  else Adv.yPart (W.sink k) E.kB w.2 (r * W.hY) W.hY (E.dif x n).mid (E.temp x).mid

/-- The boundary of handler `a`; handler 0 is that of the surface. -/
def Walls.wall (a : ℕ) : Bool × K := W.locs.getD (a - 1) (false, 0)

/-- The terms. -/
def wallTerms (dif surf ids : List ℕ) (src : ℕ × ℕ × ℕ → List (ℕ × K)) (nw : ℕ × ℕ × ℕ → (ℕ → K) → List (ℕ × K)) : Terms (ℕ × ℕ × ℕ) (ℤ × ℤ × ℤ) K :=
  { E.terms3 dif surf src nw with
    adv := fun a p k c =>
      if a = 0 then (E.terms3 dif surf src nw).adv a p k c
      else E.wallRate W (W.wall a) p.1 (along (W.wall a).1 p) k (ids.getD k 0) fun r => c (across (W.wall a).1 p r) (ids.getD k 0) }

/-- The numbers. -/
def wallValues (dif surf ids : List ℕ) (nw : ℕ × ℕ × ℕ → List (ℕ × K)) : Values (ℕ × ℕ × ℕ) K :=
  { E.values3 dif surf nw with
    adv := fun a p k => if a = 0 then (E.values3 dif surf nw).adv a p k else E.wallPart W (W.wall a) p.1 (along (W.wall a).1 p) k (ids.getD k 0) }

end Space

end Xolotl.Solver.Matrix
