import Mathlib.Algebra.BigOperators.Fin
import Verif.Solver.Move
import Verif.Solver.Sweep

/-!
# The lines of the two- and three-dimensional solvers

In two and three dimensions the points of the grid with the same second (and third) coordinate form a line.  Model of what `PetscSolver2DHandler` and `PetscSolver3DHandler` do line by line: the helium near the surface used for the attenuation, in the right hand side and in the Jacobian; the temperatures, kept by a process for one line; and the transfer of the concentrations to a new grid.

Lines are elements of a type `L` (numbers in two dimensions, pairs in three).  A process owns the points of an interval on each of its lines.  Numbers are elements of an ordered field instead of doubles.  A reduction over all processes is the sum of the contributions of the calls with the same number; processes with different numbers of calls wait forever, which is the outcome `none`.
-/

namespace Xolotl.Solver.Lines

open Xolotl.Solver.Sweep Xolotl.Solver.Move

variable {K : Type*} [Field K] [LinearOrder K] [IsStrictOrderedRing K] {L : Type*} [DecidableEq L]

/-! ### Attenuation -/

/-- What a process owns: the points `xs ≤ x < xs + xm` of its lines, which are listed in the order of the loops over them.  `DMDAGetCorners`. -/
structure Proc (L : Type*) where
  xs : ℕ
  xm : ℕ
  lines : List L

/-- The grid: faces, number of points and offsets in the first direction, the position of the surface of a line, and the lines that are not at the boundary in the order of the loops.  xolotl/solver/include/xolotl/solver/handler/PetscSolver2DHandler.h, SolverHandler.h. -/
structure Geometry (K L : Type*) where
  grid : ℕ → K
  nX : ℕ
  left : ℕ
  right : ℕ
  surf : L → ℕ
  inner : List L

/-- The loop over a line; `here` is the test for the process, `c` the trapped helium at a point (`getTotalTrappedHeliumConcentration`).
xolotl/solver/src/handler/PetscSolver2DHandler.cpp:966-992, 1289-1315; PetscSolver3DHandler.cpp:1073-1101, 1433-1461. -/
def collect (G : Geometry K L) (here : ℕ → Bool) (c : ℕ → K) (y : L) : K :=
  (List.range' (G.surf y + G.left) (G.nX - G.right - (G.surf y + G.left))).foldl
    (fun a x => if (G.grid x + G.grid (x + 1)) / 2 - G.grid (G.surf y + 1) > 2 then a else if here x then a + c x * (G.grid (x + 1) - G.grid x) else a) 0

/-- The contribution of a process in the right hand side.  xolotl/solver/src/handler/PetscSolver2DHandler.cpp:980-981, PetscSolver3DHandler.cpp:1087-1089. -/
def shareF (G : Geometry K L) (c : L → ℕ → K) (p : Proc L) (y : L) : K := collect G (fun x => decide (p.xs ≤ x ∧ x < p.xs + p.xm ∧ y ∈ p.lines)) (c y) y

/-- The contribution of a process in the Jacobian.  xolotl/solver/src/handler/PetscSolver2DHandler.cpp:1303-1304, PetscSolver3DHandler.cpp:1447-1449. -/
def shareJ (G : Geometry K L) (c : L → ℕ → K) (p : Proc L) (y : L) : K := collect G (fun x => decide (p.xs ≤ x ∧ x < p.xs + p.xm ∧ y ∈ G.inner)) (c y) y

/-- The amounts of the inner lines in the right hand side: all processes go through all inner lines.  xolotl/solver/src/handler/PetscSolver2DHandler.cpp:961, 994-1001; PetscSolver3DHandler.cpp:1066-1067, 1103-1110. -/
def totalsF (G : Geometry K L) (c : L → ℕ → K) {np : ℕ} (ps : Fin np → Proc L) : List K := G.inner.map fun y => ∑ r, shareF G c (ps r) y

/-- The results of the reductions in the Jacobian: every process goes through its own lines.  xolotl/solver/src/handler/PetscSolver2DHandler.cpp:1284, 1317-1324; PetscSolver3DHandler.cpp:1426-1427, 1463-1470. -/
def totalsJ (G : Geometry K L) (c : L → ℕ → K) {np : ℕ} (ps : Fin np → Proc L) : Option (List K) :=
  match np with
  | 0 => some []
  | n + 1 =>
    if ∀ r, (ps r).lines.length = (ps 0).lines.length then
      some ((List.range (ps 0).lines.length).map fun k => ∑ r : Fin (n + 1), ((ps r).lines[k]?.map (shareJ G c (ps r))).getD 0)
    else none

/-- How PETSc divides `n` points among `m` processes: the number of points of process `i`. -/
def split (n m i : ℕ) : ℕ := n / m + if n % m > i then 1 else 0

/-! ### Temperatures -/

/-- The temperatures of one line: `t` is what the handler returns at the points of the process and the ghost points, `len` of them; the network is told if one of them changed.
xolotl/solver/src/handler/PetscSolver2DHandler.cpp:819-890, 942-958, 1154-1235, 1263-1279; PetscSolver3DHandler.cpp:900-985, 1047-1063, 1276-1369, 1403-1419. -/
def lineStep (len : ℕ) (st : Held K) (t : ℕ → K) : Held K :=
  let T := fun i => if i < len then refresh t st.temp i else st.temp i
  ⟨T, if (List.range len).any (differs t st.temp) then T else st.net⟩

/-- The temperatures of all lines of a process, before the first of them is used. -/
def lineSteps (len : ℕ) (ts : List (ℕ → K)) (st : Held K) : Held K := ts.foldl (lineStep len) st

/-- The second coordinate given to the temperature handler in the right hand side and the Jacobian, `yj / nY`.  xolotl/solver/src/handler/PetscSolver2DHandler.cpp:878, 1223. -/
def yFraction (nY yj : ℕ) : K := ((yj / nY : ℕ) : K)

/-- The second coordinate given to it at the beginning.  xolotl/solver/src/handler/PetscSolver2DHandler.cpp:328. -/
def yPosition (hY : K) (yj : ℕ) : K := (yj : K) * hY

/-! ### A new grid -/

/-- What is needed for the new values of one degree of freedom: grids and their sizes, the number of points, the lines that the loops leave out, the value a new vector starts with, whether it is the temperature, and its initial concentration if it has one. -/
structure Change (K L : Type*) where
  old : ℕ → K
  oldSize : ℕ
  new : ℕ → K
  newSize : ℕ
  nX : ℕ
  skipped : L → Bool
  fresh : K
  isTemp : Bool
  init : Option K

/-- The interpolation.  xolotl/solver/src/handler/PetscSolver2DHandler.cpp:432-536, PetscSolver3DHandler.cpp:494-606. -/
def interpolated (S : Change K L) (c : L → ℕ → K) (y : L) (x : ℕ) : K :=
  if S.skipped y = false ∧ 1 ≤ x ∧ x < S.nX then (transfer S.old S.oldSize (c y) (distance S.new S.newSize x)).getD S.fresh else S.fresh

/-- The new values: interpolation, then the points at the surface, then the first block.  The first process is taken to own the points 0 and 1; `origin` is the line with all coordinates 0.
xolotl/solver/src/handler/PetscSolver2DHandler.cpp:540-556, 575-600; PetscSolver3DHandler.cpp:608-625, 645-670. -/
def renewed (S : Change K L) (c : L → ℕ → K) (origin : L) (y : L) (x : ℕ) : K :=
  if y = origin ∧ x = 0 then c origin 0
  else if S.skipped y = false ∧ x = 0 ∧ S.isTemp = true then interpolated S c y 1
  else if S.skipped y = false ∧ x = 1 then S.init.getD (interpolated S c y 1)
  else interpolated S c y x

/-- Lines left out in two dimensions: the loop starts at 1.  xolotl/solver/src/handler/PetscSolver2DHandler.cpp:432. -/
def skipped2 (y : ℕ) : Bool := decide (¬ 1 ≤ y)

/-- Lines left out in three dimensions.  xolotl/solver/src/handler/PetscSolver3DHandler.cpp:494-495. -/
def skipped3 (y : ℕ × ℕ) : Bool := decide (¬ (1 ≤ y.1 ∧ 1 ≤ y.2))

/-- The temperatures a process takes from the new vector: it reads its interval on all lines from 1 on; `false` if it reads a line it does not own.  xolotl/solver/src/handler/PetscSolver2DHandler.cpp:432, 540-547. -/
def ownsRead (nY ys ym xm : ℕ) : Bool := (List.range' 1 (nY - 1)).all fun y => decide (xm = 0) || decide (ys ≤ y ∧ y < ys + ym)

end Xolotl.Solver.Lines
