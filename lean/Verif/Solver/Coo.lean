import Mathlib.Order.Lattice
import Mathlib.Algebra.Order.Group.Int

/-!
# The layout of the Jacobian values

The solver announces the rows and columns of all the values of its Jacobian once (`initializeSolverContext`, `MatSetPreallocationCOO`) and later fills an array of values in the same order (`computeJacobian`, `MatSetValuesCOO`).  Both are modelled here for one, two and three dimensions; what differs is the list of points and the stencil.

A point of the grid is a `P`, a column's point (possibly a ghost) a `Q`.  An entry is a row (point and degree of freedom) with a column (point and degree of freedom); the translation to global numbers by PETSc is not modelled.  The values themselves are not modelled: a write is the index and the entry the written number is the derivative for.  All local points of one process are considered.
-/

namespace Xolotl.Solver.Coo

/-- A row and a column of the Jacobian. -/
abbrev Entry (P Q : Type) := (P × ℕ) × (Q × ℕ)

/-- An advection handler: its advecting clusters, the two columns announced for each of them at a point and the two columns its two values are the derivatives for. -/
structure Handler (P Q : Type) where
  ids : List ℕ
  reg : P → Q × Q
  real : P → Q × Q

/-- What the layout depends on.  `cols` is the stencil of temperature and diffusion, `blocks` the clusters with Soret diffusion (one dimension only) and with diffusion, `nw` the entries of the network. -/
structure Setup (P Q : Type) where
  dof : ℕ
  points : List P
  self : P → Q
  cols : P → List Q
  blocks : List (List ℕ)
  adv : List (Handler P Q)
  nw : List (ℕ × ℕ)

variable {P Q : Type}

/-- The largest number of advecting clusters.  xolotl/solver/src/handler/PetscSolver1DHandler.cpp:165-168, 1051-1054; PetscSolver2DHandler.cpp:179-182, 1132-1135. -/
def nAdvec (S : Setup P Q) : ℕ := (S.adv.map fun h => h.ids.length).foldl max 0

/-! ### The announcement -/

/-- The temperature entries of a point.  xolotl/solver/src/handler/PetscSolver1DHandler.cpp:194-197; PetscSolver2DHandler.cpp:211-216. -/
def tempSlots (S : Setup P Q) (p : P) : List (Option (Entry P Q)) := (S.cols p).map fun q => some ((p, S.dof), (q, S.dof))

/-- The diffusion (or Soret diffusion) entries of a point.  xolotl/solver/src/handler/PetscSolver1DHandler.cpp:201-213; PetscSolver2DHandler.cpp:222-229. -/
def blockSlots (S : Setup P Q) (p : P) (ids : List ℕ) : List (Option (Entry P Q)) :=
  ids.flatMap fun c => (S.cols p).map fun q => some ((p, c), (q, c))

/-- The advection entries of a handler at a point; missing ones are announced with negative coordinates, one for every missing cluster, which PETSc ignores.
xolotl/solver/src/handler/PetscSolver1DHandler.cpp:218-240; PetscSolver2DHandler.cpp:234-259. -/
def advSlots (S : Setup P Q) (p : P) (h : Handler P Q) : List (Option (Entry P Q)) :=
  (h.ids.flatMap fun c => [some ((p, c), ((h.reg p).1, c)), some ((p, c), ((h.reg p).2, c))]) ++
    List.replicate (nAdvec S - h.ids.length) none

/-- The network entries of a point.  xolotl/solver/src/handler/PetscSolver1DHandler.cpp:242-245; PetscSolver2DHandler.cpp:260-263. -/
def nwSlots (S : Setup P Q) (p : P) : List (Option (Entry P Q)) := S.nw.map fun e => some ((p, e.1), (S.self p, e.2))

/-- All entries of a point but the temperature's.  xolotl/solver/src/handler/PetscSolver1DHandler.cpp:199-246; PetscSolver2DHandler.cpp:221-265. -/
def pointSlots (S : Setup P Q) (p : P) : List (Option (Entry P Q)) :=
  S.blocks.flatMap (blockSlots S p) ++ (S.adv.flatMap (advSlots S p) ++ nwSlots S p)

/-- The announced rows and columns in order; `none` stands for negative coordinates.  xolotl/solver/src/handler/PetscSolver1DHandler.cpp:192-250; PetscSolver2DHandler.cpp:209-270. -/
def slots (S : Setup P Q) : List (Option (Entry P Q)) := S.points.flatMap (tempSlots S) ++ S.points.flatMap (pointSlots S)

/-! ### The evaluation -/

/-- The temperature values.  The index advances by the size of the stencil at every local point, whether values are computed or not, and all are copied.
xolotl/solver/src/handler/PetscSolver1DHandler.cpp:1069-1072, 1096-1124, 1174; PetscSolver2DHandler.cpp:1151-1158, 1181-1214, 1280-1281. -/
def tempWrites (S : Setup P Q) (s : ℕ) : List (ℕ × Entry P Q) :=
  S.points.zipIdx.flatMap fun pi => (S.cols pi.1).zipIdx.map fun qk => (pi.2 * s + qk.2, ((pi.1, S.dof), (qk.1, S.dof)))

/-- What `computePartialsForDiffusion` writes from index `v` on.  xolotl/core/src/diffusion/Diffusion1DHandler.cpp:148-161; xolotl/core/src/modified/SoretDiffusionHandler.cpp:219-233. -/
def blockWrites (S : Setup P Q) (s v : ℕ) (p : P) (ids : List ℕ) : List (ℕ × Entry P Q) :=
  ids.zipIdx.flatMap fun ci => (S.cols p).zipIdx.map fun qk => (v + (ci.2 * s + qk.2), ((p, ci.1), (qk.1, ci.1)))

/-- What `computePartialsForAdvection` writes from index `v` on.  xolotl/core/src/advection/SurfaceAdvectionHandler.cpp:185-201; YGBAdvectionHandler.cpp:182-214. -/
def advWrites (v : ℕ) (p : P) (h : Handler P Q) : List (ℕ × Entry P Q) :=
  h.ids.zipIdx.flatMap fun ci => [(v + ci.2 * 2, ((p, ci.1), ((h.real p).1, ci.1))), (v + (ci.2 * 2 + 1), ((p, ci.1), ((h.real p).2, ci.1)))]

/-- The network's values from index `v` on, one for each of its entries in order.  xolotl/solver/src/handler/PetscSolver1DHandler.cpp:1321-1323. -/
def nwWrites (S : Setup P Q) (v : ℕ) (p : P) : List (ℕ × Entry P Q) := S.nw.zipIdx.map fun ek => (v + ek.2, ((p, ek.1.1), (S.self p, ek.1.2)))

/-- The loops over the kinds of diffusion: what is written and the index afterwards.  xolotl/solver/src/handler/PetscSolver1DHandler.cpp:1285-1296; PetscSolver2DHandler.cpp:1371-1375. -/
def blocksW (S : Setup P Q) (s : ℕ) (p : P) : ℕ → List (List ℕ) → List (ℕ × Entry P Q) × ℕ
  | v, [] => ([], v)
  | v, ids :: r => let t := blocksW S s p (v + s * ids.length) r; (blockWrites S s v p ids ++ t.1, t.2)

/-- The loop over the advection handlers.  xolotl/solver/src/handler/PetscSolver1DHandler.cpp:1301-1306; PetscSolver2DHandler.cpp:1380-1387. -/
def advW (n : ℕ) (p : P) : ℕ → List (Handler P Q) → List (ℕ × Entry P Q) × ℕ
  | v, [] => ([], v)
  | v, h :: r => let t := advW n p (v + 2 * n) r; (advWrites v p h ++ t.1, t.2)

/-- By how much the index advances at a point that is skipped.  xolotl/solver/src/handler/PetscSolver1DHandler.cpp:1241-1244, 1253-1256; PetscSolver2DHandler.cpp:1341-1343, 1350-1352. -/
def advance (S : Setup P Q) (s : ℕ) : ℕ := (S.blocks.map fun ids => s * ids.length).sum + 2 * nAdvec S * S.adv.length + S.nw.length

/-- The loop over the points.  Points with `skip` (outside the boundaries, or on a grain boundary with a free surface) advance the index; points with `stop` (the first point of the grid, one dimension only) do not.
xolotl/solver/src/handler/PetscSolver1DHandler.cpp:1236-1325; PetscSolver2DHandler.cpp:1284-1410. -/
def pointsW (S : Setup P Q) (s : ℕ) (skip stop : P → Bool) : ℕ → List P → List (ℕ × Entry P Q) × ℕ
  | v, [] => ([], v)
  | v, p :: r =>
    if skip p then pointsW S s skip stop (v + advance S s) r
    else if stop p then pointsW S s skip stop v r
    else
      let a := blocksW S s p v S.blocks
      let b := advW (nAdvec S) p a.2 S.adv
      let t := pointsW S s skip stop (b.2 + S.nw.length) r
      (a.1 ++ (b.1 ++ nwWrites S b.2 p) ++ t.1, t.2)

/-- All writes of `computeJacobian`.  xolotl/solver/src/handler/PetscSolver1DHandler.cpp:1066-1325; PetscSolver2DHandler.cpp:1148-1410. -/
def writes (S : Setup P Q) (s : ℕ) (skip stop : P → Bool) : List (ℕ × Entry P Q) :=
  tempWrites S s ++ (pointsW S s skip stop (S.points.length * s) S.points).1

/-- The index after the last value. -/
def finalIndex (S : Setup P Q) (s : ℕ) (skip stop : P → Bool) : ℕ := (pointsW S s skip stop (S.points.length * s) S.points).2

/-- How often the temperature equation of a local point is evaluated in one dimension, both in the right-hand side and in the Jacobian; `free` says that the point is neither outside the boundaries nor on a grain boundary.
xolotl/solver/src/handler/PetscSolver1DHandler.cpp:818-851, 876-918, 1111-1124, 1162-1172. -/
def tempTimes (nX : ℕ) (robin : Bool) (free : ℕ → Bool) (xi : ℕ) : ℕ :=
  (if xi = 0 ∨ (xi = nX - 1 ∧ robin = true) then 1 else 0) + (if free xi then 1 else 0)

/-- The points with transport and reactions in one dimension: `false` means skipped.  xolotl/solver/src/handler/PetscSolver1DHandler.cpp:876-890, 1146-1160, 1238-1257. -/
def free1 (nX left right : ℕ) (gb : List ℕ) (xi : ℕ) : Bool := decide (left ≤ xi) && decide (xi ≤ nX - 1 - right) && !gb.contains xi

/-- The stencil in one dimension.  xolotl/solver/src/handler/PetscSolver1DHandler.cpp:195-197. -/
def cols1 (i : ℕ) : List ℤ := [i, (i : ℤ) - 1, (i : ℤ) + 1]

/-- The layout in one dimension on a process with grid points `xs, …, xs + xm - 1`. -/
def setup1 (dof xs xm : ℕ) (soret dif : List ℕ) (adv : List (Handler ℕ ℤ)) (nw : List (ℕ × ℕ)) : Setup ℕ ℤ where
  dof := dof
  points := List.range' xs xm
  self := fun i => i
  cols := cols1
  blocks := [soret, dif]
  adv := adv
  nw := nw

/-- The columns announced for, or belonging to the two values of, a handler with offset `o` at row `j`, `on` being whether the point is on its sink.  xolotl/solver/src/handler/PetscSolver2DHandler.cpp:234-252. -/
def advCols (on : Bool) (o : ℤ) (j : ℤ) : ℤ × ℤ := if on then (j - o, j + o) else (j, j + o)

end Xolotl.Solver.Coo
