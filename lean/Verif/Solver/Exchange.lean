import Verif.Flux.Profile
import Mathlib.Algebra.Order.Field.Basic
import Mathlib.Algebra.Order.Group.Abs

/-!
# The state handed out and put back through the interface

A program that drives Xolotl (`XolotlInterface`) saves the state of an instance with `getConcVector`, `getLocalNE`, `getPreviousTime`, `getCurrentDt` and `getNXeGB`, and puts it back with the corresponding setters when it repeats a step.

The solution is a function of the place (`z`, `y`, `x`) and of the degree of freedom; the one after those of the network is the temperature.  Numbers are elements of an ordered field.  Not modelled: PETSc's calls, the reaction rates computed from the temperatures.
-/

namespace Xolotl.Solver.Exchange

open Xolotl.Flux

variable {K : Type} [Field K] [LinearOrder K] [IsStrictOrderedRing K]

/-- The handlers. -/
inductive Dim
  | zero
  | one
  | two
  | three
  deriving DecidableEq, Repr

/-- The points of a rank.  xolotl/solver/include/xolotl/solver/handler/SolverHandler.h:84-95, 388-398. -/
structure Box where
  xs : ℕ
  xm : ℕ
  ys : ℕ
  ym : ℕ
  zs : ℕ
  zm : ℕ

/-- A place: `z`, `y`, `x`. -/
abbrev Place := ℕ × ℕ × ℕ

/-- The bounds of the loops over the points: of `k`, `j`, `i`.
xolotl/solver/src/handler/PetscSolver0DHandler.cpp:191, 228; PetscSolver1DHandler.cpp:664, 699; PetscSolver2DHandler.cpp:696-698, 733-734; PetscSolver3DHandler.cpp:765-770, 807-809. -/
def counts : Dim → Box → ℕ × ℕ × ℕ
  | .zero, _ => (1, 1, 1)
  | .one, b => (1, 1, b.xm)
  | .two, b => (1, b.ym, b.xm)
  | .three, b => (b.zm, b.ym, b.xm)

/-- The place of a point of the loops.
PetscSolver0DHandler.cpp:191, 228; PetscSolver1DHandler.cpp:665, 700; PetscSolver2DHandler.cpp:699, 735; PetscSolver3DHandler.cpp:771-772, 810-811. -/
def place : Dim → Box → ℕ → ℕ → ℕ → Place
  | .zero, _, _, _, _ => (0, 0, 0)
  | .one, b, _, _, i => (0, 0, b.xs + i)
  | .two, b, _, j, i => (0, b.ys + j, b.xs + i)
  | .three, b, k, j, i => (b.zs + k, b.ys + j, b.xs + i)

/-- The value below which nothing is saved.  PetscSolver1DHandler.cpp:670; PetscSolver2DHandler.cpp:704; PetscSolver3DHandler.cpp:777. -/
def tiny : K := 1 / 10 ^ 16

/-- Which values are saved; without grid, all.  PetscSolver0DHandler.cpp:195-199; PetscSolver1DHandler.cpp:670; PetscSolver2DHandler.cpp:704; PetscSolver3DHandler.cpp:777. -/
def kept : Dim → K → Bool
  | .zero, _ => true
  | _, v => decide (tiny < |v|)

/-- The pairs of one point.  PetscSolver0DHandler.cpp:194-199; PetscSolver1DHandler.cpp:668-673; PetscSolver2DHandler.cpp:702-708; PetscSolver3DHandler.cpp:775-781. -/
def pairs (d : Dim) (dof : ℕ) (u : ℕ → K) : List (ℕ × K) :=
  ((List.range (dof + 1)).filter fun l => kept d (u l)).map fun l => (l, u l)

/-- What is handed out. -/
abbrev Vecs (K : Type) := List (List (List (List (ℕ × K))))

/-- `getConcVector`.  PetscSolver0DHandler.cpp:171-211; PetscSolver1DHandler.cpp:643-685; PetscSolver2DHandler.cpp:674-719; PetscSolver3DHandler.cpp:745-793. -/
def get (d : Dim) (b : Box) (dof : ℕ) (s : Place → ℕ → K) : Vecs K :=
  (List.range (counts d b).1).map fun k => (List.range (counts d b).2.1).map fun j => (List.range (counts d b).2.2).map fun i =>
    pairs d dof (s (place d b k j i))

/-- `gridPointSolution[first] = second` for the pairs of one point; `none`: an index that is not one of the point.
PetscSolver0DHandler.cpp:231-234; PetscSolver1DHandler.cpp:703-706; PetscSolver2DHandler.cpp:738-741; PetscSolver3DHandler.cpp:814-817. -/
def write (dof : ℕ) (u : ℕ → K) (ps : List (ℕ × K)) : Option (ℕ → K) :=
  ps.foldlM (fun u p => if p.1 ≤ dof then some (Function.update u p.1 p.2) else none) u

/-- One point; `none`: a vector is too short.  PetscSolver1DHandler.cpp:699-707; PetscSolver2DHandler.cpp:733-742; PetscSolver3DHandler.cpp:807-818. -/
def writeAt (d : Dim) (b : Box) (dof : ℕ) (v : Vecs K) (s : Place → ℕ → K) (p : ℕ × ℕ × ℕ) : Option (Place → ℕ → K) := do
  let q ← v[p.1]?
  let r ← q[p.2.1]?
  let ps ← r[p.2.2]?
  let u ← write dof (s (place d b p.1 p.2.1 p.2.2)) ps
  pure (Function.update s (place d b p.1 p.2.1 p.2.2) u)

/-- The points in the order of the loops. -/
def points (d : Dim) (b : Box) : List (ℕ × ℕ × ℕ) :=
  (List.range (counts d b).1).flatMap fun k => (List.range (counts d b).2.1).flatMap fun j => (List.range (counts d b).2.2).map fun i => (k, j, i)

/-- The first part of `setConcVector`.  PetscSolver0DHandler.cpp:213-234; PetscSolver1DHandler.cpp:687-712; PetscSolver2DHandler.cpp:721-748; PetscSolver3DHandler.cpp:795-825. -/
def put (d : Dim) (b : Box) (dof : ℕ) (v : Vecs K) (s : Place → ℕ → K) : Option (Place → ℕ → K) :=
  (points d b).foldlM (writeAt d b dof v) s

/-- The places of a rank. -/
def owned (d : Dim) (b : Box) (p : Place) : Prop :=
  match d with
  | .zero => p = (0, 0, 0)
  | .one => p.1 = 0 ∧ p.2.1 = 0 ∧ b.xs ≤ p.2.2 ∧ p.2.2 < b.xs + b.xm
  | .two => p.1 = 0 ∧ b.ys ≤ p.2.1 ∧ p.2.1 < b.ys + b.ym ∧ b.xs ≤ p.2.2 ∧ p.2.2 < b.xs + b.xm
  | .three => b.zs ≤ p.1 ∧ p.1 < b.zs + b.zm ∧ b.ys ≤ p.2.1 ∧ p.2.1 < b.ys + b.ym ∧ b.xs ≤ p.2.2 ∧ p.2.2 < b.xs + b.xm

/-- All ranks save: each its part. -/
def getAll (d : Dim) (bs : List Box) (dof : ℕ) (s : Place → ℕ → K) : List (Box × Vecs K) := bs.map fun b => (b, get d b dof s)

/-- All ranks put back. -/
def putAll (d : Dim) (dof : ℕ) (vs : List (Box × Vecs K)) (s : Place → ℕ → K) : Option (Place → ℕ → K) :=
  vs.foldlM (fun s v => put d v.1 dof v.2 s) s

/-! ### The temperatures -/

/-- An `int` compared with an `IdType` of `w` bits: the usual conversions make it unsigned.  xolotl/config.h.in:17-24. -/
def intLe (w : ℕ) (i : ℤ) (n : ℕ) : Bool := decide (i % 2 ^ w ≤ n)

/-- `for (auto i = -1; i <= localXM; ++i)`: the values of `i` for which the body runs.  (No more than `localXM + 2` iterations are possible.)
PetscSolver1DHandler.cpp:727; PetscSolver2DHandler.cpp:764; PetscSolver3DHandler.cpp:842. -/
def visited (w xm : ℕ) : List ℤ := ((List.range (xm + 2)).map fun (n : ℕ) => (n : ℤ) - 1).takeWhile fun i => intLe w i xm

/-- The loop that takes the temperatures of a line from the solution: `at i` is the temperature at the `i`-th point of the rank, the ghost points being -1 and `localXM`.
PetscSolver1DHandler.cpp:726-732; PetscSolver2DHandler.cpp:764-769; PetscSolver3DHandler.cpp:842-848. -/
def copy (w xm : ℕ) (line : ℤ → K) (T : ℕ → K) : ℕ → K :=
  (visited w xm).foldl (fun T i => Function.update T (i + 1).toNat (line i)) T

/-- The temperatures of the handler after `setConcVector`; they are those handed to the network, in one dimension after an interpolation.
PetscSolver0DHandler.cpp:236-239; PetscSolver1DHandler.cpp:726-743; PetscSolver2DHandler.cpp:762-782; PetscSolver3DHandler.cpp:839-862. -/
def temps (w : ℕ) (d : Dim) (b : Box) (dof : ℕ) (ghosted : ℤ → ℤ → ℤ → ℕ → K) (T : ℕ → K) : ℕ → K :=
  match d with
  | .zero => Function.update T 0 (ghosted 0 0 0 dof)
  | .one => copy w b.xm (fun i => ghosted 0 0 (b.xs + i) dof) T
  | .two => (List.range b.ym).foldl (fun T (j : ℕ) => copy w b.xm (fun i => ghosted 0 (b.ys + j) (b.xs + i) dof) T) T
  | .three => (List.range b.zm).foldl (fun T (k : ℕ) => (List.range b.ym).foldl (fun T (j : ℕ) =>
      copy w b.xm (fun i => ghosted (b.zs + k) (b.ys + j) (b.xs + i) dof) T) T) T

/-- What the next evaluation of the equations does with the temperature of a point.  PetscSolver1DHandler.cpp:866-874. -/
def refresh (T new : K) : K := if 1 / 10 < |T - new| then new else T

/-! ### The other values -/

/-- What the interface can read and set besides the concentrations. -/
structure Rest (K : Type) where
  /-- `localNE` -/
  localNE : List (List (List (K × K × K × K)))
  /-- `previousTime` -/
  previousTime : K
  /-- the fluence and the amplitude of the flux -/
  flu : Flu K
  /-- the time of PETSc -/
  time : K
  /-- the time step of PETSc -/
  dt : K
  /-- `nXeGB` -/
  nXe : K

/-- What is saved. -/
structure Saved (K : Type) where
  localNE : List (List (List (K × K × K × K)))
  previousTime : K
  dt : K
  nXe : K

/-- The getters.  xolotl/interface/src/XolotlInterface.cpp:199-205, 261-266, 276-281, 290-295; SolverHandler.h:350-354, 466-470, 486-490; xolotl/solver/src/PetscSolver.cpp:321-329. -/
def save (r : Rest K) : Saved K := ⟨r.localNE, r.previousTime, r.dt, r.nXe⟩

/-- The setters; the time of PETSc is set to the previous time.
XolotlInterface.cpp:207-215, 268-274, 283-288, 297-302; SolverHandler.h:339-345, 475-481, 495-499; PetscSolver.cpp:331-337. -/
def restore (factors : List K) (v : Saved K) (r : Rest K) : Option (Rest K) :=
  (computeFluence factors r.flu v.previousTime).map fun f =>
    { localNE := v.localNE, previousTime := v.previousTime, flu := f, time := v.previousTime, dt := v.dt, nXe := v.nXe }

end Xolotl.Solver.Exchange
