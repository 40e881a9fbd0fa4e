import Verif.Solver.Exchange

/-!
# The initial state

Model of the first branch of `initializeConcentration` (`surfaceOffset == 0`) of the four handlers: the temperatures of the grid points, the concentrations given by the options, the values of a restart file and the
vector of temperatures that the network gets; and of the conditions under which the right-hand side leaves a grid point alone.  The grid is a function of the index.  `none` is undefined behaviour or a thrown
exception: an index outside of a vector or of a grid point, or a grid point for which the file has no pairs.

The comparisons `i >= leftOffset` convert the `PetscInt` to unsigned; they are only reached with `i >= localXS`.  `nX - rightOffset` and `nX - 1 - rightOffset` are computed with unsigned numbers of 32 bits (`IdType`).
Not modelled: the grids of the diffusion and advection handlers (`Transport.Mask`), the interpolation in one dimension (`TempTransfer`), opening the file (`checkForRestart`), the reading itself (`IO.Ragged`).
-/

namespace Xolotl.Solver.Initial

open Xolotl.Solver.Exchange

/-- The setting; `grid` is `temperatureGrid` in one dimension, `last` its last index, `temp` the temperature handler at time 0, `surf` (of `k`, `j`) the surface, `gb` the grid points of the grain boundaries (`x`, `y`, `z`).
xolotl/solver/include/xolotl/solver/handler/SolverHandler.h:34, 55-64, 84-108; xolotl/solver/src/handler/SolverHandler.cpp:526-531. -/
structure Setting (K : Type) where
  nX : ℕ
  nY : ℕ
  nZ : ℕ
  left : ℕ
  right : ℕ
  bottom : ℕ
  top : ℕ
  front : ℕ
  back : ℕ
  surf : ℕ → ℕ → ℕ
  grid : ℕ → K
  last : ℕ
  hy : K
  hz : K
  dof : ℕ
  temp : K × K × K → K
  initial : List (ℕ × K)
  gb : List (ℕ × ℕ × ℕ)

variable {K : Type} [Field K] [LinearOrder K] (g : Setting K)

/-- `n - o` of unsigned numbers.  xolotl/config.h.in:18-24 (`IdType`). -/
def usub (n o : ℕ) : ℕ := (((n : ℤ) - o) % 2 ^ 32).toNat

/-- The relative position.  xolotl/solver/src/handler/PetscSolver1DHandler.cpp:312-321; PetscSolver2DHandler.cpp:329-335; PetscSolver3DHandler.cpp:387-396. -/
def relative (s : ℕ) (i : ℤ) : K :=
  if i < 0 then (g.grid 0 - g.grid (s + 1)) / (g.grid g.last - g.grid (s + 1))
  else ((g.grid i.toNat + g.grid (i.toNat + 1)) / 2 - g.grid (s + 1)) / (g.grid g.last - g.grid (s + 1))

/-- `gridPosition`.  xolotl/solver/src/handler/PetscSolver0DHandler.cpp:118; PetscSolver1DHandler.cpp:311-321; PetscSolver2DHandler.cpp:328-335; PetscSolver3DHandler.cpp:385-396. -/
def gridPosition : Dim → ℕ → ℕ → ℤ → K × K × K
  | .zero, _, _, _ => (0, 0, 0)
  | .one, _, _, i => (relative g 0 i, 0, 0)
  | .two, _, j, i => (relative g (g.surf 0 j) i, (j : K) * g.hy, 0)
  | .three, k, j, i => (relative g (g.surf k j) i, (j : K) * g.hy, (k : K) * g.hz)

/-- Where the concentrations of the options are put.  xolotl/solver/src/handler/PetscSolver0DHandler.cpp:133; PetscSolver1DHandler.cpp:338-339; PetscSolver2DHandler.cpp:353-355; PetscSolver3DHandler.cpp:414-417. -/
def given : Dim → Place → Bool
  | .zero, _ => true
  | .one, p => decide (g.left ≤ p.2.2 ∧ p.2.2 < usub g.nX g.right)
  | .two, p => decide (g.surf 0 p.2.1 + g.left ≤ p.2.2 ∧ p.2.2 < usub g.nX g.right ∧ g.bottom ≤ p.2.1 ∧ p.2.1 < usub g.nY g.top)
  | .three, p => decide (g.surf p.1 p.2.1 + g.left ≤ p.2.2 ∧ p.2.2 < usub g.nX g.right ∧ g.bottom ≤ p.2.1 ∧ p.2.1 < usub g.nY g.top ∧
      g.front ≤ p.1 ∧ p.1 < usub g.nZ g.back)

/-- Where the right-hand side goes on to the next grid point before it computes anything for the clusters.
xolotl/solver/src/handler/PetscSolver1DHandler.cpp:971-986; PetscSolver2DHandler.cpp:1054-1068; PetscSolver3DHandler.cpp:1172-1188. -/
def skipped : Dim → Place → Bool
  | .zero, _ => false
  | .one, p => decide (p.2.2 < g.left ∨ usub g.nX (1 + g.right) < p.2.2) || g.gb.any (fun q => q.1 == p.2.2) || p.2.2 == 0
  | .two, p => decide (p.2.2 < g.surf 0 p.2.1 + g.left ∨ usub g.nX (1 + g.right) < p.2.2 ∨ p.2.1 < g.bottom ∨ usub g.nY (1 + g.top) < p.2.1) ||
      g.gb.any (fun q => q.1 == p.2.2 && q.2.1 == p.2.1)
  | .three, p => decide (p.2.2 < g.surf p.1 p.2.1 + g.left ∨ usub g.nX (1 + g.right) < p.2.2 ∨ p.2.1 < g.bottom ∨ usub g.nY (1 + g.top) < p.2.1 ∨
      p.1 < g.front ∨ usub g.nZ (1 + g.back) < p.1) || g.gb.any (fun q => q.1 == p.2.2 && q.2.1 == p.2.1 && q.2.2 == p.1)

/-- `temperature[m] = t`.  xolotl/solver/src/handler/PetscSolver0DHandler.cpp:120, 156; PetscSolver1DHandler.cpp:323, 365; PetscSolver2DHandler.cpp:338, 388; PetscSolver3DHandler.cpp:399, 451. -/
def setAt (T : List K) (m : ℕ) (t : K) : Option (List K) := if m < T.length then some (T.set m t) else none

/-- The state of the rank: the vector of temperatures and the values of the grid points. -/
abbrev State (K : Type) := List K × (Place → ℕ → K)

/-- One owned grid point without the file.  xolotl/solver/src/handler/PetscSolver0DHandler.cpp:112-119, 132-137; PetscSolver1DHandler.cpp:329-343; PetscSolver2DHandler.cpp:344-359; PetscSolver3DHandler.cpp:405-421. -/
def fresh (d : Dim) (has : Bool) (p : Place) (t : K) (u : ℕ → K) : Option (ℕ → K) :=
  let u := Function.update u g.dof t
  let u := fun n => if n < g.dof then 0 else u n
  if given g d p && !has then write g.dof u g.initial else some u

/-- One pass of the innermost loop, `i = localXS + m - 1`: grid points that are not of the rank only give a temperature.
xolotl/solver/src/handler/PetscSolver1DHandler.cpp:308-344; PetscSolver2DHandler.cpp:325-360; PetscSolver3DHandler.cpp:382-422. -/
def pass (d : Dim) (b : Box) (has : Bool) (kj : ℕ × ℕ) (st : State K) (m : ℕ) : Option (State K) := do
  let i : ℤ := (b.xs : ℤ) + m - 1
  let t := g.temp (gridPosition g d kj.1 kj.2 i)
  let T ← setAt st.1 m t
  if i < b.xs ∨ (b.xs : ℤ) + b.xm ≤ i then pure (T, st.2)
  else
    let p := (kj.1, kj.2, i.toNat)
    let u ← fresh g d has p t (st.2 p)
    pure (T, Function.update st.2 p u)

/-- The lines of the rank: `k`, `j`.  xolotl/solver/src/handler/PetscSolver2DHandler.cpp:324; PetscSolver3DHandler.cpp:380-381. -/
def lines : Dim → Box → List (ℕ × ℕ)
  | .zero, _ => [(0, 0)]
  | .one, _ => [(0, 0)]
  | .two, b => (List.range b.ym).map fun j => (0, b.ys + j)
  | .three, b => (List.range b.zm).flatMap fun k => (List.range b.ym).map fun j => (b.zs + k, b.ys + j)

/-- The loops over the grid points.  xolotl/solver/src/handler/PetscSolver0DHandler.cpp:112-137; PetscSolver1DHandler.cpp:308-344; PetscSolver2DHandler.cpp:324-361; PetscSolver3DHandler.cpp:380-422. -/
def start (d : Dim) (b : Box) (has : Bool) (st : State K) : Option (State K) :=
  match d with
  | .zero => do
    let t := g.temp (gridPosition g .zero 0 0 0)
    let T ← setAt st.1 0 t
    let u ← fresh g .zero has (0, 0, 0) t (st.2 (0, 0, 0))
    pure (T, Function.update st.2 (0, 0, 0) u)
  | d => (lines d b).foldlM (fun st kj => (List.range (b.xm + 2)).foldlM (pass g d b has kj) st) st

/-- The grid points in the order in which the values of the file are applied, with the test whether they are of the rank; one dimension and none go over those of the rank.
xolotl/solver/src/handler/PetscSolver0DHandler.cpp:149; PetscSolver1DHandler.cpp:357-358; PetscSolver2DHandler.cpp:370-379; PetscSolver3DHandler.cpp:431-442. -/
def applied : Dim → Box → List Place
  | .zero, _ => [(0, 0, 0)]
  | .one, b => (List.range b.xm).map fun i => (0, 0, b.xs + i)
  | .two, b => ((List.range g.nY).flatMap fun j => (List.range g.nX).map fun i => (0, j, i)).filter fun p =>
      decide (b.xs ≤ p.2.2 ∧ p.2.2 < b.xs + b.xm ∧ b.ys ≤ p.2.1 ∧ p.2.1 < b.ys + b.ym)
  | .three, b => ((List.range g.nZ).flatMap fun k => (List.range g.nY).flatMap fun j => (List.range g.nX).map fun i => (k, j, i)).filter fun p =>
      decide (b.xs ≤ p.2.2 ∧ p.2.2 < b.xs + b.xm ∧ b.ys ≤ p.2.1 ∧ p.2.1 < b.ys + b.ym ∧ b.zs ≤ p.1 ∧ p.1 < b.zs + b.zm)

/-- The place of a grid point in the vector of temperatures.  xolotl/solver/src/handler/PetscSolver0DHandler.cpp:156; PetscSolver1DHandler.cpp:365; PetscSolver2DHandler.cpp:388; PetscSolver3DHandler.cpp:451. -/
def tempPlace : Dim → Box → Place → ℕ
  | .zero, _, _ => 0
  | _, b, p => p.2.2 - b.xs + 1

/-- The values of the file at one grid point: all its pairs, and the last of them is taken for the temperature.
xolotl/solver/src/handler/PetscSolver0DHandler.cpp:151-156; PetscSolver1DHandler.cpp:360-365; PetscSolver2DHandler.cpp:380-388; PetscSolver3DHandler.cpp:443-451. -/
def readPoint (d : Dim) (b : Box) (file : Place → List (ℕ × K)) (st : State K) (p : Place) : Option (State K) := do
  let u ← write g.dof (st.2 p) (file p)
  let l ← (file p).getLast?
  let T ← setAt st.1 (tempPlace d b p) l.2
  pure (T, Function.update st.2 p u)

/-- The vector of temperatures before the loops: in one and two dimensions it is cleared, otherwise the entries are added to those it has.
xolotl/solver/src/handler/PetscSolver0DHandler.cpp:96; PetscSolver1DHandler.cpp:267-272; PetscSolver2DHandler.cpp:285-290; PetscSolver3DHandler.cpp:344-346. -/
def enlarge : Dim → Box → List K → List K
  | .zero, _, T => T ++ [0]
  | .one, b, _ => List.replicate (b.xm + 2) 0
  | .two, b, _ => List.replicate (b.xm + 2) 0
  | .three, b, T => T ++ List.replicate (b.xm + 2) 0

/-- The first branch of `initializeConcentration`; `file` are the pairs of the last step of the restart file, if there is one.
xolotl/solver/src/handler/PetscSolver0DHandler.cpp:91-157; PetscSolver1DHandler.cpp:263-367; PetscSolver2DHandler.cpp:281-392; PetscSolver3DHandler.cpp:339-454. -/
def initial (d : Dim) (b : Box) (file : Option (Place → List (ℕ × K))) (st : State K) : Option (State K) := do
  let st ← start g d b file.isSome (enlarge d b st.1, st.2)
  match file with
  | none => pure st
  | some f => (applied g d b).foldlM (readPoint g d b f) st

/-- The reads of the grid for the depth of one entry of the vector: the largest index.  xolotl/solver/src/handler/PetscSolver2DHandler.cpp:396-404; PetscSolver3DHandler.cpp:458-466. -/
def gridRead (b : Box) (i : ℕ) : ℕ := if b.xs + i = g.nX + 1 then b.xs + i else b.xs + i + 1

end Xolotl.Solver.Initial
