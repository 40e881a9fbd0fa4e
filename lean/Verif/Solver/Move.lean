import Mathlib.Algebra.Order.Field.Basic
import Mathlib.Algebra.BigOperators.Intervals

/-!
# Moving the surface

Model of the part of `SolverHandler::generateGrid` for a surface that moved, of the transfer of the concentrations to the new grid (`PetscSolver1DHandler::initializeConcentration`), and of the account of interstitials kept by `PetscMonitor1D::postEventFunction`.  Numbers are elements of an ordered field instead of doubles.  Reading outside a vector is `none`.
-/

namespace Xolotl.Solver.Move

variable {K : Type*} [Field K] [LinearOrder K] [IsStrictOrderedRing K]

/-- The tolerance `1.0e-4`. -/
def tol : K := 1 / 10 ^ 4

/-- Adding grid points.  xolotl/solver/src/handler/SolverHandler.cpp:354-375. -/
def grow (g : List K) (n : ℕ) : Option (List K) := do
  let a ← g[n]?
  let o ← g[0]?
  if g.length < 4 then none
  else
    let x1 ← g[g.length - 2]?
    let x2 ← g[g.length - 3]?
    let x3 ← g[g.length - 4]?
    let y := x1 + (a - o)
    if x1 - x2 < x2 - x3 - tol then some ((g.set (g.length - 2) y).set (g.length - 1) (2 * y - x2))
    else some (g.set (g.length - 1) y ++ [2 * y - x1])

/-- The loop that removes points at the end of the grid.  xolotl/solver/src/handler/SolverHandler.cpp:384-389. -/
def trim (g : List K) : Option (List K) :=
  if h : g.length < 3 then none
  else
    let v := g[g.length - 2]'(by omega)
    if v < g[g.length - 3]'(by omega) + tol then trim ((g.set (g.length - 3) v).dropLast) else some g
termination_by g.length
decreasing_by simp; omega

/-- Removing grid points (`n` is the opposite of the offset).  xolotl/solver/src/handler/SolverHandler.cpp:379-393. -/
def retract (g : List K) (n : ℕ) : Option (List K) := do
  let a ← g[n]?
  let o ← g[0]?
  if g.length < 2 then none
  else
    let x ← g[g.length - 2]?
    let t ← trim (g.set (g.length - 2) (x - (a - o)))
    let p ← t[t.length - 2]?
    let q ← t[t.length - 3]?
    some (t.set (t.length - 1) (2 * p - q))

/-- `generateGrid` with an offset that is not zero.  xolotl/solver/src/handler/SolverHandler.cpp:349-394. -/
def move (g : List K) (offset : ℤ) : Option (List K) := if offset > 0 then grow g offset.toNat else retract g (-offset).toNat

/-- The grid after a sequence of moves. -/
def moves (g : List K) (l : List ℤ) : Option (List K) := l.foldlM move g

/-! ### Concentrations -/

/-- The search for the old segment: the first `i` from 1 with `distance > right - 1.0e-4`, for `i < size - 1`.  xolotl/solver/src/handler/PetscSolver1DHandler.cpp:410-415. -/
def segment (old : ℕ → K) (size : ℕ) (distance : K) : Option ℕ :=
  (List.range' 1 (size - 2)).find? fun i => decide (distance > old (size - 2) - old (i + 1) - tol)

/-- The new concentration at distance `distance` from the bottom; `c i` is the old concentration at grid point `i`.  xolotl/solver/src/handler/PetscSolver1DHandler.cpp:404-416, 488-500. -/
def transfer (old : ℕ → K) (size : ℕ) (c : ℕ → K) (distance : K) : Option K :=
  (segment old size distance).map fun i =>
    let left := old (size - 2) - old i
    let right := old (size - 2) - old (i + 1)
    c (i - 1) + (c i - c (i - 1)) * ((distance - left) / (right - left))

/-- The distance of grid point `xi` from the bottom.  xolotl/solver/src/handler/PetscSolver1DHandler.cpp:409. -/
def distance (new : ℕ → K) (size xi : ℕ) : K := new (size - 2) - new (xi + 1)

/-- How the process that holds an index is found: every rank contributes its number if it holds the index, else 0, and the contributions are added.  `xs r`, `xm r` are the first index and the number of indices of rank `r` out of `n`.
xolotl/solver/src/handler/PetscSolver1DHandler.cpp:420-435. -/
def holder (xs xm : ℕ → ℕ) (n i : ℕ) : ℕ := ∑ r ∈ Finset.range n, if xs r ≤ i ∧ i < xs r + xm r then r else 0

/-- `setSurfaceOffset`: the offset is stored in an unsigned variable of `bits` bits.  xolotl/solver/include/xolotl/solver/handler/PetscSolverHandler.h:34, 100-104. -/
def stored (bits : ℕ) (offset : ℤ) : ℕ := (offset % 2 ^ bits).toNat

/-- The test that treats the surface as having grown.  xolotl/solver/src/handler/PetscSolver1DHandler.cpp:514. -/
def treatedAsGrown (bits : ℕ) (offset : ℤ) : Bool := stored bits offset > 0

/-! ### The account of interstitials -/

/-- Moving back: while the account is negative, add the content of the next cell and go one point deeper; `fuel` bounds the number of rounds.  The result is the account, the number of points and the deepest index.
xolotl/solver/src/monitor/PetscMonitor1D.cpp:1961-1982. -/
def back (density : K) (g : List K) : ℕ → K → ℕ → ℕ → Option (K × ℕ)
  | 0, _, _, _ => none
  | fuel + 1, account, n, xi =>
    if account < 0 then do
      let a ← g[xi + 1]?
      let b ← g[xi]?
      back density g fuel (account + density * (a - b)) (n + 1) (xi + 1)
    else some (account, n)

/-- Moving up: one point.  xolotl/solver/src/monitor/PetscMonitor1D.cpp:1933-1957. -/
def up (density : K) (g : List K) (account : K) (xi : ℕ) : Option (K × ℕ) := do
  let a ← g[xi]?
  let b ← g[xi - 1]?
  if account > density * (a - b) then some (account - density * (a - b), 1) else some (account, 0)

end Xolotl.Solver.Move
