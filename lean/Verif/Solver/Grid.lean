import Mathlib.Analysis.SpecialFunctions.Trigonometric.Basic
import Mathlib.Analysis.SpecialFunctions.Pow.Real
import Mathlib.Algebra.Order.Field.Basic

/-!
# Depth grids

Model of `SolverHandler::generateGrid` for a surface that does not move, and of the grid built by `generateTemperatureGrid`.  Numbers are elements of an ordered field instead of doubles (real numbers where a cosine or a real power occurs).  The conversion of the first grid parameter to the unsigned `nX` is left out: the functions take `nX`.  The numbers of points along y and z are plain copies and are left out.
-/

namespace Xolotl.Solver.Grid

variable {K : Type*} [Field K] [LinearOrder K] [IsStrictOrderedRing K]

/-- Type `uniform`.  xolotl/solver/src/handler/SolverHandler.cpp:173-194. -/
def uniform (nX : ℕ) (hx : K) : List K := (List.range (nX + 2)).map fun (l : ℕ) => (l : K) * hx

/-- The loop shared by the types `nonuniform` and `geometric`: push the previous point, then advance it by the step of this index.  The result is the grid and the last value of `previousPoint`.
xolotl/solver/src/handler/SolverHandler.cpp:206-208, 322-324. -/
def loop (step : ℕ → K) (n : ℕ) : List K × K := (List.range n).foldl (fun a l => (a.1 ++ [a.2], a.2 + step l)) ([], 0)

/-- The step after index `l` of type `nonuniform` (`surfacePos` is zero).  xolotl/solver/src/handler/SolverHandler.cpp:209-296. -/
def stepNonuniform (l : ℕ) : K :=
  if l < 26 then 1 / 10
  else if l < 36 then 1 / 4
  else if l < 41 then 1 / 2
  else if l < 84 then 1
  else if l < 109 then 2
  else if l < 119 then 5
  else if l < 134 then 10
  else if l < 144 then 20
  else if l < 154 then 50
  else if l < 194 then 100
  else if l < 219 then 200
  else if l < 239 then 500
  else if l < 249 then 1000
  else if l < 259 then 2000
  else if l < 269 then 5000
  else if l < 279 then 10000
  else if l < 294 then 20000
  else if l < 304 then 50000
  else if l < 314 then 100000
  else if l < 329 then 200000
  else if l < 339 then 500000
  else 1000000

/-- Type `nonuniform`.  xolotl/solver/src/handler/SolverHandler.cpp:197-309. -/
def nonuniform (nX : ℕ) : List K := (loop (stepNonuniform : ℕ → K) (nX + 2)).1

/-- The step after index `l` of type `geometric`.  xolotl/solver/src/handler/SolverHandler.cpp:325-331. -/
def stepGeometric (r : K) (l : ℕ) : K := if l < 1 then 1 / 10 else 1 / 10 * r ^ (l - 1)

/-- Type `geometric`.  xolotl/solver/src/handler/SolverHandler.cpp:312-345. -/
def geometric (nX : ℕ) (r : K) : List K := (loop (stepGeometric r) (nX + 2)).1

/-- Type `read`: the grid from the numbers of the first line of the file.  With less than two numbers the vector is read past its end (`none`); the message printed for an empty line does not stop the run.
xolotl/solver/src/handler/SolverHandler.cpp:87-140. -/
def read (tokens : List K) : Option (List K) :=
  match tokens[0]?, tokens[1]?, tokens[tokens.length - 1]?, tokens[tokens.length - 2]? with
  | some t0, some t1, some z, some y =>
    let offset := t1 - t0
    some ([0] ++ (if t0 > 0 then [offset] else []) ++ tokens.map (fun t => t + offset) ++ [2 * z - y + offset])
  | _, _, _, _ => none

/-- Type `cheby`; with no grid points the unsigned bound `nX - 1` wraps and the loop does not end within memory (`none`).
xolotl/solver/src/handler/SolverHandler.cpp:144-171. -/
noncomputable def cheby (nX : ℕ) (hx : ℝ) : Option (List ℝ) :=
  if nX = 0 then none
  else some ([0, 0] ++ (List.range (nX - 1)).map (fun (k : ℕ) => hx / 2 * (1 - Real.cos (Real.pi * ((k + 1 : ℕ) : ℝ) / ((nX - 1 : ℕ) : ℝ)))) ++ [hx])

/-- The width used for the temperature grid.  xolotl/solver/src/handler/SolverHandler.cpp:589-590. -/
noncomputable def tempWidth (grid : ℕ → ℝ) (size : ℕ) : ℝ := (grid (size - 3) + grid (size - 2)) / 2 - grid 1

/-- `newH`; `1 / tempGridPower` is a division of doubles.  xolotl/solver/src/handler/SolverHandler.cpp:588, 592-593. -/
noncomputable def tempH (width power : ℝ) (size : ℕ) : ℝ := width ^ (1 / power) / (((size - 2 : ℕ) : ℝ) - 3 / 2)

/-- The temperature grid: point `i` of `size` points.  xolotl/solver/src/handler/SolverHandler.cpp:595-604. -/
noncomputable def tempGrid (newH power : ℝ) (i : ℕ) : ℝ :=
  if i = 0 then 0 else if i = 1 then newH ^ power else newH ^ power + (((i - 1 : ℕ) : ℝ) * newH) ^ power

end Xolotl.Solver.Grid
