import Mathlib.Algebra.Order.Field.Basic

/-!
# Temperatures on the cluster grid

Model of `SolverHandler::interpolateTemperature` and of the transfer part of `generateTemperatureGrid`.  Numbers are elements of an ordered field instead of doubles; grids and temperature vectors are functions of the index.  The two collective operations are modelled by what they deliver: the values of all ranks one after the other.
-/

namespace Xolotl.Solver.TempTransfer

variable {K : Type*} [Field K] [LinearOrder K] [IsStrictOrderedRing K]

/-- The number of values a rank sends; `xs`, `xm` are its first grid point and its number of grid points.
xolotl/solver/src/handler/SolverHandler.cpp:621-628, 753-760. -/
def toSend (nX xs xm : ℕ) : ℕ :=
  xm + (if xs = 0 ∨ xs + xm = nX then 1 else 0) + (if xs = 0 ∧ xs + xm = nX then 1 else 0)

/-- The values a rank sends.  xolotl/solver/src/handler/SolverHandler.cpp:645-655, 777-787. -/
def values (nX xs xm : ℕ) (localTemp : ℕ → K) : List K :=
  (List.range (toSend nX xs xm)).map fun i => if xs = 0 then localTemp i else localTemp (i + 1)

/-- What every rank receives: the values of the ranks in order (`MPI_Allgatherv` with displacements that are the running sums of the counts).
xolotl/solver/src/handler/SolverHandler.cpp:630-644, 656-657, 762-776, 788-789. -/
def gathered (nX : ℕ) (ranks : List (ℕ × ℕ × (ℕ → K))) : List K := ranks.flatMap fun r => values nX r.1 r.2.1 r.2.2

/-- The place of entry `i` of a temperature vector on a grid.  xolotl/solver/src/handler/SolverHandler.cpp:668-674, 679-684, 795-800, 805-813. -/
def loc (g : ℕ → K) (i : ℕ) : K := if i = 0 then g 0 - g 1 else (g (i - 1) + g i) / 2 - g 1

/-- The search and the interpolation at one place; `other` is what is returned when no segment contains the place.
xolotl/solver/src/handler/SolverHandler.cpp:676-696, 802-826. -/
def interpAt (nX : ℕ) (tg : ℕ → K) (T : ℕ → K) (other l : K) : K :=
  match (List.range (nX + 1)).find? fun j => decide (loc tg j ≤ l) && decide (l < loc tg (j + 1)) with
  | some j => T j + (l - loc tg j) / (loc tg (j + 1) - loc tg j) * (T (j + 1) - T j)
  | none => other

/-- `interpolateTemperature` on one rank.  xolotl/solver/src/handler/SolverHandler.cpp:791-829. -/
def interpolate (nX : ℕ) (grid tg : ℕ → K) (T : ℕ → K) (xs xm : ℕ) : List K :=
  (List.range (xm + 2)).map fun k => interpAt nX tg T (T (nX + 1)) (loc grid (xs + k))

/-- The transfer of `generateTemperatureGrid` on one rank.  The branch for `i < 0` cannot be taken: `i` is unsigned.  xolotl/solver/src/handler/SolverHandler.cpp:659-699. -/
def regrid (nX : ℕ) (newGrid oldGrid : ℕ → K) (T : ℕ → K) (xs xm : ℕ) : List K :=
  (List.range (xm + 2)).map fun k => interpAt nX oldGrid T (T nX) (loc newGrid (xs + k))

end Xolotl.Solver.TempTransfer
