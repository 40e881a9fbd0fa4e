import Mathlib.Algebra.Order.Field.Basic
import Mathlib.Algebra.BigOperators.Group.Finset.Basic
import Mathlib.Data.List.Basic

/-!
# What the plots and the file of the surface show

Model of the data points that `monitorSurfaceXY`, `monitorSurfaceXZ`
(`/repo/xolotl/solver/src/monitor/PetscMonitor3D.cpp:1905-2153`) and `monitorScatter`
(`PetscMonitor0D.cpp:510-588`, `PetscMonitor1D.cpp:1500-1597`) hand to the plots, and of the rows of `surface.txt`
(`PetscMonitor1D.cpp:1661-1668`, `PetscMonitor2D.cpp:1349-1363`, `1885-1899`, `PetscMonitor3D.cpp:1453-1471`,
`1880-1897`).  The labels of the plots, the drawing and the text of the numbers are not modelled.
-/

namespace Xolotl.Solver.Plots

variable {K : Type*} [Field K] [LinearOrder K] [IsStrictOrderedRing K]

/-- The part of the grid of a rank (`getLocalCoordinates`). -/
structure Box where
  xs : ℕ
  xm : ℕ
  ys : ℕ
  ym : ℕ
  zs : ℕ
  zm : ℕ
  deriving DecidableEq, Repr

/-- The test `i >= xs && i < xs + xm && …`, PetscMonitor3D.cpp:1966-1967, 2091-2092. -/
def Box.owns (b : Box) (i j k : ℕ) : Bool :=
  decide (i ≥ b.xs) && decide (i < b.xs + b.xm) && decide (j ≥ b.ys) && decide (j < b.ys + b.ym) && decide (k ≥ b.zs) && decide (k < b.zs + b.zm)

/-- A `DataPoint` without its time. -/
structure Point (K : Type*) where
  x : K
  y : K
  value : K
  deriving DecidableEq

/-- The position of a point in the direction of the depth, PetscMonitor3D.cpp:1959, 2084. -/
def depth (grid : ℕ → K) (i : ℕ) : K := (grid i + grid (i + 1)) / 2 - grid 1

/-- What a rank adds for the point `(i, j)` of the plane: the loop on Z, PetscMonitor3D.cpp:1962-1975. -/
def alongZ (Mz : ℕ) (b : Box) (c : ℕ → ℕ → ℕ → K) (i j : ℕ) : K :=
  (List.range Mz).foldl (fun s k => if b.owns i j k then s + c k j i else s) 0

/-- The same along Y for the point `(i, k)`, PetscMonitor3D.cpp:2087-2100. -/
def alongY (My : ℕ) (b : Box) (c : ℕ → ℕ → ℕ → K) (i k : ℕ) : K :=
  (List.range My).foldl (fun s j => if b.owns i j k then s + c k j i else s) 0

/-- The points of the plot of the XY plane on rank 0 after the reductions, PetscMonitor3D.cpp:1953-1992; `c k j i` is
the concentration of cluster 0. -/
def planeXY (Mx My Mz : ℕ) (grid : ℕ → K) (hy : K) (ranks : List Box) (c : ℕ → ℕ → ℕ → K) : List (Point K) :=
  (List.range My).flatMap fun (j : ℕ) => (List.range Mx).map fun (i : ℕ) =>
    ⟨depth grid i, (j : K) * hy, (ranks.map fun b => alongZ Mz b c i j).sum⟩

/-- The points of the plot of the XZ plane, PetscMonitor3D.cpp:2078-2117. -/
def planeXZ (Mx My Mz : ℕ) (grid : ℕ → K) (hz : K) (ranks : List Box) (c : ℕ → ℕ → ℕ → K) : List (Point K) :=
  (List.range Mz).flatMap fun (k : ℕ) => (List.range Mx).map fun (i : ℕ) =>
    ⟨depth grid i, (k : K) * hz, (ranks.map fun b => alongY My b c i k).sum⟩

/-- The points of the scatter plot: for every cluster one point for each number of xenon atoms of its region, with
the concentration of the cluster.  A cluster is its interval of xenon `[b, e)` and its interval of vacancies.
PetscMonitor0D.cpp:545-557, PetscMonitor1D.cpp:1552-1564. -/
structure Cl where
  b : ℕ
  e : ℕ
  vb : ℕ := 0
  ve : ℕ := 1
  deriving DecidableEq

/-- See `Cl`. -/
def scatter (cs : List Cl) (conc : ℕ → K) : List (ℕ × K) :=
  (List.range cs.length).flatMap fun i =>
    match cs[i]? with
    | none => []
    | some r => (List.range' r.b (r.e - r.b)).map fun j => (j, conc i)

/-- Which ranks of a line draw the scatter plot, PetscMonitor1D.cpp:1513, 1539-1542; in no dimension the step is 10,
PetscMonitor0D.cpp:520. -/
def draws1 (Mx timestep : ℕ) (b : Box) : Bool := decide (timestep % 200 = 0) && decide (Mx / 2 ≥ b.xs) && decide (Mx / 2 < b.xs + b.xm)

/-- The row of surface.txt in one dimension after the time, PetscMonitor1D.cpp:1665. -/
def row1 (size : ℕ) (grid : ℕ → K) : List K := [grid (size - 2) - grid 1]

/-- The row in two dimensions, PetscMonitor2D.cpp:1356-1360, 1892-1896. -/
def row2 (grid : ℕ → K) (My : ℕ) (surf : ℕ → ℕ) : List K := (List.range My).map fun j => grid (surf j + 1) - grid 1

/-- The row in three dimensions, PetscMonitor3D.cpp:1460-1468, 1887-1894. -/
def row3 (grid : ℕ → K) (hy hz : K) (My Mz : ℕ) (surf : ℕ → ℕ → ℕ) : List K :=
  (List.range My).flatMap fun (j : ℕ) => (List.range Mz).flatMap fun (k : ℕ) => [(j : K) * hy, (k : K) * hz, grid (surf j k + 1) - grid 1]

end Xolotl.Solver.Plots
