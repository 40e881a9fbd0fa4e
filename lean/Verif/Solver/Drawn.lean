import Verif.Solver.Plots

/-!
# What the plots draw

Model of the data providers (`/repo/xolotl/viz/src/dataprovider/CvsXDataProvider.cpp:10-36`,
`CvsXYDataProvider.cpp:13-91`, `DataProvider.cpp:10-29`), of the data sets that the plots make of them
(`/repo/xolotl/viz/src/standard/plot/SurfacePlot.cpp:58-77`, `SeriesPlot.cpp:85-109`, `ScatterPlot.cpp:58-67`) and of the
points of the series and of the surface in two dimensions (`/repo/xolotl/solver/src/monitor/PetscMonitor1D.cpp:2305-2368`,
`PetscMonitor2D.cpp:1954-2014`).  VTK-m is not in the repository.  Taken from its documentation: a rectilinear data set
of `n` by `m` edges has `(n - 1) * (m - 1)` cells, the first direction running fastest, and a cell field has one value
for each; a rectilinear data set of `n` coordinates has `n` points; a uniform data set of `n` points has them at
`0, 1, …, n - 1`.  A field of another length is the outcome `none`.  The camera, the colours and the labels are not
modelled; `lg` stands for `std::log10`.
-/

namespace Xolotl.Solver.Drawn

open Xolotl.Solver.Plots

variable {K : Type*} [Field K] [LinearOrder K] [IsStrictOrderedRing K]

/-- `1.0e-16`, CvsXDataProvider.cpp:32, CvsXYDataProvider.cpp:75. -/
def floor16 : K := 1 / 10 ^ 16

/-- `CvsXDataProvider::getAxis1Vector`, CvsXDataProvider.cpp:10-22. -/
def lineX (ps : List (Point K)) : List K := ps.foldl (fun v p => v ++ [p.x]) []

/-- `CvsXDataProvider::getAxis2Vector`, CvsXDataProvider.cpp:24-36, and `CvsXYDataProvider::getAxis3Vector`,
CvsXYDataProvider.cpp:67-79. -/
def shown (ps : List (Point K)) : List K := ps.foldl (fun v p => v ++ [max p.value floor16]) []

/-- `CvsXYDataProvider::addValue`, CvsXYDataProvider.cpp:81-91. -/
def addValue (v : List K) (x : K) : List K := if x ∈ v then v else v ++ [x]

/-- One pass of the loop: `max`, `almostMax` and the vector, CvsXYDataProvider.cpp:22-31, 49-58. -/
def pass (s : K × K × List K) (x : K) : K × K × List K :=
  if x > s.1 then (x, s.1, addValue s.2.2 x) else (s.1, s.2.1, addValue s.2.2 x)

/-- `getAxis1Vector` and `getAxis2Vector` of `CvsXYDataProvider`, from the positions of the points in this direction,
CvsXYDataProvider.cpp:13-38, 40-65. -/
def edges (l : List K) : List K :=
  let s := l.foldl pass (0, 0, [])
  s.2.2 ++ [2 * s.1 - s.2.1]

/-- The logarithm of the values when it is asked for, SurfacePlot.cpp:63-72. -/
def scaled (log : Bool) (lg : K → K) (z : List K) : List K := if log then z.map fun z => if z > 0 then lg z else 0 else z

/-- A cell of the image. -/
structure Cell (K : Type*) where
  x0 : K
  x1 : K
  y0 : K
  y1 : K
  value : K
  deriving DecidableEq

/-- `DataSetBuilderRectilinear::Create` with two vectors and `AddCellField`, SurfacePlot.cpp:75-77. -/
def rectilinear (xs ys zs : List K) : Option (List (Cell K)) :=
  if zs.length = (xs.length - 1) * (ys.length - 1) then
    some ((List.range (ys.length - 1)).flatMap fun j => (List.range (xs.length - 1)).map fun i =>
      ⟨xs.getD i 0, xs.getD (i + 1) 0, ys.getD j 0, ys.getD (j + 1) 0, zs.getD (j * (xs.length - 1) + i) 0⟩)
  else none

/-- `SurfacePlot::render`, SurfacePlot.cpp:58-77. -/
def surface (log : Bool) (lg : K → K) (ps : List (Point K)) : Option (List (Cell K)) :=
  rectilinear (edges (ps.map fun p => p.x)) (edges (ps.map fun p => p.y)) (scaled log lg (shown ps))

/-- A point field on given abscissae, SeriesPlot.cpp:96, ScatterPlot.cpp:67. -/
def field (xs ys : List K) : Option (List (K × K)) := if ys.length = xs.length then some (xs.zip ys) else none

/-- `SeriesPlot::render`: every series on the abscissae of the first one, with its colour, SeriesPlot.cpp:85-109.  No
provider at all: nothing is drawn, SeriesPlot.cpp:51-55. -/
def seriesLines (ds : List (List (Point K))) : Option (List (ℕ × List (K × K))) :=
  match ds with
  | [] => some []
  | d :: _ => ((List.range ds.length).mapM fun i => (field (lineX d) (shown (ds.getD i []))).map fun l => (i % 18, l))

/-- `ScatterPlot::render`: a uniform data set with as many points as there are abscissae, ScatterPlot.cpp:58-67. -/
def scatterLine (ps : List (Point K)) : Option (List (K × K)) :=
  field ((List.range (lineX ps).length).map fun (k : ℕ) => (k : K)) (shown ps)

/-- The points of the monitor of the series on rank 0: first its own, then those of the other ranks in their order; a
rank is `(xs, xm)`, `c xi i` is the concentration of cluster `i`.  PetscMonitor1D.cpp:2305-2368.  The messages are
in `Messages`. -/
def seriesPoints (clusters : ℕ) (grid : ℕ → K) (ranks : List (ℕ × ℕ)) (c : ℕ → ℕ → K) : List (List (Point K)) :=
  (List.range (min 18 clusters)).map fun i => ranks.flatMap fun r => (List.range' r.1 r.2).map fun xi => ⟨depth grid xi, 0, c xi i⟩

/-- The points of the surface in two dimensions on rank 0, PetscMonitor2D.cpp:1954-2014; `c j i` is the concentration of
cluster 0.  The messages are in `Messages`. -/
def plane2 (Mx My : ℕ) (grid : ℕ → K) (hy : K) (c : ℕ → ℕ → K) : List (Point K) :=
  (List.range My).flatMap fun (j : ℕ) => (List.range Mx).map fun (i : ℕ) => ⟨depth grid i, (j : K) * hy, c j i⟩

/-- `DataProvider::getDataMean`, DataProvider.cpp:10-29; without points it is `0.0 / 0`. -/
def mean (ps : List (Point K)) : Option K :=
  if ps.length = 0 then none else some (ps.foldl (fun s p => s + p.value) 0 / (ps.length : K))

end Xolotl.Solver.Drawn
