import Verif.Network.Totals
import Verif.Solver.TempTransfer

/-!
# Rows and lines that the monitors write

Model of the file of `computeTRIDYN`, of the columns of `profileTemperature`, and of the data lines of alloys and zirconium: `addMonitorDataValues`, `writeMonitorDataLine` and the loops over grid points of `computeAlloy`, `computeAlphaZr` and `outputData`.  Ranks are pairs of first grid point and number of grid points.  The parallel write places the rows of a rank in the file from its offset on; a reduction to rank zero is a sum over the ranks.
-/

namespace Xolotl.Solver.Written

open Xolotl.Network Xolotl.Network.Totals Xolotl.Solver.TempTransfer

variable {K : Type*} [Field K] [LinearOrder K] [IsStrictOrderedRing K] {R : Type*}

/-! ## TRIDYN -/

/-- `myFirstIdxToWrite`.  xolotl/solver/src/monitor/PetscMonitor1D.cpp:2104-2105. -/
def firstIdx (left xs : ℕ) : ℕ := max xs left

/-- `myNumPointsToWrite`.  PetscMonitor1D.cpp:2106-2108. -/
def numPoints (left xs xm : ℕ) : ℕ := if firstIdx left xs < xs + xm then xs + xm - firstIdx left xs else 0

/-- `parWrite2D`: the rows of a rank go to the file from `myFirstIdxToWrite - firstIdxToWrite` on.  PetscMonitor1D.cpp:2153-2156. -/
def write (left xs xm : ℕ) (row : ℕ → R) (file : ℕ → Option R) : ℕ → Option R := fun j =>
  let offset := firstIdx left xs - left
  if offset ≤ j ∧ j < offset + numPoints left xs xm then some (row (j - offset + firstIdx left xs)) else file j

/-- The file after all ranks wrote; `row (xs, xm) xi` is what a rank computes for one of its points. -/
def file (left : ℕ) (ranks : List (ℕ × ℕ)) (row : ℕ × ℕ → ℕ → R) : ℕ → Option R :=
  ranks.foldl (fun f r => write left r.1 r.2 (row r) f) fun _ => none

/-- The depth of a row.  PetscMonitor1D.cpp:2125. -/
def depth (grid : ℕ → K) (xi : ℕ) : K := (grid xi + grid (xi + 1)) / 2 - grid 1

/-- One row: depth, the atoms of each species, and the temperature.  PetscMonitor1D.cpp:2122-2151. -/
def tridynRow (left : ℕ) (grid : ℕ → K) (atoms : ℕ → List K) (networkTemp : List K) (xs : ℕ) (xi : ℕ) : K × List K × Option K :=
  (depth grid xi, atoms xi, networkTemp[xi - firstIdx left xs]?)

/-- The file of `computeTRIDYN`; each rank interpolates the temperatures to its own points and one on each side.  PetscMonitor1D.cpp:2112-2156. -/
def tridyn (nX left : ℕ) (grid tg T : ℕ → K) (atoms : ℕ → List K) (ranks : List (ℕ × ℕ)) : ℕ → Option (K × List K × Option K) :=
  file left ranks fun r xi => tridynRow left grid atoms (interpolate nX grid tg T r.1 r.2) r.1 xi

/-! ## The temperature profile -/

/-- One column of tempProf.txt: the sum over the ranks of what each has for the point.  PetscMonitor1D.cpp:2228-2247. -/
def profileColumn (nX : ℕ) (grid tg T : ℕ → K) (ranks : List (ℕ × ℕ)) (xi : ℕ) : K :=
  (ranks.map fun r => if r.1 ≤ xi ∧ xi < r.1 + r.2 then (interpolate nX grid tg T r.1 r.2).getD (xi - r.1 + 1) 0 else 0).sum

/-- The columns of one line.  PetscMonitor1D.cpp:2229-2230. -/
def profile (nX left right : ℕ) (grid tg T : ℕ → K) (ranks : List (ℕ × ℕ)) : List K :=
  (List.range' left (nX - right - left)).map (profileColumn nX grid tg T ranks)

/-! ## Data lines -/

/-- A column: the quantity, whether it starts from the minimum size of the species or from one, and the factor. -/
structure Column where
  kind : Kind
  fromMin : Bool
  factor : ℕ

/-- Columns of a species, and which are divided by which. -/
structure Format where
  columns : List Column
  averages : List (ℕ × ℕ)

/-- Alloys.  xolotl/core/src/network/AlloyReactionNetwork.cpp:150-158, 177-182. -/
def alloy : Format where
  columns := [⟨.total, false, 1⟩, ⟨.radius, false, 2⟩, ⟨.total, true, 1⟩, ⟨.radius, true, 2⟩]
  averages := [(1, 0), (3, 2)]

/-- Zirconium.  xolotl/core/src/network/ZrReactionNetwork.cpp:252-263, 282-287. -/
def zr : Format where
  columns := [⟨.total, false, 1⟩, ⟨.atom, false, 1⟩, ⟨.radius, false, 2⟩, ⟨.total, true, 1⟩, ⟨.atom, true, 1⟩, ⟨.radius, true, 2⟩]
  averages := [(2, 0), (5, 3)]

variable {d : ℕ}

/-- The quantity that a column asks for. -/
def quantity (col : Column) (minSizes : Fin d → ℕ) (s : Fin d) : Quantity d := ⟨col.kind, s, if col.fromMin then minSizes s else 1⟩

/-- `addMonitorDataValues`: `total` gives the totals of the network, the index is the number of columns times the species plus the column.  AlloyReactionNetwork.cpp:140-160; ZrReactionNetwork.cpp:242-265. -/
def addValues (f : Format) (minSizes : Fin d → ℕ) (total : Quantity d → K) (fac : K) (vals : ℕ → K) : ℕ → K :=
  (List.finRange d).foldl (fun vals (s : Fin d) =>
    f.columns.zipIdx.foldl (fun vals p =>
      let i := f.columns.length * s.val + p.2
      Function.update vals i (vals i + total (quantity p.1 minSizes s) * p.1.factor * fac)) vals) vals

/-- The averages of `writeMonitorDataLine`.  AlloyReactionNetwork.cpp:174-183; ZrReactionNetwork.cpp:279-288. -/
def average (f : Format) (d : ℕ) (data : ℕ → K) : ℕ → K :=
  (List.range d).foldl (fun data i =>
    f.averages.foldl (fun data p =>
      let id := fun n => f.columns.length * i + n
      if 1 / 10 ^ 16 < data (id p.2) then Function.update data (id p.1) (data (id p.1) / data (id p.2)) else data) data) data

/-- The points a rank adds: not left of the first one computed, and not the last one if there is an offset on the right.  `first`: the left offset for alloys, the surface position plus the left offset for zirconium.  PetscMonitor1D.cpp:1411-1417, 1475-1481. -/
def points (first right nX : ℕ) (r : ℕ × ℕ) : List ℕ := (List.range' r.1 r.2).filter fun xi => !(decide (xi < first) || decide (xi = nX - right))

/-- What one rank collects.  PetscMonitor1D.cpp:1409-1426, 1470-1490. -/
def collect (f : Format) (minSizes : Fin d → ℕ) (grid : ℕ → K) (total : ℕ → Quantity d → K) (pts : List ℕ) : ℕ → K :=
  pts.foldl (fun vals xi => addValues f minSizes (total xi) (grid (xi + 1) - grid xi) vals) fun _ => 0

/-- The line that is written: sums over the ranks, then averages.  AlloyReactionNetwork.cpp:162-206; ZrReactionNetwork.cpp:267-312. -/
def line (f : Format) (minSizes : Fin d → ℕ) (grid : ℕ → K) (total : ℕ → Quantity d → K) (first right nX : ℕ) (ranks : List (ℕ × ℕ)) : List K :=
  (List.range (f.columns.length * d)).map (average f d fun i => (ranks.map fun r => collect f minSizes grid total (points first right nX r) i).sum)

end Xolotl.Solver.Written
