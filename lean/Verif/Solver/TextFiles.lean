import Verif.Flux.Profile
import Verif.Solver.Written
import Verif.Solver.Move

/-!
# Text files of the monitors

Model of the text files that the monitors write: the header line that `setup` writes after emptying the file, and the rows that are added to the end at every step.  A header is the list of what its labels name, a row the list of the numbers; the printing of names and numbers with blanks between is outside the model.  `none` is undefined behaviour: a read outside a vector or a conversion of a number that does not fit.

The values in the rows (contents, fluxes, averages) are the subject of other modules.  One process writes; several processes adding to bursting.txt at the same time are not modelled.  The reaction file is cut into lines and numbers in `Util.LineLoop`; here a line is the list of its numbers.
-/

namespace Xolotl.Solver.TextFiles

variable {K : Type*} [Field K] [LinearOrder K] [IsStrictOrderedRing K]

/-! ## Helium retention -/

/-- The labels of retentionOut.txt with `-helium_retention`: `#time`, `fluence`, `fluence_i`, `s_content`, `s_bulk`, `s_surface` and `Helium_burst`, `Deuterium_burst`, `Tritium_burst`. -/
inductive Label
  | time
  | fluence
  | part (i : ℕ)
  | content (s : ℕ)
  | bulk (s : ℕ)
  | surface (s : ℕ)
  | burst (i : Fin 3)
  deriving DecidableEq

/-- What decides about the columns: the dimension, the number of species, the offsets and the number of reduction factors. -/
structure Shape where
  dim : Fin 4
  species : ℕ
  left : ℕ
  right : ℕ
  factors : ℕ

/-- The header.  xolotl/solver/src/monitor/PetscMonitor1D.cpp:478-501, PetscMonitor2D.cpp:335-353, PetscMonitor3D.cpp:350-368. -/
def heHeader (p : Shape) : List Label :=
  [.time, .fluence] ++ (if p.dim = 1 then (List.range p.factors).map .part else []) ++
  (List.range p.species).map .content ++
  (if p.right = 1 then (List.range p.species).map .bulk else []) ++
  (if p.left = 1 then (List.range p.species).map .surface else []) ++
  [.burst 0, .burst 1, .burst 2]

/-- The values at a step: `fluence`, `totalConcData`, the sums for bulk and surface, the numbers of atoms released by bursting. -/
structure Values (K : Type*) where
  time : K
  fluence : List K
  content : List K
  bulk : List K
  surface : List K
  burst : Fin 3 → K

/-- `for (i = 0; i < n; ++i) outputFile << l[i]`. -/
def firstOf (n : ℕ) (l : List K) : Option (List K) := (List.range n).mapM (l[·]?)

/-- The fluences in a row: all in one dimension, the total in two and three.  PetscMonitor1D.cpp:1103-1105, PetscMonitor2D.cpp:998, PetscMonitor3D.cpp:1074. -/
def fluences (dim : Fin 4) (l : List K) : Option (List K) := if dim = 1 then some l else firstOf 1 l

/-- A row.  xolotl/solver/src/monitor/PetscMonitor1D.cpp:1102-1120, PetscMonitor2D.cpp:998-1013, PetscMonitor3D.cpp:1074-1089. -/
def heRow (p : Shape) (v : Values K) : Option (List K) := do
  let f ← fluences p.dim v.fluence
  let c ← firstOf p.species v.content
  let b ← firstOf (if p.right = 1 then p.species else 0) v.bulk
  let s ← firstOf (if p.left = 1 then p.species else 0) v.surface
  pure ([v.time] ++ f ++ c ++ b ++ s ++ [v.burst 0, v.burst 1, v.burst 2])

/-! ## The flux over time -/

/-- The name of a cluster in instantFlux.txt: species and smallest amount, for the species with a smallest amount above zero.  PetscMonitor1D.cpp:515-523, PetscMonitor2D.cpp:367-375, PetscMonitor3D.cpp:382-390. -/
def name (lo : List ℕ) : List (ℕ × ℕ) := (lo.zipIdx.filter fun p => decide (p.1 > 0)).map fun p => (p.2, p.1)

/-- The labels after `#time`, one for every index of the flux.  PetscMonitor1D.cpp:507-525. -/
def instantHeader (bounds : ℕ → List ℕ) (indices : List ℕ) : List (List (ℕ × ℕ)) := indices.map fun i => name (bounds i)

/-- `getInstantFlux` of the handlers that do not have their own: the amplitude alone.  xolotl/core/src/flux/FluxHandler.cpp:304-315. -/
def instantBase (amp : K) : List K := [amp]

/-- `getInstantFlux` of the custom handler.  xolotl/core/include/xolotl/core/flux/CustomFitFluxHandler.h:383-396. -/
def instantCustom (amp : K) (indices : List ℕ) (factors : List K) : Option (List K) :=
  (List.range indices.length).mapM fun i => factors[i]?.map (amp * ·)

/-- The lines about clusters in the file of the custom handler: cluster and reduction factor, both added at once.  CustomFitFluxHandler.h:99-104, 158-161. -/
def customLists (lines : List (ℕ × K)) : List ℕ × List K :=
  lines.foldl (fun a l => (a.1 ++ [l.1], a.2 ++ [l.2])) ([], [])

/-- What `initializeFluxHandler` of the handler for pulses adds to `fluxIndices`.  xolotl/core/include/xolotl/core/flux/PulsedFitFluxHandler.h:101, 115. -/
def pulsedIndices (v i : ℕ) : List ℕ := [v, i]

/-! ## Xenon retention in one to three dimensions -/

/-- The labels with `-xenon_retention`: `#time`, `Xenon_content`, `radius`, `partial_radius`, `partial_bubble_conc`, `partial_size`, `Xenon_gb`. -/
inductive XeLabel
  | time | content | radius | partialRadius | partialConc | partialSize | gb
  deriving DecidableEq

/-- The header.  PetscMonitor1D.cpp:570-572, PetscMonitor2D.cpp:422-424, PetscMonitor3D.cpp:438-440. -/
def xeHeader (dim : Fin 4) : List XeLabel :=
  [.time, .content, .radius, .partialRadius] ++ if dim = 1 then [.partialConc, .partialSize] else [.gb]

/-- The sums over the grid: atoms, clusters, clusters times radius, large clusters, large clusters times radius, large clusters times size.  PetscMonitor1D.cpp:1351-1366. -/
structure Sums (K : Type*) where
  atoms : K
  number : K
  radius : K
  large : K
  largeRadius : K
  largeSize : K

/-- A quotient if there is something to divide by. -/
def average (x n : K) : K := if n > 1 / 10 ^ 16 then x / n else 0

/-- A row; `area` is 1 in one dimension.  PetscMonitor1D.cpp:1351-1366, PetscMonitor2D.cpp:1253-1279, PetscMonitor3D.cpp:1357-1383. -/
def xeRow (dim : Fin 4) (time area gb : K) (s : Sums K) : List K :=
  if dim = 1 then [time, s.atoms, average s.radius s.number, average s.largeRadius s.large, s.large, average s.largeSize s.large]
  else [time, s.atoms / area, average s.radius s.number, average s.largeRadius s.large, gb / area]

/-! ## Xenon retention in zero dimensions -/

/-- The amounts of a line. -/
structure Amounts where
  xe : ℕ
  v : ℕ
  i : ℕ
  deriving DecidableEq

/-- `static_cast<IdType>` of a double: towards zero, undefined if the result does not fit. -/
def toId (bits : ℕ) (x : ℚ) : Option ℕ := if -1 < x ∧ x < 2 ^ bits then some x.floor.toNat else none

/-- The first three numbers of a line.  PetscMonitor0D.cpp:195-197. -/
def amounts (bits : ℕ) : List ℚ → Option Amounts
  | a :: b :: c :: _ => do pure ⟨← toId bits a, ← toId bits b, ← toId bits c⟩
  | _ => none

/-- The label of a cluster.  PetscMonitor0D.cpp:211-218. -/
inductive ClusterLabel
  | I (n : ℕ) | V (n : ℕ) | Xe (n : ℕ) | XeV (n m : ℕ)
  deriving DecidableEq

/-- Which label is written.  PetscMonitor0D.cpp:211-218. -/
def label (a : Amounts) : ClusterLabel :=
  if a.i > 0 then .I a.i
  else if a.v > 0 ∧ a.xe = 0 then .V a.v
  else if a.xe > 0 ∧ a.v = 0 then .Xe a.xe
  else .XeV a.xe a.v

/-- What the loop collects: `_clusterOrder` and the labels between `#time content` and `Xe/SD var`. -/
structure Order where
  ids : List ℕ
  labels : List ClusterLabel
  deriving DecidableEq

/-- One line; `find` is `findClusterId`, `none` for a cluster that is not in the network.  PetscMonitor0D.cpp:194-219. -/
def orderLine (bits : ℕ) (find : Amounts → Option ℕ) (o : Order) (line : List ℚ) : Option Order := do
  let a ← amounts bits line
  match find a with
  | some id => pure ⟨o.ids ++ [id], o.labels ++ [label a]⟩
  | none => pure o

/-- The loop over the lines.  PetscMonitor0D.cpp:184-226. -/
def order (bits : ℕ) (find : Amounts → Option ℕ) (lines : List (List ℚ)) : Option Order := lines.foldlM (orderLine bits find) ⟨[], []⟩

/-- A row: time, content, the concentrations of the clusters, and the two columns of `Averages.columns`.  PetscMonitor0D.cpp:434-445. -/
def neRow (o : Order) (time content : K) (conc : ℕ → K) (ratio variance : K) : List K :=
  [time, content] ++ o.ids.map conc ++ [ratio, variance]

/-! ## Alloys and zirconium -/

/-- The last part of a label of Alloy.dat or AlphaZr.dat. -/
inductive Kind
  | density | atom | diameter
  deriving DecidableEq

/-- The labels of a species for alloys: what, and whether with `_partial`.  xolotl/core/src/network/AlloyReactionNetwork.cpp:132-134. -/
def alloyLabels : List (Kind × Bool) := [(.density, false), (.diameter, false), (.density, true), (.diameter, true)]

/-- The labels of a species for zirconium.  xolotl/core/src/network/ZrReactionNetwork.cpp:233-236. -/
def zrLabels : List (Kind × Bool) :=
  [(.density, false), (.atom, false), (.diameter, false), (.density, true), (.atom, true), (.diameter, true)]

/-- The labels after `#time`, species after species.  AlloyReactionNetwork.cpp:128-135, ZrReactionNetwork.cpp:229-237. -/
def dataHeader (labels : List (Kind × Bool)) (species : ℕ) : List (ℕ × Kind × Bool) :=
  (List.range species).flatMap fun s => labels.map (s, ·)

/-! ## The temperature profile -/

/-- The header of tempProf.txt: the depths of the points.  PetscMonitor1D.cpp:611-621. -/
def tempHeader (nX left right : ℕ) (grid : ℕ → K) : List K :=
  (List.range' left (nX - right - left)).map (Written.depth grid)

/-- A row: the time and the temperatures.  PetscMonitor1D.cpp:2205-2253. -/
def tempRow (nX left right : ℕ) (grid tg T : ℕ → K) (ranks : List (ℕ × ℕ)) (time : K) : List K :=
  time :: Written.profile nX left right grid tg T ranks

/-! ## The files during a program -/

/-- The files. -/
inductive File
  | retention | instant | surface | bursting | temperature | alloy | zirconium
  deriving DecidableEq

/-- Whether `setup` empties the file and writes the header.  retentionOut.txt: PetscMonitor0D.cpp:181, PetscMonitor1D.cpp:474-477, 566-569, PetscMonitor2D.cpp:330-334, 418-421, PetscMonitor3D.cpp:345-349, 434-437; instantFlux.txt: PetscMonitor1D.cpp:474, 506, PetscMonitor2D.cpp:330, 358, PetscMonitor3D.cpp:345, 373; surface.txt: PetscMonitor1D.cpp:266-269, PetscMonitor2D.cpp:201-204, PetscMonitor3D.cpp:217-220; bursting.txt: PetscMonitor1D.cpp:285-289; tempProf.txt: PetscMonitor1D.cpp:595-598; Alloy.dat: PetscMonitor0D.cpp:137, PetscMonitor1D.cpp:585-586; AlphaZr.dat: PetscMonitor0D.cpp:144, PetscMonitor1D.cpp:390; `writeMonitorOutputHeader`: xolotl/core/include/xolotl/core/network/ReactionNetwork.h:280-285. -/
def empties (dim : Fin 4) (f : File) (loop : ℕ) : Bool :=
  match f with
  | .bursting | .zirconium => true
  | _ => decide (dim = 0) || decide (loop = 0)

/-- One loop: what the header and the rows are. -/
structure Part (L : Type*) where
  header : L
  rows : List L

/-- The file after a loop of the solver.  `setup` is called once before each loop, the rows are added to the end.  xolotl/solver/src/PetscSolver.cpp:272, 352-356; PetscMonitor1D.cpp:1101, 1125, 1363, 1664, 1899, 2208. -/
def afterLoop {L : Type*} (dim : Fin 4) (f : File) (loop : ℕ) (file : List L) (p : Part L) : List L :=
  (if empties dim f loop then [p.header] else file) ++ p.rows

/-- The file after the loops of a program, which are numbered from `loop` on.  xolotl/solver/src/PetscSolver.cpp:346-356, 387. -/
def afterLoops {L : Type*} (dim : Fin 4) (f : File) : ℕ → List L → List (Part L) → List L
  | _, file, [] => file
  | loop, file, p :: ps => afterLoops dim f (loop + 1) (afterLoop dim f loop file p) ps

/-- A program: the loops from number 0. -/
def program {L : Type*} (dim : Fin 4) (f : File) (file : List L) (ps : List (Part L)) : List L := afterLoops dim f 0 file ps

/-- `outputData` of the interface: the header is written at time zero.  xolotl/interface/src/XolotlInterface.cpp:554-556, 577. -/
def outputData {L : Type*} (header : L) (file : List L) (time : K) (row : L) : List L :=
  (if time = 0 then [header] else file) ++ [row]

/-! ## Bubbles in iron -/

/-- A region of amounts of helium and vacancies, without its upper end, and the amount of interstitials at the origin. -/
structure Box where
  loHe : ℕ
  hiHe : ℕ
  loV : ℕ
  hiV : ℕ
  loI : ℕ

/-- Whether a row is written: the origin is on none of the axes.  PetscMonitor0D.cpp:640-642. -/
def isBubble (b : Box) : Bool :=
  !((decide (b.loI ≠ 0) && decide (b.loHe = 0) && decide (b.loV = 0)) ||
    (decide (b.loV ≠ 0) && decide (b.loHe = 0) && decide (b.loI = 0)) ||
    (decide (b.loHe ≠ 0) && decide (b.loV = 0) && decide (b.loI = 0)))

/-- A row of bubble_n.dat: `lo_He hi_He lo_V hi_V` and the concentration.  PetscMonitor0D.cpp:644-648. -/
structure Bubble (K : Type*) where
  loHe : ℕ
  hiHe : ℕ
  loV : ℕ
  hiV : ℕ
  conc : K

/-- The file of a step, which is written anew.  PetscMonitor0D.cpp:620-652. -/
def bubbles (net : List Box) (conc : ℕ → K) : List (Bubble K) :=
  (net.zipIdx.filter fun p => isBubble p.1).map fun p => ⟨p.1.loHe, p.1.hiHe - 1, p.1.loV, p.1.hiV - 1, conc p.2⟩

end Xolotl.Solver.TextFiles
