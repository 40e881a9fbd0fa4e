import Mathlib.Algebra.Order.Floor.Defs
import Mathlib.Algebra.Order.Field.Basic
import Mathlib.Algebra.BigOperators.Group.Finset.Basic
import Verif.IO.Steps
import Verif.IO.Sparse

/-!
# What a checkpoint stores in the group of a time step

Model of the members of `XFile::TimestepGroup` that write and read the grid, the fluence, the quantities that left through the surface and the bottom, the bursts and the concentrations of a grid point, of
`PetscMonitor::startStop` and the `startStopImpl` of the monitors that call them, and of the parts of the `setup` of the monitors and of the `createSolverContext` of the handlers that read them in a restart.

A group is a list of named objects; attributes and data sets have separate names, creating one that exists and opening one that does not throw.  `none` stands for an exception as well as for an access outside of a
container.  Quantities of a species have the form of a matrix: `[[x]]` in one dimension, one row in two, rows in three.  The data sets of the ragged concentrations in zero and one dimension are modelled in `Ragged`
and appear here only by name.  The conversion of numbers by the library is the identity.
-/

namespace Xolotl.IO.Contents

/-- A name. -/
abbrev Name := List Char

/-- Attributes and data sets are looked up separately. -/
structure Key where
  attr : Bool
  name : Name
  deriving DecidableEq

/-- A stored object. -/
inductive Obj (K : Type) where
  | int (i : ℤ)
  | num (x : K)
  | vec (l : List K)
  | ivec (l : List ℤ)
  | mat (r c : ℕ) (l : List K)
  | imat (r c : ℕ) (l : List ℤ)
  | ragged
  deriving DecidableEq

/-- The objects of a group. -/
abbrev Group (K : Type) := List (Key × Obj K)

/-- Quantities of one species. -/
abbrev Q (K : Type) := List (List K)

/-- The dimension of the run. -/
inductive Dim where
  | zero
  | one
  | two
  | three
  deriving DecidableEq

variable {K : Type}

/-- Opening an object. -/
def look (g : Group K) (k : Key) : Option (Obj K) := (g.find? fun e => e.1 == k).map Prod.snd

/-- `H5Acreate`, `H5Dcreate2` and the write that follows: an exception if the name is taken.  xolotl/io/include/xolotl/io/HDF5FileAttribute.h:15-28, xolotl/io/src/XFile.cpp:16-19. -/
def create (g : Group K) (e : Key × Obj K) : Option (Group K) := if (look g e.1).isSome then none else some (g ++ [e])

/-- Creating objects one after the other. -/
def createAll (g : Group K) (l : List (Key × Obj K)) : Option (Group K) := l.foldlM create g

/-- A part that is done only if `c` holds. -/
def part {α : Type} (c : Prop) [Decidable c] (x : Option α) (y : α) : Option α := if c then x else some y

/-! ### Names -/

/-- The name of an attribute. -/
def attr (s : String) : Key := ⟨true, s.toList⟩

/-- The name of a data set. -/
def data (s : String) : Key := ⟨false, s.toList⟩

/-- Which side of the grid. -/
inductive Side where
  | surf
  | bulk
  deriving DecidableEq

/-- `surfAttrName` and `bulkAttrName`.  xolotl/io/src/XFile.cpp:375-376. -/
def Side.suffix : Side → Name
  | .surf => "Surf".toList
  | .bulk => "Bulk".toList

/-- Whether quantities are attributes: in one dimension only. -/
def isAttr : Dim → Bool
  | .one => true
  | _ => false

/-- The name of a quantity.  xolotl/io/src/XFile.cpp:527, 572, 646, 700, 732, 791; the readers build it again, xolotl/solver/src/monitor/PetscMonitor1D.cpp:244-247, 423-426, 442-445. -/
def nKey (d : Dim) (sd : Side) (s : Name) : Key := ⟨isAttr d, "n".toList ++ s ++ sd.suffix⟩

/-- The name of a flux.  xolotl/io/src/XFile.cpp:534, 592, 668, 707, 753, 814; xolotl/solver/src/monitor/PetscMonitor1D.cpp:250-254, 429-433, 448-452. -/
def fKey (d : Dim) (sd : Side) (s : Name) : Key := ⟨isAttr d, "previousFlux".toList ++ s ++ sd.suffix⟩

/-- The data set of a grid point.  xolotl/io/src/XFile.cpp:859-861, 1082-1084. -/
def posKey (i j k : ℤ) : Key := ⟨false, "position_".toList ++ Steps.name i j k⟩

/-! ### Writing -/

/-- A new group of a time step has its three times.  xolotl/io/src/XFile.cpp:396-418. -/
def new (t : Steps.Times K) : Group K := [(attr "absoluteTime", .num t.time), (attr "previousTime", .num t.prev), (attr "deltaTime", .num t.delta)]

section write
variable [Field K]

/-- `writeGrid`; the monitors give no sizes for the other directions.  xolotl/io/src/XFile.cpp:445-494, xolotl/io/include/xolotl/io/XFile.h:155-156. -/
def gridEntries (grid : List K) (ny : ℤ := 0) (hy : K := 0) (nz : ℤ := 0) (hz : K := 0) : Option (List (Key × Obj K)) := do
  let nx : ℤ := (grid.length : ℤ) - 2
  let hx ← part (0 < grid.length) (do let b ← grid[1]?; let a ← grid[0]?; pure (b - a)) 0
  pure ([(attr "nx", .int nx), (attr "hx", .num hx), (attr "ny", .int ny), (attr "hy", .num hy), (attr "nz", .int nz), (attr "hz", .num hz)]
    ++ if nx > 0 then [(data "grid", .vec grid)] else [])

/-- `writeFluence`.  xolotl/io/src/XFile.cpp:496-513. -/
def fluenceEntries (fl : List K) : List (Key × Obj K) := [(data "fluence", .vec fl)]

/-- The first `n` entries of a row; outside of it is undefined.  xolotl/io/src/XFile.cpp:575-578, 595-597, 735-738, 756-758. -/
def row (n : ℕ) (l : List K) : Option (List K) := if n ≤ l.length then some (l.take n) else none

/-- The first entries of the first rows, one after the other.  xolotl/io/src/XFile.cpp:650-655, 670-674, 795-800, 816-821. -/
def flat (r c : ℕ) (q : Q K) : Option (List K) := if r ≤ q.length then ((q.take r).mapM (row c)).map List.flatten else none

/-- One quantity as stored.  xolotl/io/src/XFile.cpp:528-530, 574-586, 648-662, 701-703, 734-747, 793-808. -/
def pack (d : Dim) (r c : ℕ) (q : Q K) : Option (Obj K) :=
  match d with
  | .zero => none
  | .one => do let l ← q[0]?; let x ← l[0]?; pure (.num x)
  | .two => do let l ← q[0]?; let l ← row r l; pure (.vec l)
  | .three => (flat r c q).map (.mat r c)

/-- The loop over the species.  xolotl/io/src/XFile.cpp:523-539, 568-610, 642-686, 696-712, 728-771, 787-832. -/
def qEntries (d : Dim) (sd : Side) (r c : ℕ) (n f : List (Q K)) (names : List Name) : Option (List (Key × Obj K)) :=
  (names.zipIdx.mapM fun ((s, i) : Name × ℕ) => do
    let a ← n[i]?
    let a ← pack d r c a
    let b ← f[i]?
    let b ← pack d r c b
    pure [(nKey d sd s, a), (fKey d sd s, b)]).map List.flatten

/-- The positions of the surface.  xolotl/solver/src/monitor/PetscMonitor2D.cpp:598-602, xolotl/solver/src/monitor/PetscMonitor3D.cpp:649-658; xolotl/io/src/XFile.cpp:549-566, 618-640. -/
def posEntries (d : Dim) (my mz : ℕ) (pos : ℕ → ℕ → ℤ) : Option (List (Key × Obj K)) :=
  match d with
  | .zero | .one => some []
  | .two => some [(data "iSurface", .ivec ((List.range my).map fun j => pos j 0))]
  | .three => if 0 < my then some [(data "iSurface", .imat my mz ((List.range my).flatMap fun j => (List.range mz).map (pos j)))] else none

/-- `writeSurface1D`, `writeSurface2D` and `writeSurface3D`.  xolotl/io/src/XFile.cpp:515-542, 544-611, 613-687. -/
def surfEntries (d : Dim) (my mz : ℕ) (pos : ℕ → ℕ → ℤ) (n f : List (Q K)) (names : List Name) : Option (List (Key × Obj K)) := do
  let p ← posEntries d my mz pos
  let q ← qEntries d .surf my mz n f names
  pure (p ++ q)

/-- The size of the arrays of the bottom, from the first species.  xolotl/io/src/XFile.cpp:721-726, 778-785. -/
def bottomSize (d : Dim) (n : List (Q K)) : Option (ℕ × ℕ) :=
  match d with
  | .zero | .one => some (0, 0)
  | .two => do let q ← n[0]?; let l ← q[0]?; pure (l.length, 0)
  | .three => do let q ← n[0]?; let l ← q[0]?; pure (q.length, l.length)

/-- `writeBottom1D`, `writeBottom2D` and `writeBottom3D`.  xolotl/io/src/XFile.cpp:689-715, 717-772, 774-833. -/
def bottomEntries (d : Dim) (n f : List (Q K)) (names : List Name) : Option (List (Key × Obj K)) := do
  let (r, c) ← bottomSize d n
  qEntries d .bulk r c n f names

/-- `writeBursting`.  xolotl/io/src/XFile.cpp:835-853. -/
def burstEntries (b : K × K × K) : List (Key × Obj K) := [(attr "nHeliumBurst", .num b.1), (attr "nDeuteriumBurst", .num b.2.1), (attr "nTritiumBurst", .num b.2.2)]

/-- The numbers of a data set of a grid point.  xolotl/solver/src/monitor/PetscMonitor2D.cpp:645-653. -/
def posData (s : List (ℕ × K)) : Obj K := .mat s.length 2 (s.flatMap fun p => [(p.1 : K), p.2])

/-- `writeConcentrationDataset`: a data set of the same name is deleted.  xolotl/io/src/XFile.cpp:855-894. -/
def writePoint (g : Group K) (i j k : ℤ) (s : List (ℕ × K)) : Option (Group K) := create (g.filter fun e => e.1 != posKey i j k) (posKey i j k, posData s)

/-- The number of entries known to every rank: `own r` says whether rank `r` owns the grid point; the ranks of the owners are added to find who sends.  xolotl/solver/src/monitor/PetscMonitor2D.cpp:630-667, xolotl/solver/src/monitor/PetscMonitor3D.cpp:687-726. -/
def sentSize (ranks : ℕ) (own : ℕ → Bool) (n : ℕ) : ℤ :=
  let size r := if own r then (-1 : ℤ) + n + 1 else -1
  let id r := if own r then r else 0
  size (∑ r ∈ Finset.range ranks, id r)

/-- The loop over the grid; a grid point with nothing to store is left out.  xolotl/solver/src/monitor/PetscMonitor2D.cpp:624-677, xolotl/solver/src/monitor/PetscMonitor3D.cpp:680-737. -/
def writePoints (g : Group K) (l : List ((ℤ × ℤ × ℤ) × List (ℕ × K))) : Option (Group K) :=
  l.foldlM (fun g p => if p.2.length = 0 then some g else writePoint g p.1.1 p.1.2.1 p.1.2.2 p.2) g

end write

/-- The options that decide what is stored: the boundaries, whether the surface can move and bubbles burst. -/
structure Opts where
  left : ℕ
  right : ℕ
  move : Bool
  burst : Bool

/-- The safeguard of the handler.  xolotl/solver/src/handler/SolverHandler.cpp:541-550. -/
def Opts.guarded (o : Opts) : Prop := ¬(o.left = 0 ∧ (o.move = true ∨ o.burst = true))

/-- The members of the monitor that are stored, with the sizes of the grid. -/
structure State (K : Type) where
  fluence : List K
  grid : List K
  my : ℕ
  mz : ℕ
  pos : ℕ → ℕ → ℤ
  nSurf : List (Q K)
  fSurf : List (Q K)
  nBulk : List (Q K)
  fBulk : List (Q K)
  burst : K × K × K
  points : List ((ℤ × ℤ × ℤ) × List (ℕ × K))

section monitor
variable [Field K]

/-- Everything but the concentrations.  xolotl/solver/src/monitor/PetscMonitor.cpp:260-263, xolotl/solver/src/monitor/PetscMonitor1D.cpp:766-782, xolotl/solver/src/monitor/PetscMonitor2D.cpp:604-622, xolotl/solver/src/monitor/PetscMonitor3D.cpp:660-678. -/
def entries (d : Dim) (o : Opts) (names : List Name) (st : State K) : Option (List (Key × Obj K)) :=
  if d = .zero then some (fluenceEntries st.fluence)
  else do
    let gr ← gridEntries st.grid
    let su ← part (o.move = true ∨ o.left = 1) (surfEntries d st.my st.mz st.pos st.nSurf st.fSurf names) []
    let bo ← part (o.right = 1) (bottomEntries d st.nBulk st.fBulk names) []
    pure (fluenceEntries st.fluence ++ gr ++ su ++ bo ++ if o.burst = true then burstEntries st.burst else [])

/-- The concentrations.  xolotl/solver/src/monitor/PetscMonitor0D.cpp:376-379, xolotl/solver/src/monitor/PetscMonitor1D.cpp:788-803, xolotl/solver/src/monitor/PetscMonitor2D.cpp:624-677, xolotl/solver/src/monitor/PetscMonitor3D.cpp:680-737. -/
def concEntries (d : Dim) (st : State K) (g : Group K) : Option (Group K) :=
  match d with
  | .zero | .one => create g (data "concs", .ragged)
  | _ => writePoints g st.points

/-- A checkpoint into the group of a time step. -/
def checkpoint (d : Dim) (o : Opts) (names : List Name) (st : State K) (g : Group K) : Option (Group K) := do
  let e ← entries d o names st
  let g ← createAll g e
  concEntries d st g

end monitor

/-! ### Reading -/

/-- The rows of a matrix.  xolotl/io/src/XFile.cpp:1011-1017, 1063-1070, 1111-1118. -/
def rows (r c : ℕ) (l : List K) : List (List K) := (List.range r).map fun i => (l.drop (i * c)).take c

/-- `readData1D`, `readData2D` and `readData3D`.  xolotl/io/src/XFile.cpp:1026-1032, 1034-1040, 1042-1077. -/
def readQ (d : Dim) (g : Group K) (k : Key) : Option (Q K) :=
  match d, look g k with
  | .one, some (.num x) => some [[x]]
  | .two, some (.vec l) => some [l]
  | .three, some (.mat r c l) => some (rows r c l)
  | _, _ => none

/-- `readGrid` and `readFluence`.  xolotl/io/src/XFile.cpp:970-982. -/
def readVec (g : Group K) (k : Key) : Option (List K) :=
  match look g k with
  | some (.vec l) => some l
  | _ => none

/-- `readData1D` of a burst. -/
def readNum (g : Group K) (k : Key) : Option K :=
  match look g k with
  | some (.num x) => some x
  | _ => none

/-- The three numbers of the bursts.  xolotl/solver/src/monitor/PetscMonitor1D.cpp:459-461. -/
def readBurst (g : Group K) : Option (K × K × K) := do
  let a ← readNum g (attr "nHeliumBurst")
  let b ← readNum g (attr "nDeuteriumBurst")
  let c ← readNum g (attr "nTritiumBurst")
  pure (a, b, c)

/-- `readSurface2D` and `readSurface3D`.  xolotl/io/src/XFile.cpp:984-989, 991-1024. -/
def readPos (d : Dim) (g : Group K) : Option (List (List ℤ)) :=
  match d, look g (data "iSurface") with
  | .two, some (.ivec l) => some [l]
  | .three, some (.imat r c l) => some (rows r c l)
  | _, _ => none

/-- `readGridPoint` and the conversion of the indices: nothing if there is no data set.  xolotl/io/src/XFile.cpp:1079-1126, xolotl/solver/src/handler/PetscSolver2DHandler.cpp:381-384. -/
def readPoint [Semiring K] [LinearOrder K] [FloorSemiring K] (g : Group K) (i j k : ℤ) : Option (List (ℕ × K)) :=
  match look g (posKey i j k) with
  | none => some []
  | some (.mat r c l) => (rows r c l).mapM fun x => do let a ← x[0]?; let b ← x[1]?; pure (⌊a⌋₊, b)
  | _ => none

/-- A vector of zeros for each species, of the size the monitor gives it; none if the boundary is not free.  xolotl/solver/src/monitor/PetscMonitor1D.cpp:145-153, xolotl/solver/src/monitor/PetscMonitor2D.cpp:89-101, xolotl/solver/src/monitor/PetscMonitor3D.cpp:118-132. -/
def zeros [Zero K] (d : Dim) (free : Bool) (species my mz : ℕ) : List (Q K) :=
  if free = true then
    List.replicate species (match d with
      | .three => List.replicate my (List.replicate mz 0)
      | .two => [List.replicate my 0]
      | _ => [[0]])
  else []

/-- An assignment to an entry of a vector. -/
def assign {α : Type} (v : List α) (i : ℕ) (a : α) : Option (List α) := if i < v.length then some (v.set i a) else none

/-- The loop over the names: the quantities and the fluxes are assigned to the entries of the vectors.  xolotl/solver/src/monitor/PetscMonitor1D.cpp:241-255, 420-434, 440-453. -/
def restoreQ (d : Dim) (sd : Side) (g : Group K) (names : List Name) (v : List (Q K) × List (Q K)) : Option (List (Q K) × List (Q K)) :=
  names.zipIdx.foldlM (fun v ((s, i) : Name × ℕ) => do
    let a ← readQ d g (nKey d sd s)
    let n ← assign v.1 i a
    let b ← readQ d g (fKey d sd s)
    let f ← assign v.2 i b
    pure (n, f)) v

/-- What the `setup` of a monitor leaves in its members in a restart. -/
structure Restored (K : Type) where
  surf : List (Q K) × List (Q K)
  bulk : List (Q K) × List (Q K)
  burst : K × K × K
  fluence : Option (List K)
  deriving DecidableEq

/-- The parts of `setup` that read the group of the last time step in the first loop; `he` and `xe` are the options `-helium_retention` and `-xenon_retention`.  xolotl/solver/src/monitor/PetscMonitor1D.cpp:230-260, 398-463, 542-555, xolotl/solver/src/monitor/PetscMonitor2D.cpp:165-195, 254-319, 394-407, xolotl/solver/src/monitor/PetscMonitor3D.cpp:181-211, 271-334, 410-423. -/
def restore [Zero K] (d : Dim) (o : Opts) (he xe : Bool) (names : List Name) (my mz : ℕ) (g : Group K) : Option (Restored K) := do
  let z := zeros d (o.left == 1) names.length my mz
  let zb := zeros d (o.right == 1) names.length my mz
  let s ← part (o.move = true) (restoreQ d .surf g names (z, z)) (z, z)
  let f ← part (he = true) ((readVec g (data "fluence")).map some) none
  let s ← part (he = true ∧ o.left = 1) (restoreQ d .surf g names s) s
  let b ← part (he = true ∧ o.right = 1) (restoreQ d .bulk g names (zb, zb)) (zb, zb)
  let u ← part (he = true ∧ o.burst = true) (readBurst g) (0, 0, 0)
  let f ← part (xe = true) ((readVec g (data "fluence")).map some) f
  pure ⟨s, b, u, f⟩

/-- The grid of `createSolverContext` and the number of its points, an unsigned number: `last` is the last group, if the file has time steps, and `old` the grid before.  xolotl/solver/src/handler/PetscSolver1DHandler.cpp:30-48, xolotl/solver/src/handler/PetscSolver2DHandler.cpp:32-50, xolotl/solver/src/handler/PetscSolver3DHandler.cpp:32-50. -/
def handlerGrid (restart : Bool) (offset : ℤ) (last : Option (Group K)) (old generated : List K) : Option (List K × ℕ) := do
  let g ← part (restart = true ∧ offset = 0) (match last with
      | some g => readVec g (data "grid")
      | none => some old) generated
  pure (g, (g.length + 2 ^ 32 - 2) % 2 ^ 32)

/-- The positions of the surface in `createSolverContext`: the stored ones replace the first entries.  xolotl/solver/src/handler/PetscSolver2DHandler.cpp:52-72, xolotl/solver/src/handler/PetscSolver3DHandler.cpp:52-86. -/
def handlerPos (d : Dim) (restart move : Bool) (last : Option (Group K)) (my mz : ℕ) : Option (List (List ℤ)) :=
  let start := match d with
    | .three => List.replicate my (List.replicate mz (0 : ℤ))
    | _ => [List.replicate my 0]
  if restart = true ∧ move = true then
    match last with
    | none => some start
    | some g => do
      let p ← readPos d g
      let c ← part (p.length ≠ 0) ((p[0]?).map List.length) 0
      if p.length ≤ start.length ∧ (∀ r ∈ p, c ≤ r.length) ∧ ∀ r ∈ start.take p.length, c ≤ r.length then
        pure (start.mapIdx fun i r => match p[i]? with | some x => x.take c ++ r.drop c | none => r)
      else none
  else some start

end Xolotl.IO.Contents
