import Mathlib.Data.List.Basic
import Verif.IO.Steps

/-!
# The network in the checkpoint file

Model of `XFile::NetworkGroup` and `XFile::ClusterGroup`, of the bounds and labels that the network gives to them, and of the constructor and the `setup` of the monitors, which decide when a checkpoint file is made,
when its network is written and when it is copied from the restart file.

A file has at most one group with concentrations and one with a network.  Names of files that differ stand for different files.  `ℕ` below 2^32 stands for `AmountType` and `IdType`, and `int` has 32 bits.  The library
stores numbers and strings as they are given; making a group that exists, opening a file or a group that does not exist, and a file with an empty name throw.
-/

namespace Xolotl.IO.NetFile

/-- A name. -/
abbrev Name := List Char

/-- The bits of an unsigned number read as a signed one. -/
def toInt (n : ℕ) : ℤ := if n < 2 ^ 31 then n else (n : ℤ) - 2 ^ 32

/-- The bits of a signed number read as an unsigned one. -/
def toNat (i : ℤ) : ℕ := (i % 2 ^ 32).toNat

/-- What the network says about a cluster: the intervals of its region, from the first number to the one after the last, and its energies. -/
structure Cluster (K : Type) where
  region : List (ℕ × ℕ)
  formation : K
  migration : K
  diffusion : K
  deriving DecidableEq

/-- What the network says about itself. -/
structure Network (K : Type) where
  labels : List Name
  clusters : List (Cluster K)
  deriving DecidableEq

/-- The attributes of the group of a cluster. -/
structure ClusterGroup (K : Type) where
  bounds : List ℤ
  formation : K
  migration : K
  diffusion : K
  deriving DecidableEq

/-- The group of the network: two attributes and the groups of the clusters. -/
structure NetworkGroup (K : Type) where
  phaseSpace : List Name
  totalSize : ℤ
  groups : List (Name × ClusterGroup K)
  deriving DecidableEq

variable {K : Type}

/-- `hi[j] - 1` for unsigned numbers. -/
def pred (n : ℕ) : ℕ := (n + (2 ^ 32 - 1)) % 2 ^ 32

/-- One entry of `getAllClusterBounds`.  xolotl/core/include/xolotl/core/network/impl/ReactionNetwork.tpp:344-354. -/
def bounds (r : List (ℕ × ℕ)) : List ℕ := r.flatMap fun i => [i.1, pred i.2]

/-- `getAllClusterBounds`.  xolotl/core/include/xolotl/core/network/impl/ReactionNetwork.tpp:334-356. -/
def allBounds (n : Network K) : List (List ℕ) := n.clusters.map fun c => bounds c.region

/-- `makeGroupName`: the index is given as an `int`.  xolotl/io/src/XFile.cpp:194-200. -/
def groupName (i : ℕ) : Name := Steps.render (toInt i)

/-- Making the group of a cluster.  xolotl/io/src/XFile.cpp:162-192, xolotl/io/src/HDF5FileGroup.cpp:10-30. -/
def addCluster (g : NetworkGroup K) (i : ℕ) (b : List ℕ) (c : Cluster K) : Option (NetworkGroup K) :=
  if (g.groups.any fun e => e.1 == groupName i) then none
  else some { g with groups := g.groups ++ [(groupName i, ⟨b.map toInt, c.formation, c.migration, c.diffusion⟩)] }

/-- The round of the loop over the clusters.  xolotl/io/src/XFile.cpp:112-118. -/
def clusterStep (n : Network K) (b : List (List ℕ)) (g : NetworkGroup K) (i : ℕ) : Option (NetworkGroup K) := do
  let c ← n.clusters[i]?
  let b ← b[i]?
  addCluster g i b c

/-- The constructor that writes the network; the index is compared with the size as unsigned numbers.  xolotl/io/src/XFile.cpp:74-119, xolotl/core/include/xolotl/core/network/impl/ReactionNetwork.tpp:512-525. -/
def write (n : Network K) : Option (NetworkGroup K) :=
  (List.range (toNat (toInt n.clusters.length))).foldlM (clusterStep n (allBounds n)) ⟨n.labels, toInt n.clusters.length, []⟩

/-- `readNetworkSize`.  xolotl/io/src/XFile.cpp:121-127. -/
def readSize (g : NetworkGroup K) : ℤ := g.totalSize

/-- Opening the group of a cluster and `readCluster`.  xolotl/io/src/XFile.cpp:157-160, 202-227. -/
def readCluster (g : NetworkGroup K) (i : ℕ) : Option (List ℕ × K × K × K) :=
  (g.groups.find? fun e => e.1 == groupName i).map fun e => (e.2.bounds.map toNat, e.2.formation, e.2.migration, e.2.diffusion)

/-! ### Files -/

/-- A file. -/
structure File (K : Type) where
  conc : Option (Steps.Conc K)
  net : Option (NetworkGroup K)

/-- The files by their names. -/
abbrev Disk (K : Type) := Name → Option (File K)

/-- Changing one file. -/
def put (d : Disk K) (n : Name) (f : File K) : Disk K := fun m => if m = n then some f else d m

/-- The constructor that makes or truncates a file.  xolotl/io/src/XFile.cpp:48-53, xolotl/io/src/HDF5File.cpp:80-113. -/
def create (d : Disk K) (n : Name) : Option (Disk K) := if n = [] then none else some (put d n ⟨some Steps.create, none⟩)

/-- A run, as far as it matters for the files. -/
structure Run (K : Type) where
  /-- the name of the checkpoint file -/
  out : Name
  /-- the name of the restart file -/
  restart : Name
  /-- whether `-start_stop` is given -/
  status : Bool
  /-- the network of the run -/
  network : Network K

/-- What is left on the disk, and whether an exception was thrown. -/
structure Outcome (K : Type) where
  disk : Disk K
  thrown : Bool

/-- The constructor of the monitor.  xolotl/solver/src/monitor/PetscMonitor.cpp:157-168, 174-178. -/
def construct (r : Run K) (d : Disk K) : Disk K := if r.out ≠ [] ∧ d r.out = none then (create d r.out).getD d else d

/-- `checkForRestart`.  xolotl/solver/src/handler/SolverHandler.cpp:718-722. -/
def checkForRestart (r : Run K) (d : Disk K) : Bool := r.restart ≠ [] && (d r.restart).isSome

/-- `copyTo`.  xolotl/io/src/XFile.cpp:138-144. -/
def copyTo (d : Disk K) (g : NetworkGroup K) (n : Name) : Outcome K :=
  match d n with
  | none => ⟨d, true⟩
  | some f => ⟨put d n { f with net := some (f.net.getD g) }, false⟩

/-- Writing from scratch.  xolotl/solver/src/monitor/PetscMonitor.cpp:212-218. -/
def writeScratch (d : Disk K) (w : Network K) (n : Name) : Outcome K :=
  match d n, write w with
  | some f, some g => if f.net.isSome then ⟨d, true⟩ else ⟨put d n { f with net := some g }, false⟩
  | _, _ => ⟨d, true⟩

/-- `writeNetwork` on the first rank.  xolotl/solver/src/monitor/PetscMonitor.cpp:180-220. -/
def writeNetwork (d : Disk K) (w : Network K) (target src : Name) : Outcome K :=
  if src ≠ [] then
    match d src with
    | none => ⟨d, true⟩
    | some f => match f.net with
      | some g => copyTo d g target
      | none => ⟨d, false⟩
  else writeScratch d w target

/-- `setup`.  xolotl/solver/src/monitor/PetscMonitor0D.cpp:247-300, xolotl/solver/src/monitor/PetscMonitor1D.cpp:665-690, xolotl/solver/src/monitor/PetscMonitor2D.cpp:492-517, xolotl/solver/src/monitor/PetscMonitor3D.cpp:540-566. -/
def setup (r : Run K) (loop : ℕ) (d : Disk K) : Outcome K :=
  if r.status && r.out ≠ r.restart && loop = 0 then
    match create d r.out with
    | none => ⟨d, true⟩
    | some d => writeNetwork d r.network r.out r.restart
  else ⟨d, false⟩

/-- The monitor of one loop.  xolotl/solver/src/PetscSolver.cpp:247-272. -/
def start (r : Run K) (loop : ℕ) (d : Disk K) : Outcome K := setup r loop (construct r d)

/-- `addTimestepGroup` for a checkpoint: the concentrations of the checkpoint file change, nothing else.  xolotl/solver/src/monitor/PetscMonitor.cpp:246-258. -/
def step (r : Run K) (d : Disk K) (q : Steps.Req K) : Outcome K :=
  match d r.out with
  | none => ⟨d, true⟩
  | some f => match f.conc.bind fun c => (Steps.add c q.ctrl q.loop q.ts q.t).map Prod.fst with
    | none => ⟨d, true⟩
    | some c => ⟨put d r.out { f with conc := some c }, false⟩

/-- One thing after the other, unless an exception was thrown. -/
def Outcome.next (o : Outcome K) (f : Disk K → Outcome K) : Outcome K := if o.thrown then o else f o.disk

/-- One loop: the monitor and its checkpoints. -/
def oneLoop (r : Run K) (d : Disk K) (l : ℕ × List (Steps.Req K)) : Outcome K :=
  l.2.foldl (fun o q => o.next fun d => if r.status then step r d q else ⟨d, false⟩) (start r l.1 d)

/-- A run: its loops, each with its checkpoints.  xolotl/solver/src/PetscSolver.cpp:352-411. -/
def run (r : Run K) (qs : List (List (Steps.Req K))) (d : Disk K) : Outcome K :=
  qs.zipIdx.foldl (fun o l => o.next fun d => oneLoop r d (l.2, l.1)) ⟨d, false⟩

end Xolotl.IO.NetFile
