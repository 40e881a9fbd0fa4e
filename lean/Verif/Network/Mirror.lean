import Mathlib.Data.Nat.Notation
import Mathlib.Logic.Function.Basic

/-!
# The cluster data on the host, on the device and in the mirror

Model of the three structures that describe the clusters: the structure of the network on the host, its copy on the device, and the mirror from which the host reads.  The structures hold views, that is addresses of
allocations; copies of structures share them.  The contents are functions of an index with values in any type.  Reference counts, the subpaving and its mirror are not modelled, nor is the content of the reactions.
Views with several arrays of equal treatment are taken together: radius, energies, diffusion factor and moment ids are one allocation, and so are all those of the extra data.
-/

namespace Xolotl.Network.Mirror

/-- A structure of views; `scal` are the numbers and flags, `clus` the data by cluster, `temp` the temperatures, `diff` the diffusion coefficients, `extra` the data of the kind of network if allocated.
xolotl/core/include/xolotl/core/network/detail/ClusterData.h:100-117, xolotl/core/include/xolotl/core/network/detail/impl/ClusterData.tpp:38-54, 105-114. -/
structure Views where
  grid : ℕ
  scal : ℕ
  clus : ℕ
  temp : ℕ
  diff : ℕ
  extra : Option ℕ
  deriving DecidableEq

variable {V : Type*}

/-- The memory, the next address, the structures, and whether host and device have the same memory. -/
structure State (V : Type*) where
  heap : ℕ → ℕ → V
  next : ℕ
  host : Views
  dev : Views
  mirror : Option Views
  same : Bool

/-- Write a whole allocation. -/
def State.put (s : State V) (a : ℕ) (f : ℕ → V) : State V := { s with heap := Function.update s.heap a f }

/-- A new allocation. -/
def State.new (s : State V) (f : ℕ → V) : State V := { s with heap := Function.update s.heap s.next f, next := s.next + 1 }

/-- The numbers whose change does not discard the mirror: the transition size (8), the flags for rates from a file (14) and for constant reactions (15); the numbers are counted through the three lists of
xolotl/core/include/xolotl/core/network/detail/ClusterData.h:142-171; xolotl/core/include/xolotl/core/network/impl/ReactionNetwork.tpp:47, 233-240, 249-255. -/
def keeps (key : ℕ) : Bool := key == 8 || key == 14 || key == 15

/-- `invalidateDataMirror`.  xolotl/core/include/xolotl/core/network/ReactionNetwork.h:300-305. -/
def State.invalidate (s : State V) : State V := { s with mirror := none }

/-- `copyClusterDataView`.  xolotl/core/include/xolotl/core/network/impl/ReactionNetwork.tpp:19-25. -/
def State.copyView (s : State V) : State V := { s with dev := s.host }

/-- One of the setters.  xolotl/core/include/xolotl/core/network/impl/ReactionNetwork.tpp:157-255; xolotl/core/include/xolotl/core/network/detail/ClusterData.h:173-181. -/
def setScalar (s : State V) (key : ℕ) (v : V) : State V :=
  let t := s.put s.host.scal (Function.update (s.heap s.host.scal) key v)
  if keeps key then t else t.invalidate

/-- The mirror of the extra data: `create_mirror_view` gives the view itself if the memory is the same.  xolotl/core/include/xolotl/core/network/ZrTraits.h:115-138, detail/impl/TrapMutationClusterData.tpp:11-38, NETraits.h:109-126 (the map of NETraits.h, always a copy of its own, is left out). -/
def mirrorExtra (s : State V) : State V × Option ℕ :=
  match s.host.extra with
  | none => (s, none)
  | some a => if s.same then (s, some a) else (s.new (s.heap a), some s.next)

/-- `syncClusterDataOnHost`: new allocations of the mirror, filled by `deepCopy`.  xolotl/core/include/xolotl/core/network/impl/ReactionNetwork.tpp:320-332; xolotl/core/include/xolotl/core/network/detail/impl/ClusterData.tpp:56-70, 123-134. -/
def sync (s : State V) : State V :=
  let t := (((s.new (s.heap s.host.scal)).new (s.heap s.host.clus)).new (s.heap s.host.temp)).new (s.heap s.host.diff)
  let e := mirrorExtra t
  { e.1 with mirror := some ⟨s.host.grid, s.next, s.next + 1, s.next + 2, s.next + 3, e.2⟩ }

/-- `getClusterDataMirror`.  xolotl/core/include/xolotl/core/network/ReactionNetwork.h:316-323. -/
def getMirror (s : State V) : State V :=
  match s.mirror with
  | none => sync s
  | some _ => s

/-- The part of `setGridSize` for the mirror.  xolotl/core/include/xolotl/core/network/impl/ReactionNetwork.tpp:262-265. -/
def gridMirror (s : State V) (zero : ℕ → V) (n : ℕ) : State V :=
  match s.mirror with
  | none => s
  | some m => { (s.new zero).new zero with mirror := some { m with grid := n, temp := s.next, diff := s.next + 1 } }

/-- The part for the host.  xolotl/core/include/xolotl/core/network/impl/ReactionNetwork.tpp:266-267; xolotl/core/include/xolotl/core/network/detail/impl/ClusterData.tpp:95-103. -/
def gridHost (s : State V) (zero : ℕ → V) (n : ℕ) : State V :=
  { (s.new zero).new zero with host := { s.host with grid := n, temp := s.next, diff := s.next + 1 } }

/-- New extra data, as for zirconium.  xolotl/core/src/network/ZrReactionNetwork.cpp:125-131; xolotl/core/include/xolotl/core/network/ZrTraits.h:163-168. -/
def gridExtra (s : State V) (zero : ℕ → V) : State V := { s.new zero with host := { s.host with extra := some s.next } }

/-- `setGridSize`, with `zr` for the network of zirconium.  xolotl/core/include/xolotl/core/network/impl/ReactionNetwork.tpp:257-271. -/
def setGridSize (zr : Bool) (zero : ℕ → V) (s : State V) (n : ℕ) : State V :=
  (gridHost (gridMirror (if zr then gridExtra s zero else s) zero n) zero n).copyView

/-- Write the extra data, if allocated. -/
def putExtra (s : State V) (f : ℕ → V) : State V :=
  match s.host.extra with
  | none => s
  | some a => s.put a f

/-- `setTemperatures`: `coef` computes the diffusion coefficients, `extra` is what `updateExtraClusterData` writes.  xolotl/core/include/xolotl/core/network/impl/ReactionNetwork.tpp:273-289, 527-533. -/
def setTemperatures (coef : (ℕ → V) → (ℕ → V) → (ℕ → V) → ℕ → V) (s : State V) (temps extra : ℕ → V) : State V :=
  let t := s.put s.host.temp temps
  let u := (t.put t.host.diff (coef (t.heap t.host.clus) (t.heap t.host.temp) (t.heap t.host.diff))).invalidate
  (putExtra u extra).invalidate

/-- `readReactions` of the network of nuclear engineering: the mirror is written and copied back.  xolotl/core/include/xolotl/core/network/impl/NEReactionNetwork.tpp:48-51, 133-142, 303-316. -/
def readReactions (s : State V) (change : (ℕ → V) → ℕ → V) (extra : ℕ → V) : State V :=
  let t := sync s
  match t.mirror with
  | none => t
  | some m =>
    let u := t.put m.clus (change (t.heap m.clus))
    ((putExtra (u.put u.host.clus (u.heap m.clus)) extra).invalidate).copyView

/-- The public calls. -/
inductive Call (V : Type*)
  | scalar (key : ℕ) (v : V)
  | gridSize (n : ℕ)
  | temperatures (temps extra : ℕ → V)
  /-- `setTime`.  xolotl/core/include/xolotl/core/network/impl/ReactionNetwork.tpp:291-299. -/
  | time
  /-- `generateClusterData` and `defineMomentIds`.  xolotl/core/include/xolotl/core/network/impl/ReactionNetwork.tpp:535-542, 1604-1611. -/
  | clusters (f : ℕ → V)
  /-- `selectTrapMutationReactions`, `updateTrapMutationDisappearingRate`, `updateDesorptionLeftSideRate`.  xolotl/core/include/xolotl/core/network/impl/PSIReactionNetwork.tpp:112-135, 301-336. -/
  | deviceOnly (f : ℕ → V)
  | mirror
  | read (change : (ℕ → V) → ℕ → V) (extra : ℕ → V)

/-- One call. -/
def step (zr : Bool) (zero : ℕ → V) (coef : (ℕ → V) → (ℕ → V) → (ℕ → V) → ℕ → V) (s : State V) : Call V → State V
  | .scalar key v => setScalar s key v
  | .gridSize n => setGridSize zr zero s n
  | .temperatures t e => setTemperatures coef s t e
  | .time => s.invalidate
  | .clusters f => (s.put s.host.clus f).invalidate
  | .deviceOnly f => putExtra s f
  | .mirror => getMirror s
  | .read c e => readReactions s c e

/-- Any sequence of calls. -/
def run (zr : Bool) (zero : ℕ → V) (coef : (ℕ → V) → (ℕ → V) → (ℕ → V) → ℕ → V) (s : State V) (cs : List (Call V)) : State V := cs.foldl (step zr zero coef) s

/-- The state after the structure is made and copied, with the extra data allocated or not.  xolotl/core/include/xolotl/core/network/impl/ReactionNetwork.tpp:36-37, 74; PSIReactionNetwork.tpp:49-61. -/
def start (same : Bool) (heap : ℕ → ℕ → V) (n : ℕ) (hasExtra : Bool) : State V :=
  let v : Views := ⟨n, 0, 1, 2, 3, if hasExtra then some 4 else none⟩
  ⟨heap, 5, v, v, none, same⟩

end Xolotl.Network.Mirror
