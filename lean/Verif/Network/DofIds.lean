import Verif.Network.Assemble
import Verif.Network.LoopNet
import Verif.Network.Numbering

/-!
# The ids of the moments in the assembled networks

The networks of `Verif.Network.Assemble` and `Verif.Network.LoopNet` take the ids of the moments as given. Here they are those that `ClusterData::defineMomentIds`
(`/repo/xolotl/core/include/xolotl/core/network/detail/impl/ClusterData.tpp:190-252`, modelled in `Verif.Network.Numbering`) assigns to the regions of the clusters.
-/

namespace Xolotl.Network

/-- One species of a cluster in the loops of `defineMomentIds`: `reg[k].length() != 1` and `mapToMomentId(k)`.  ClusterData.tpp:205-206, 234-236. -/
def axisOf (r : Ival) (slot : ℕ) : Numbering.Axis := ⟨decide (r.e - r.b ≠ 1), slot⟩

namespace Dispatch

variable {σ : Type} {sp : List σ}

/-- The species of a cluster in the order of the grouping range: the gases, vacancies and, if `withI` (all networks but fuel), interstitials in the slot of the vacancies.
PSITraits.h:108-128, 176-200, 245-269, 305-325, FeTraits.h:52-66, SpeciesEnumSequence.h:136-147. -/
def axesOf (sp : List σ) (withI : Bool) (c : Clu σ) : List Numbering.Axis :=
  (List.finRange sp.length).map (fun j => axisOf (c.g (sp.get j)) j) ++ axisOf c.v sp.length :: if withI then [axisOf c.i sp.length] else []

/-- The species of all clusters. -/
def Net.allAxes (N : Net σ sp) (withI : Bool) : List (List Numbering.Axis) := (List.range N.n).map fun k => axesOf sp withI (N.cl k)

/-- `momentIds(k, j)`. -/
def Net.momentIds (N : Net σ sp) (withI : Bool) (k : ℕ) (j : Fin (sp.length + 1)) : Option ℕ := Numbering.momentId (N.allAxes withI) k j

/-- `getDOF()`.  ReactionNetwork.tpp:1608-1609. -/
def Net.dofs (N : Net σ sp) (withI : Bool) : ℕ := Numbering.numDofs (N.allAxes withI)

end Dispatch

namespace Pairs

variable {κ : Type} [DecidableEq κ]

/-- The species of a cluster of zirconium or an alloy in the order `ks` of the grouping range, all in one slot.  AlloyTraits.h:60-72, ZrTraits.h:58-71. -/
def axesOf (ks : List κ) (c : Cl κ) : List Numbering.Axis := ks.map fun s => axisOf (axes c s) 0

/-- The species of all clusters. -/
def World.allAxes (W : World κ) (ks : List κ) : List (List Numbering.Axis) := (List.range W.n).map fun k => axesOf ks (W.cl k)

/-- `momentIds(k, 0)`. -/
def World.momentIds (W : World κ) (ks : List κ) (k : ℕ) : Option ℕ := Numbering.momentId (W.allAxes ks) k 0

/-- `getDOF()`.  ReactionNetwork.tpp:1608-1609. -/
def World.dofs (W : World κ) (ks : List κ) : ℕ := Numbering.numDofs (W.allAxes ks)

/-- The species of zirconium.  ZrTraits.h:25-30. -/
def zrKinds : List ZK := [.v, .basal, .i]

/-- The species of alloys.  AlloyTraits.h:21-29. -/
def alloyKinds : List AK := [.v, .void, .faulted, .i, .perfect, .frank]

end Pairs

end Xolotl.Network
