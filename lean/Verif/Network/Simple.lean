import Verif.Network.Production
import Verif.Network.Dissociation
import Mathlib.Algebra.Order.Field.Basic

/-!
# Trap mutation, nucleation and sink reactions, left side rate

Models of `/repo/xolotl/core/include/xolotl/core/network/impl/TrapMutationReaction.tpp`,
`.../TrapMutationReaction.h`, `.../impl/NucleationReaction.tpp`, `.../SinkReaction.h`, of
`selectTrapMutationReactions`, `computeFluxesPreProcess` and the modified trap-mutation part of the PSI generator
(`impl/PSIReactionNetwork.tpp:112-160, 616-640`) and of
`computeLeftSideRate` (`impl/Reaction.tpp:1815-1833, 2985-2998`).
-/

namespace Xolotl.Network

/-- `TrapMutationClusterData` (detail/TrapMutationClusterData.h:43-80). -/
structure TmData (K : Type*) where
  /-- `desorption().id` (`none` is `invalidNetworkIndex`) -/
  desorpId : Option ℕ
  /-- `desorption().portion` -/
  portion : K
  /-- `currentDesorpLeftSideRate` -/
  leftSide : K
  /-- `currentDisappearingRate` -/
  disappearing : K
  /-- `tmDepths` -/
  depths : Fin 7 → K
  /-- `tmVSizes` -/
  vSizes : Fin 7 → ℕ
  /-- `tmEnabled` -/
  enabled : Fin 7 → Bool

/-- A trap-mutation reaction. `heIdx` is `_heAmount - 1`; the generator only makes reactions with
`1 <= heAmt <= 7` (PSIReactionNetwork.tpp:619-621). -/
structure TmRxn (K : Type*) where
  /-- `_heClId` -/
  he : ℕ
  /-- `_heVClId` -/
  heV : ℕ
  /-- `_iClId` -/
  i : ℕ
  /-- `_heAmount - 1` -/
  heIdx : Fin 7
  /-- `_vSize` -/
  vSize : ℕ
  /-- `_rate(gridIndex)` -/
  rate : K

section tm
variable {K : Type*} [Field K] [LinearOrder K]

/-- `selectTrapMutationReactions(depth, spacing)` (PSIReactionNetwork.tpp:112-135). -/
def TmData.select (t : TmData K) (depth spacing : K) : TmData K :=
  { t with enabled := fun l =>
      if t.depths l = 0 then false
      else decide (t.depths l < depth + 1 / 100 ∧ t.depths l > depth - spacing - 1 / 100) }

namespace TmRxn

variable (r : TmRxn K) (t : TmData K)

/-- `computeRate(largestRate)` (TrapMutationReaction.tpp:47-60). -/
def computeRate (largest : K) : K :=
  if some r.he = t.desorpId then (1 - t.portion) / t.portion else 1000 * largest

/-- `getAppliedRate` (TrapMutationReaction.tpp:95-108). -/
def appliedRate : K :=
  (if some r.he = t.desorpId then r.rate * t.leftSide else r.rate) * t.disappearing

/-- `getEnabled` (TrapMutationReaction.tpp:110-118). -/
def enabled : Bool := t.enabled r.heIdx && decide (t.vSizes r.heIdx = r.vSize)

/-- `computeFlux` (TrapMutationReaction.tpp:120-137). -/
def computeFlux (c : ℕ → K) : List (ℕ × K) :=
  if r.enabled t then
    let f := r.appliedRate t * c r.he
    [(r.he, -f), (r.heV, f), (r.i, f)]
  else []

/-- `computePartialDerivatives` (TrapMutationReaction.tpp:139-156). -/
def computePartials : List ((ℕ × ℕ) × K) :=
  if r.enabled t then
    let a := r.appliedRate t
    [((r.he, r.he), -a), ((r.heV, r.he), a), ((r.i, r.he), a)]
  else []

/-- `computeReducedPartialDerivatives` (TrapMutationReaction.tpp:158-172). -/
def computeReducedPartials : List ((ℕ × ℕ) × K) :=
  if r.enabled t then [((r.he, r.he), -r.appliedRate t)] else []

/-- `computeConnectivity` (TrapMutationReaction.tpp:73-83). -/
def computeConnectivity : List (ℕ × ℕ) := [(r.he, r.he), (r.heV, r.he), (r.i, r.he)]

/-- `computeReducedConnectivity` (TrapMutationReaction.tpp:85-92). -/
def computeReducedConnectivity : List (ℕ × ℕ) := [(r.he, r.he)]

end TmRxn

/-- A composition of the PSI network. -/
structure PsiComp where
  he : ℕ
  d : ℕ
  t : ℕ
  v : ℕ
  i : ℕ
  deriving DecidableEq

/-- Modified trap-mutation part of the PSI generator (PSIReactionNetwork.tpp:616-640): the reactions `(i, j, iClusterId)` added
for the pair of clusters `(i, j)` with simplex regions at `lo1`, `lo2`.  `findTile` is
`subpaving.findTileId`. The returned id of the interstitial cluster is stored without being checked. -/
def addTrapMutations (tmVSizes : Fin 7 → List ℕ) (findTile : PsiComp → Option ℕ)
    (i j : ℕ) (simplex1 simplex2 : Bool) (lo1 lo2 : PsiComp) : List (ℕ × ℕ × Option ℕ) :=
  if h : (simplex1 && simplex2) = true ∧ 1 ≤ lo1.he ∧ lo1.he ≤ 7 then
    let comp1 : PsiComp := ⟨lo1.he, 0, 0, 0, 0⟩
    (tmVSizes ⟨lo1.he - 1, by omega⟩).flatMap fun vSize =>
      let comp2 : PsiComp := { comp1 with v := vSize }
      if lo1 = comp1 ∧ lo2 = comp2 then [(i, j, findTile ⟨0, 0, 0, 0, vSize⟩)] else []
  else []

end tm

/-- A nucleation reaction (NucleationReaction.tpp). -/
structure NucRxn (K : Type*) where
  /-- `_reactant` -/
  reactant : ℕ
  /-- `_product` -/
  product : ℕ
  /-- `_rate(gridIndex)` -/
  rate : K

namespace NucRxn
variable {K : Type*} [Field K] [LinearOrder K] (r : NucRxn K)

/-- `computeFlux` (NucleationReaction.tpp:69-87). -/
def computeFlux (c : ℕ → K) : List (ℕ × K) :=
  if c r.reactant > 2 * r.rate then
    [(r.reactant, -(2 * r.rate)), (r.product, r.rate)]
  else
    [(r.reactant, -c r.reactant), (r.product, c r.reactant / 2)]

/-- `computePartialDerivatives` (NucleationReaction.tpp:89-107). -/
def computePartials (c : ℕ → K) : List ((ℕ × ℕ) × K) :=
  if c r.reactant > 2 * r.rate then []
  else [((r.reactant, r.reactant), -1), ((r.product, r.reactant), 1 / 2)]

/-- `computeReducedPartialDerivatives` (NucleationReaction.tpp:109-128). -/
def computeReducedPartials (c : ℕ → K) : List ((ℕ × ℕ) × K) :=
  if c r.reactant > 2 * r.rate then []
  else [((r.reactant, r.reactant), -1)] ++
    if r.product = r.reactant then [((r.product, r.reactant), 1 / 2)] else []

/-- `computeConnectivity` (NucleationReaction.tpp:44-54). -/
def computeConnectivity : List (ℕ × ℕ) := [(r.reactant, r.reactant), (r.product, r.reactant)]

/-- `computeReducedConnectivity` (NucleationReaction.tpp:56-67). -/
def computeReducedConnectivity : List (ℕ × ℕ) :=
  [(r.reactant, r.reactant)] ++ if r.product = r.reactant then [(r.product, r.reactant)] else []

end NucRxn

/-- A sink reaction (SinkReaction.h). -/
structure SinkRxn (K : Type*) where
  /-- `_reactant` -/
  reactant : ℕ
  /-- `_rate(gridIndex)` -/
  rate : K

namespace SinkRxn
variable {K : Type*} [Field K] (r : SinkRxn K)

/-- `computeRate` (SinkReaction.tpp:15-26): bias, strength and diffusion coefficient. -/
def computeRate (bias strength dc : K) : K := bias * strength * dc

/-- `computeFlux` (SinkReaction.h:101-108). -/
def computeFlux (c : ℕ → K) : List (ℕ × K) := [(r.reactant, -(c r.reactant * r.rate))]

/-- `computePartialDerivatives` and `computeReducedPartialDerivatives` (SinkReaction.h:110-126). -/
def computePartials : List ((ℕ × ℕ) × K) := [((r.reactant, r.reactant), -r.rate)]

/-- `computeConnectivity` and `computeReducedConnectivity` (SinkReaction.h:85-99). -/
def computeConnectivity : List (ℕ × ℕ) := [(r.reactant, r.reactant)]

end SinkRxn

/-! ### Left side rate -/

section left
variable {d : ℕ} {K : Type*} [Field K]

/-- `ProductionReaction::computeLeftSideRate` (Reaction.tpp:1815-1833). -/
def ProdRxn.leftSideRate (r : ProdRxn d K) (c : ℕ → K) (n : ℕ) : K :=
  if n = r.r1 then r.rate * c r.r2 * r.coefs none none .r1 none
  else if n = r.r2 then r.rate * c r.r1 * r.coefs none none .r1 none
  else 0

/-- `DissociationReaction::computeLeftSideRate` (Reaction.tpp:2985-2998). -/
def DissRxn.leftSideRate (r : DissRxn d K) (n : ℕ) : K :=
  if n = r.id .r then r.rate * r.coefs none .r none else 0

end left

end Xolotl.Network
