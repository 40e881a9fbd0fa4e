import Verif.Network.CoefsProps
import Verif.Network.Production

/-!
# Dissociation and re-solution reactions

Model of `DissociationReaction` in
`/repo/xolotl/core/include/xolotl/core/network/impl/Reaction.tpp` (constructor 2205-2231,
`computeCoefficients` 2243-2344, `computeConnectivity` 2360-2421, `computeReducedConnectivity`
2423-2477, `computeFlux` 2479-2542, `computePartialDerivatives` 2544-2632,
`computeReducedPartialDerivatives` 2634-2696, `mapJacobianEntries` 3000-3044).
`ReSolutionReaction` (`impl/ReSolutionReaction.tpp:50-143, 198-600`) is the same code, line for line, for all
of these functions, so this file is the model of both.
-/

namespace Xolotl.Network

open Xolotl.Util

/-- What `computeCoefficients` reads: the reflected regions and dispersions of the reactant and of both products.
The fourth region (`cl2Reg`) is the dummy region at the origin. -/
structure DissIn (d : ℕ) (K : Type*) where
  /-- `clRR` -/
  c : Fin d → Ival
  /-- `pr1RR` -/
  p1 : Fin d → Ival
  /-- `pr2RR` -/
  p2 : Fin d → Ival
  /-- `clDisp` -/
  dc : Fin d → K
  /-- `prod1Disp` -/
  dp1 : Fin d → K
  /-- `prod2Disp` -/
  dp2 : Fin d → K

/-- Participants of a dissociation (third index of `_coefs`: 0, 1, 2). -/
inductive DSlot
  | r | p1 | p2
  deriving DecidableEq

/-- The dummy region on one axis. -/
def dummyIval : Ival := ⟨0, 1⟩

namespace DissIn

variable {d : ℕ} {K : Type*} [Field K] [LinearOrder K] (r : DissIn d K)

/-- `_widths[i]`: `computeOverlap(pr1RR, pr2RR, clRR, cl2RR)`. -/
def width (i : Fin d) : K := overlapWidth (r.p1 i) (r.p2 i) (r.c i) dummyIval

/-- `nOverlap` -/
def nOverlap : K := ∏ i, r.width i

/-- `factor` -/
def factor (i : Fin d) : K := r.nOverlap / r.width i

/-- `_coefs(i+1,0,0,0)` (Reaction.tpp:2282-2286). -/
def cA (i : Fin d) : K :=
  r.factor i * computeFirstOrderSum (r.c i) dummyIval (r.p2 i) (r.p1 i)

/-- `_coefs(0,0,slot,k+1)` (Reaction.tpp:2289-2305). -/
def cK (q : DSlot) (k : Fin d) : K :=
  match q with
  | .r => r.cA k / r.dc k
  | .p1 => r.factor k * computeFirstOrderSum (r.p1 k) (r.p2 k) (r.c k) dummyIval / r.dp1 k
  | .p2 => r.factor k * computeFirstOrderSum (r.p2 k) (r.p1 k) (r.c k) dummyIval / r.dp2 k

/-- `_coefs(i+1,0,slot,k+1)` (Reaction.tpp:2309-2342). -/
def cIK (i : Fin d) (q : DSlot) (k : Fin d) : K :=
  match q with
  | .r =>
    if k = i then
      r.factor i * computeSecondOrderSum (r.c i) dummyIval (r.p2 i) (r.p1 i) / r.dc k
    else r.cA i * r.cA k / (r.nOverlap * r.dc k)
  | .p1 =>
    if k = i then
      r.factor i * computeSecondOrderOffsetSum (r.c i) dummyIval (r.p1 i) (r.p2 i) / r.dp1 k
    else r.cA i * r.cK .p1 k / r.nOverlap
  | .p2 =>
    if k = i then
      r.factor i * computeSecondOrderOffsetSum (r.c i) dummyIval (r.p2 i) (r.p1 i) / r.dp2 k
    else r.cA i * r.cK .p2 k / r.nOverlap

/-- `_coefs(α, 0, slot, γ)` after `computeCoefficients`. Order zero equations only use slot 0. -/
def coefs (α : Option (Fin d)) (q : DSlot) (γ : Option (Fin d)) : K :=
  match α, γ with
  | none, none => if q = .r then r.nOverlap else 0
  | some i, none => if q = .r then r.cA i else 0
  | none, some k => r.cK q k
  | some i, some k => r.cIK i q k

end DissIn

/-- A constructed dissociation reaction. -/
structure DissRxn (d : ℕ) (K : Type*) where
  /-- `_reactant`, `_products[0]`, `_products[1]` -/
  id : DSlot → ℕ
  /-- `_reactantMomentIds`, `_productMomentIds` -/
  mom : DSlot → Fin d → Option ℕ
  /-- `_reactantVolume`, `_productVolumes` -/
  vol : DSlot → K
  /-- `_rate(gridIndex)` -/
  rate : K
  /-- `_coefs(α, 0, slot, γ)` -/
  coefs : Option (Fin d) → DSlot → Option (Fin d) → K

namespace DissRxn

variable {d : ℕ} {K : Type*} [Field K] (r : DissRxn d K)

/-- Degree of freedom of an equation or unknown. -/
def dofOf (q : DSlot) : Option (Fin d) → Option ℕ
  | none => some (r.id q)
  | some k => r.mom q k

/-- `cR`, `cmR` (Reaction.tpp:2486-2496). -/
def cm (c : ℕ → K) (i : Fin d) : K :=
  match r.mom .r i with
  | none => 0
  | some m => c m

/-- The accumulated `f` (Reaction.tpp:2499-2503, 2511-2516, ...). -/
def fluxOf (c : ℕ → K) (q : DSlot) (γ : Option (Fin d)) : K :=
  (r.coefs none q γ * c (r.id .r) + ∑ i, r.coefs (some i) q γ * r.cm c i) * r.rate

/-- `computeFlux` -/
def computeFlux (c : ℕ → K) : List (ℕ × K) :=
  let f := r.fluxOf c .r none
  [(r.id .r, -(f / r.vol .r)), (r.id .p1, f / r.vol .p1), (r.id .p2, f / r.vol .p2)] ++
  (List.finRange d).flatMap fun k =>
    emit (r.mom .r k) (-(r.fluxOf c .r (some k) / r.vol .r)) ++
    emit (r.mom .p1 k) (r.fluxOf c .p1 (some k) / r.vol .p1) ++
    emit (r.mom .p2 k) (r.fluxOf c .p2 (some k) / r.vol .p2)

/-- One row of `computePartialDerivatives`: all unknowns of the reactant. -/
def pdRow (q slot : DSlot) (γ : Option (Fin d)) (sgn : K → K) : List ((ℕ × ℕ) × K) :=
  let df := r.rate / r.vol q
  emit (ProdRxn.entry (r.dofOf q γ) (r.dofOf .r none)) (sgn (df * r.coefs none slot γ)) ++
  (List.finRange d).flatMap fun i =>
    emit (ProdRxn.entry (r.dofOf q γ) (r.dofOf .r (some i))) (sgn (df * r.coefs (some i) slot γ))

/-- `computePartialDerivatives` -/
def computePartials : List ((ℕ × ℕ) × K) :=
  r.pdRow .r .r none (fun x => -x) ++ r.pdRow .p1 .r none (fun x => x) ++
  r.pdRow .p2 .r none (fun x => x) ++
  (List.finRange d).flatMap fun k =>
    r.pdRow .r .r (some k) (fun x => -x) ++ r.pdRow .p1 .p1 (some k) (fun x => x) ++
    r.pdRow .p2 .p2 (some k) (fun x => x)

/-- An update whose target entry was never mapped (`_connEntries` element left unset) is recorded as `none`. -/
def rawEmitIf (p : Bool) (e : Option (ℕ × ℕ)) (v : K) : List (Option (ℕ × ℕ) × K) :=
  if p then [(e, v)] else []

/-- `computeReducedPartialDerivatives`. The guard of the second product's moment equations tests the moment id of the *first*
product (Reaction.tpp:2685, ReSolutionReaction.tpp:542). -/
def computeReducedPartials : List (Option (ℕ × ℕ) × K) :=
  rawEmitIf true (ProdRxn.entry (r.dofOf .r none) (r.dofOf .r none))
    (-(r.rate / r.vol .r * r.coefs none .r none)) ++
  rawEmitIf (decide (r.id .p1 = r.id .r)) (ProdRxn.entry (r.dofOf .p1 none) (r.dofOf .r none))
    (r.rate / r.vol .p1 * r.coefs none .r none) ++
  rawEmitIf (decide (r.id .p2 = r.id .r)) (ProdRxn.entry (r.dofOf .p2 none) (r.dofOf .r none))
    (r.rate / r.vol .p2 * r.coefs none .r none) ++
  (List.finRange d).flatMap fun k =>
    (if (r.mom .r k).isSome then
      (List.finRange d).flatMap fun i =>
        rawEmitIf (decide (k = i)) (ProdRxn.entry (r.mom .r k) (r.mom .r i))
          (-(r.rate / r.vol .r * r.coefs (some i) .r (some k)))
      else []) ++
    (if (r.mom .p1 k).isSome then
      (List.finRange d).flatMap fun i =>
        rawEmitIf (decide (r.mom .p1 k = r.mom .r i)) (ProdRxn.entry (r.mom .p1 k) (r.mom .r i))
          (r.rate / r.vol .p1 * r.coefs (some i) .p1 (some k))
      else []) ++
    (if (r.mom .p1 k).isSome then
      (List.finRange d).flatMap fun i =>
        rawEmitIf (decide (r.mom .p2 k = r.mom .r i)) (ProdRxn.entry (r.mom .p2 k) (r.mom .r i))
          (r.rate / r.vol .p2 * r.coefs (some i) .p2 (some k))
      else [])

/-- `computeConnectivity` -/
def computeConnectivity : List (ℕ × ℕ) :=
  ProdRxn.linkBlock (r.dofOf .r) (r.dofOf .r) ++ ProdRxn.linkBlock (r.dofOf .p1) (r.dofOf .r) ++
  ProdRxn.linkBlock (r.dofOf .p2) (r.dofOf .r)

/-- Product part of `computeReducedConnectivity` (Reaction.tpp:2451-2476). -/
def redLinks (q : DSlot) : List (ℕ × ℕ) :=
  (if r.id q = r.id .r then [(r.id q, r.id .r)] else []) ++
  (List.finRange d).flatMap fun i => (List.finRange d).flatMap fun j =>
    if (r.mom q i).isSome && decide (r.mom q i = r.mom .r j) then
      ProdRxn.link (r.mom q i) (r.mom .r j) else []

/-- `computeReducedConnectivity` -/
def computeReducedConnectivity : List (ℕ × ℕ) :=
  [(r.id .r, r.id .r)] ++
  ((List.finRange d).flatMap fun i => ProdRxn.link (r.mom .r i) (r.mom .r i)) ++
  r.redLinks .p1 ++ r.redLinks .p2

end DissRxn

end Xolotl.Network
