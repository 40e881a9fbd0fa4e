import Verif.Network.Dissociation
import Verif.Network.Layout
import Verif.Network.ProductionProps

/-!
# C05, C08, C09, C10 for dissociation and re-solution reactions
-/

set_option linter.unusedSectionVars false

namespace Xolotl.Network

open Xolotl.Util

variable {d : ℕ} {K : Type*} [Field K] [LinearOrder K] [IsStrictOrderedRing K]

/-! ### Coefficients -/

namespace DissIn

variable (r : DissIn d K)

/-- The dissociation read as `reactant + (nothing) → first product + second product`: used to state what the
coefficients mean through the composition quadruples of `ProdIn`. -/
def toProd : ProdIn d K where
  c1 := r.c
  c2 := fun _ => dummyIval
  p1 := r.p1
  p2 := r.p2
  d1 := r.dc
  d2 := fun _ => 1
  dp1 := r.dp1
  dp2 := r.dp2
  prod1 := some 0
  prod2 := some 1

/-- Some composition of the reactant splits into the two products, on every axis. -/
def Splits : Prop := ∀ i, (quads (r.c i) dummyIval (r.p1 i) (r.p2 i)).Nonempty

/-- Slot of the quadruples. -/
def slot : DSlot → Slot
  | .r => .r1
  | .p1 => .p1
  | .p2 => .p2

theorem toProd_wf (h : r.Splits) : r.toProd.WF :=
  ⟨by simp [toProd, ProdIn.noProd], h, by simp [toProd]⟩

theorem width_eq (i : Fin d) : r.width i = r.toProd.width i := by
  simp only [width, ProdIn.width, toProd, ProdIn.noProd, overlapWidth_eq_card]
  have h := sum_quads_swapRP (K := K) (r.p1 i) (r.p2 i) (r.c i) dummyIval (fun _ => 1)
  simpa using h

theorem nOverlap_eq : r.nOverlap = r.toProd.nOverlap := by
  simp [nOverlap, ProdIn.nOverlap, ProdIn.noProd, toProd, width_eq]

theorem factor_eq (i : Fin d) : r.factor i = r.toProd.factor i := by
  simp only [factor, ProdIn.factor, nOverlap_eq, width_eq]

theorem firstOrder_swapP (a b c e : Ival) :
    (computeFirstOrderSum a b c e : K) = computeFirstOrderSum a b e c := by
  rw [computeFirstOrderSum_eq, computeFirstOrderSum_eq, sum_quads_swapP]

theorem secondOrder_swapP (a b c e : Ival) :
    (computeSecondOrderSum a b c e : K) = computeSecondOrderSum a b e c := by
  rw [computeSecondOrderSum_eq, computeSecondOrderSum_eq, sum_quads_swapP]

theorem cA_eq (i : Fin d) : r.cA i = r.toProd.cA i := by
  simp only [cA, ProdIn.cA, factor_eq]
  rw [firstOrder_swapP]; rfl

/-- **C05 (coefficients)** Every coefficient of a dissociation is the sum, over all the ways a composition of the
reactant splits into compositions of the two products, of the deviation of the reactant times the normalised deviation
of the updated cluster.  Nothing is lost here, whatever the number of axes. -/
theorem diss_coefs_eq (h : r.Splits) (α : Option (Fin d)) (q : DSlot) (γ : Option (Fin d))
    (hq : γ = none → q = .r) :
    r.coefs α q γ = r.toProd.coefSpec α none (slot q) γ := by
  have hw := r.toProd_wf h
  rw [ProdIn.coefSpec_eq]
  have hP : ∀ q k, q ≠ .r → r.toProd.M none none (slot q) (some k) = r.factor k *
      (match q with
        | .r => 0
        | .p1 => computeFirstOrderSum (r.p1 k) (r.p2 k) (r.c k) dummyIval
        | .p2 => computeFirstOrderSum (r.p2 k) (r.p1 k) (r.c k) dummyIval) := by
    intro q k hq
    cases q with
    | r => exact absurd rfl hq
    | p1 =>
      rw [ProdIn.M_P hw _ (by rfl), factor_eq]
      simp only [slot, ProdIn.thisRR, ProdIn.otherRR]
      rw [firstOrder_swapP]; rfl
    | p2 =>
      rw [ProdIn.M_P hw _ (by rfl), factor_eq]
      simp only [slot, ProdIn.thisRR, ProdIn.otherRR, toProd]
      rw [firstOrder_swapP]; rfl
  match α, γ with
  | none, none =>
    obtain rfl := hq rfl
    simp [coefs, slot, ProdIn.dispO, ProdIn.M_zero hw, nOverlap_eq]
  | some i, none =>
    obtain rfl := hq rfl
    simp [coefs, slot, ProdIn.dispO, ProdIn.M_A hw, cA_eq]
  | none, some k =>
    simp only [coefs]
    cases q with
    | r => simp only [cK, slot, ProdIn.M_r1 hw, cA_eq]; rfl
    | p1 => rw [hP .p1 k (by simp)]; rfl
    | p2 => rw [hP .p2 k (by simp)]; rfl
  | some i, some k =>
    simp only [coefs]
    by_cases hk : k = i
    · subst hk
      cases q with
      | r =>
        simp only [cIK, slot, if_true, ProdIn.M_AA_diag hw, factor_eq]
        rw [secondOrder_swapP]; rfl
      | p1 =>
        simp only [cIK, if_true, factor_eq]
        rw [ProdIn.M_AP_diag hw _ (by rfl)]; rfl
      | p2 =>
        simp only [cIK, if_true, factor_eq]
        rw [ProdIn.M_AP_diag hw _ (by rfl)]
        simp only [slot, ProdIn.thisRR, ProdIn.otherRR, toProd]
        rfl
    · rw [ProdIn.M_indep_A hw _ (by simp) (fun e => hk (Option.some.inj e))]
      cases q with
      | r =>
        simp only [cIK, if_neg hk, slot, ProdIn.M_r1 hw, cA_eq, nOverlap_eq]
        rw [div_div]; rfl
      | p1 =>
        simp only [cIK, if_neg hk, cK]
        rw [hP .p1 k (by simp), cA_eq, nOverlap_eq]
        simp only [ProdIn.dispO, ProdIn.disp, toProd, slot]
        ring
      | p2 =>
        simp only [cIK, if_neg hk, cK]
        rw [hP .p2 k (by simp), cA_eq, nOverlap_eq]
        simp only [ProdIn.dispO, ProdIn.disp, toProd, slot]
        ring

end DissIn

/-! ### Flux -/

namespace DissRxn

section
variable {K : Type*} [Field K] (r : DissRxn d K)

/-- Value of an unknown of the reactant. -/
def u (c : ℕ → K) (α : Option (Fin d)) : K := (r.dofOf .r α).elim 0 c

theorem diss_fluxOf_eq (c : ℕ → K) (q : DSlot) (γ : Option (Fin d)) :
    r.fluxOf c q γ = r.rate * ∑ α, r.coefs α q γ * r.u c α := by
  have h : ∀ i, r.cm c i = r.u c (some i) := fun i => by
    simp only [cm, u, dofOf]; cases r.mom .r i <;> rfl
  simp only [fluxOf, Fintype.sum_option, h]
  rw [mul_comm]; rfl

/-- Slot of `_coefs` used for an equation: order zero equations use slot 0. -/
def cslot (q : DSlot) (γ : Option (Fin d)) : DSlot := if γ = none then .r else q

/-- Contribution of the equations of one participant to `fluxes[n]`. -/
def eqTerm (c : ℕ → K) (q : DSlot) (s : K) (n : ℕ) : K :=
  ∑ γ, if r.dofOf q γ = some n then s * (r.fluxOf c (cslot q γ) γ / r.vol q) else 0

/-- Contribution of the equations of one participant to the Jacobian entry `(row, col)`. -/
def jacTerm (q : DSlot) (s : K) (row col : ℕ) : K :=
  ∑ γ, if r.dofOf q γ = some row then
    s * (∑ α, if r.dofOf .r α = some col then r.rate / r.vol q * r.coefs α (cslot q γ) γ else 0)
    else 0

theorem diss_computeFlux_net (c : ℕ → K) (n : ℕ) : netOf (r.computeFlux c) n =
    r.eqTerm c .r (-1) n + r.eqTerm c .p1 1 n + r.eqTerm c .p2 1 n := by
  simp only [computeFlux, netOf_append, netOf_cons, netOf_nil, netOf_finRange, netOf_emit, eqTerm,
    Fintype.sum_option, dofOf, cslot, Finset.sum_add_distrib, if_true, Option.some.injEq,
    reduceCtorEq, if_false, neg_mul, one_mul]
  ring

theorem pdRow_net (q slot : DSlot) (γ : Option (Fin d)) (s : K) (row col : ℕ) :
    netOf (r.pdRow q slot γ (fun x => s * x)) (row, col) =
      if r.dofOf q γ = some row then
        s * (∑ α, if r.dofOf .r α = some col then r.rate / r.vol q * r.coefs α slot γ else 0)
      else 0 := by
  simp only [pdRow, netOf_append, netOf_emit, netOf_finRange, ProdRxn.entry_eq]
  by_cases h : r.dofOf q γ = some row
  · simp only [h, true_and, if_true, Fintype.sum_option, mul_add, Finset.mul_sum, mul_ite, mul_zero]
  · simp [h]

theorem diss_computePartials_net (row col : ℕ) : netOf r.computePartials (row, col) =
    r.jacTerm .r (-1) row col + r.jacTerm .p1 1 row col + r.jacTerm .p2 1 row col := by
  have hm : (fun x : K => -x) = fun x => -1 * x := by funext x; ring
  have hp : (fun x : K => x) = fun x => 1 * x := by funext x; ring
  rw [computePartials, hm, hp]
  simp only [netOf_append, netOf_finRange, pdRow_net, jacTerm, Fintype.sum_option (α := Fin d),
    cslot, if_true, Finset.sum_add_distrib, reduceCtorEq, if_false]
  ring

end

/-- **C08 (dissociation, re-solution)** The Jacobian is the exact derivative of the flux, for every state and every coincidence of
ids. -/
theorem dissociation_jacobian (r : DissRxn d ℝ) (c : ℕ → ℝ) (row col : ℕ) :
    HasDerivAt (fun x => netOf (r.computeFlux (Function.update c col x)) row)
      (netOf r.computePartials (row, col)) (c col) := by
  have hu : ∀ α, HasDerivAt (fun x => r.u (Function.update c col x) α)
      (if r.dofOf .r α = some col then 1 else 0) (c col) := by
    intro α
    unfold u
    cases h : r.dofOf .r α with
    | none => simpa using hasDerivAt_const (c col) (0 : ℝ)
    | some m =>
      by_cases hm : m = col
      · subst hm; simpa using hasDerivAt_id' (c m)
      · simpa [hm, Function.update_of_ne hm] using hasDerivAt_const (c col) (c m)
  have hf : ∀ q γ, HasDerivAt (fun x => r.fluxOf (Function.update c col x) q γ)
      (r.rate * ∑ α, r.coefs α q γ * (if r.dofOf .r α = some col then 1 else 0)) (c col) := by
    intro q γ
    simp only [diss_fluxOf_eq]
    exact (HasDerivAt.fun_sum (u := Finset.univ) fun α _ =>
      (hu α).const_mul (r.coefs α q γ)).const_mul r.rate
  have ht : ∀ q s, HasDerivAt (fun x => r.eqTerm (Function.update c col x) q s row)
      (r.jacTerm q s row col) (c col) := by
    intro q s
    unfold eqTerm jacTerm
    refine HasDerivAt.fun_sum fun γ _ => ?_
    split_ifs with h
    · refine (((hf _ γ).div_const _).const_mul s).congr_deriv ?_
      rw [Finset.mul_sum, Finset.sum_div]
      congr 1
      refine Finset.sum_congr rfl fun α _ => ?_
      split_ifs <;> ring
    · exact hasDerivAt_const _ _
  simp only [diss_computeFlux_net, diss_computePartials_net]
  exact ((ht _ _).add (ht _ _)).add (ht _ _)

section
variable {K : Type*} [Field K] (r : DissRxn d K)

/-- **C09 (dissociation, re-solution)** Every entry written is in the declared sparsity pattern. -/
theorem dissociation_connectivity_covers :
    ∀ u ∈ r.computePartials, u.1 ∈ r.computeConnectivity := by
  intro u hu
  have hrow : ∀ q s γ f, u ∈ r.pdRow q s γ f → u.1 ∈ r.computeConnectivity := by
    intro q s γ f h
    simp only [pdRow, List.mem_append, List.mem_flatMap] at h
    have : ∃ α, ProdRxn.entry (r.dofOf q γ) (r.dofOf .r α) = some u.1 := by
      rcases h with h | ⟨i, -, h⟩
      · exact ⟨none, ProdRxn.mem_emit h⟩
      · exact ⟨some i, ProdRxn.mem_emit h⟩
    obtain ⟨α, h⟩ := this
    have := ProdRxn.mem_linkBlock h
    unfold computeConnectivity
    cases q <;> simp [this]
  simp only [computePartials, List.mem_append, List.mem_flatMap] at hu
  rcases hu with ((h | h) | h) | ⟨k, -, (h | h) | h⟩ <;> exact hrow _ _ _ _ h

/-- Distinct axes of the reactant have distinct moment ids. -/
def DMomInj : Prop := ∀ k i : Fin d, ∀ m, r.mom .r k = some m → r.mom .r i = some m → k = i

/-- Moment unknowns are different from the cluster unknowns of the participants. -/
def DMomDisj : Prop := ∀ q q', ∀ k : Fin d, ∀ m, r.mom q k = some m → r.id q' ≠ m

/-- The moments of the second product that belong to the reactant are on axes on which the first product is grouped as well.
The code needs this because it tests the first product's moment ids before updating the second product. -/
def GuardOK : Prop := ∀ k m, r.mom .p2 k = some m → (∃ i, r.mom .r i = some m) →
  (r.mom .p1 k).isSome

theorem rawEmitIf_net (p : Bool) (e : Option (ℕ × ℕ)) (v : K) (n : ℕ × ℕ) :
    netOf (rawEmitIf p e v) (some n) = if p = true ∧ e = some n then v else 0 := by
  cases p <;> simp [rawEmitIf, netOf]

/-- **C10 (dissociation, re-solution)**, under `GuardOK`: the reduced Jacobian is the diagonal of the full one. -/
theorem dissociation_reduced_eq_diagonal_partial (hi : r.DMomInj) (hd : r.DMomDisj)
    (hg : r.GuardOK) (n : ℕ) :
    netOf r.computeReducedPartials (some (n, n)) = netOf r.computePartials (n, n) := by
  have h0 : ∀ q slot (f : K → K), netOf (r.pdRow q slot none f) (n, n) =
      if r.id q = n ∧ r.id .r = n then f (r.rate / r.vol q * r.coefs none slot none) else 0 := by
    intro q slot f
    simp only [pdRow, netOf_append, netOf_emit, netOf_finRange, ProdRxn.entry_eq, dofOf,
      Option.some.injEq]
    rw [Finset.sum_eq_zero, add_zero]
    intro i _
    exact if_neg fun h => hd .r q i n h.2 h.1
  have h1 : ∀ q slot k (f : K → K), netOf (r.pdRow q slot (some k) f) (n, n) =
      ∑ i, if r.mom q k = some n ∧ r.mom .r i = some n then
        f (r.rate / r.vol q * r.coefs (some i) slot (some k)) else 0 := by
    intro q slot k f
    simp only [pdRow, netOf_append, netOf_emit, netOf_finRange, ProdRxn.entry_eq, dofOf,
      Option.some.injEq]
    rw [if_neg fun h => hd q .r k n h.1 h.2, zero_add]
  have hite : ∀ (b : Bool) (l : List (Option (ℕ × ℕ) × K)),
      netOf (if b = true then l else []) (some (n, n)) = if b = true then
        netOf l (some (n, n)) else 0 := by
    intro b l; cases b <;> simp [netOf_nil]
  simp only [computeReducedPartials, computePartials, netOf_append, netOf_finRange, h0, h1,
    rawEmitIf_net, hite, ProdRxn.entry_eq, dofOf, decide_eq_true_eq, Option.some.injEq, true_and]
  have e1 : ∀ k, (if (r.mom .r k).isSome = true then
      ∑ i, if k = i ∧ r.mom .r k = some n ∧ r.mom .r i = some n then
        -(r.rate / r.vol .r * r.coefs (some i) .r (some k)) else 0 else 0) =
      ∑ i, if r.mom .r k = some n ∧ r.mom .r i = some n then
        -(r.rate / r.vol .r * r.coefs (some i) .r (some k)) else 0 := by
    intro k
    by_cases hk : r.mom .r k = some n
    · rw [if_pos (by simp [hk])]
      refine Finset.sum_congr rfl fun i _ => if_congr ?_ rfl rfl
      exact ⟨fun h => h.2, fun h => ⟨hi k i n h.1 h.2, h⟩⟩
    · simp [hk]
  have e2 : ∀ q k (g : Bool) (v : Fin d → K),
      (r.mom q k = some n → (∃ i, r.mom .r i = some n) → g = true) →
      (if g = true then ∑ i, if r.mom q k = r.mom .r i ∧ r.mom q k = some n ∧
        r.mom .r i = some n then v i else 0 else 0) =
      ∑ i, if r.mom q k = some n ∧ r.mom .r i = some n then v i else 0 := by
    intro q k g v hg'
    by_cases hk : r.mom q k = some n ∧ ∃ i, r.mom .r i = some n
    · rw [if_pos (hg' hk.1 hk.2)]
      refine Finset.sum_congr rfl fun i _ => if_congr ?_ rfl rfl
      exact ⟨fun h => h.2, fun h => ⟨h.1.trans h.2.symm, h⟩⟩
    · rw [Finset.sum_eq_zero (s := Finset.univ)
        (f := fun i => if r.mom q k = some n ∧ r.mom .r i = some n then v i else 0)
        (fun i _ => if_neg fun h => hk ⟨h.1, i, h.2⟩)]
      rw [Finset.sum_eq_zero (fun i _ => if_neg fun h => hk ⟨h.2.1, i, h.2.2⟩)]
      simp
  have z : ∀ q, (r.id q = r.id .r ∧ r.id q = n ∧ r.id .r = n) ↔ (r.id q = n ∧ r.id .r = n) :=
    fun q => ⟨fun h => h.2, fun h => ⟨h.1.trans h.2.symm, h⟩⟩
  have e3 : ∀ k, r.mom .p1 k = some n → (∃ i, r.mom .r i = some n) →
      (r.mom .p1 k).isSome = true := fun k h _ => by rw [h]; rfl
  simp only [e1, z, fun k v => e2 .p1 k _ v (e3 k),
    fun k v => e2 .p2 k _ v (fun h h' => hg k _ h h')]

/-- Where the unguarded code would write through an unset `_connEntries` element. -/
theorem dissociation_reduced_mapped (hu : ∀ k, (r.mom .p1 k).isSome → r.mom .p2 k = none →
      ∀ i, r.mom .r i ≠ none) :
    ∀ u ∈ r.computeReducedPartials, ∃ n, u.1 = some (n, n) := by
  intro u h
  have hraw : ∀ (p : Bool) e (v : K), u ∈ rawEmitIf p e v → p = true ∧ u.1 = e := by
    intro p e v h
    cases p with
    | false => simp [rawEmitIf] at h
    | true => simp [rawEmitIf] at h; simp [h]
  have hent : ∀ x : Option ℕ, x.isSome → ∃ n, ProdRxn.entry x x = some (n, n) := by
    intro x hx
    obtain ⟨m, rfl⟩ := Option.isSome_iff_exists.mp hx
    exact ⟨m, rfl⟩
  simp only [computeReducedPartials, List.mem_append, List.mem_flatMap] at h
  rcases h with ((h | h) | h) | ⟨k, -, (h | h) | h⟩
  · obtain ⟨-, h⟩ := hraw _ _ _ h
    rw [h]; exact hent _ rfl
  · obtain ⟨g, h⟩ := hraw _ _ _ h
    rw [h, dofOf, dofOf, of_decide_eq_true g]; exact hent _ rfl
  · obtain ⟨g, h⟩ := hraw _ _ _ h
    rw [h, dofOf, dofOf, of_decide_eq_true g]; exact hent _ rfl
  · split_ifs at h with hs
    · obtain ⟨i, -, h⟩ := List.mem_flatMap.mp h
      obtain ⟨g, h⟩ := hraw _ _ _ h
      rw [h, ← of_decide_eq_true g]; exact hent _ hs
    · simp at h
  · split_ifs at h with hs
    · obtain ⟨i, -, h⟩ := List.mem_flatMap.mp h
      obtain ⟨g, h⟩ := hraw _ _ _ h
      rw [h, ← of_decide_eq_true g]; exact hent _ hs
    · simp at h
  · split_ifs at h with hs
    · obtain ⟨i, -, h⟩ := List.mem_flatMap.mp h
      obtain ⟨g, h⟩ := hraw _ _ _ h
      rw [h, ← of_decide_eq_true g]
      refine hent _ ?_
      rcases hp : r.mom .p2 k with _ | m
      · exact absurd (hp ▸ (of_decide_eq_true g).symm) (hu k hs hp i)
      · rfl
    · simp at h

/-- **C09/C10** The mapped entries written by the reduced Jacobian are in the reduced sparsity pattern. -/
theorem dissociation_reduced_covers :
    ∀ u ∈ r.computeReducedPartials, ∀ e, u.1 = some e → e ∈ r.computeReducedConnectivity := by
  intro u h e he
  have hraw : ∀ (p : Bool) e' (v : K), u ∈ rawEmitIf p e' v → p = true ∧ e' = some e := by
    intro p e' v h
    cases p with
    | false => simp [rawEmitIf] at h
    | true =>
      simp [rawEmitIf] at h
      rw [h] at he; exact ⟨rfl, he⟩
  have hred : ∀ q k i, r.mom q k = r.mom .r i →
      ProdRxn.entry (r.mom q k) (r.mom .r i) = some e → e ∈ r.redLinks q := by
    intro q k i h1 h2
    unfold redLinks
    refine List.mem_append_right _ (List.mem_flatMap.mpr ⟨k, List.mem_finRange k,
      List.mem_flatMap.mpr ⟨i, List.mem_finRange i, ?_⟩⟩)
    have hs : (r.mom q k).isSome := by
      obtain ⟨e1, e2⟩ := e
      rw [((ProdRxn.entry_eq _ _ _ _).mp h2).1]; rfl
    rw [if_pos (by rw [hs, decide_eq_true h1]; rfl)]
    simp [ProdRxn.link, h2]
  simp only [computeReducedPartials, List.mem_append, List.mem_flatMap] at h
  unfold computeReducedConnectivity
  rcases h with ((h | h) | h) | ⟨k, -, (h | h) | h⟩
  · obtain ⟨-, h⟩ := hraw _ _ _ h
    obtain ⟨a, b⟩ := e
    obtain ⟨h1, h2⟩ := (ProdRxn.entry_eq _ _ _ _).mp h
    simp only [dofOf, Option.some.injEq] at h1 h2
    simp [← h1, ← h2]
  · obtain ⟨g, h⟩ := hraw _ _ _ h
    obtain ⟨a, b⟩ := e
    obtain ⟨h1, h2⟩ := (ProdRxn.entry_eq _ _ _ _).mp h
    simp only [dofOf, Option.some.injEq] at h1 h2
    have g := of_decide_eq_true g
    simp [redLinks, ← h1, ← h2, g]
  · obtain ⟨g, h⟩ := hraw _ _ _ h
    obtain ⟨a, b⟩ := e
    obtain ⟨h1, h2⟩ := (ProdRxn.entry_eq _ _ _ _).mp h
    simp only [dofOf, Option.some.injEq] at h1 h2
    have g := of_decide_eq_true g
    simp [redLinks, ← h1, ← h2, g]
  · split_ifs at h with hs
    · obtain ⟨i, -, h⟩ := List.mem_flatMap.mp h
      obtain ⟨g, h⟩ := hraw _ _ _ h
      obtain rfl := of_decide_eq_true g
      simp only [List.mem_append, List.mem_flatMap]
      exact Or.inl (Or.inl (Or.inr ⟨k, List.mem_finRange k, by simp [ProdRxn.link, h]⟩))
    · simp at h
  · split_ifs at h with hs
    · obtain ⟨i, -, h⟩ := List.mem_flatMap.mp h
      obtain ⟨g, h⟩ := hraw _ _ _ h
      exact List.mem_append_left _ (List.mem_append_right _
        (hred .p1 k i (of_decide_eq_true g) h))
    · simp at h
  · split_ifs at h with hs
    · obtain ⟨i, -, h⟩ := List.mem_flatMap.mp h
      obtain ⟨g, h⟩ := hraw _ _ _ h
      exact List.mem_append_right _ (hred .p2 k i (of_decide_eq_true g) h)
    · simp at h

end

/-- Single first product, second product in the reactant's own group: `X_[2,4) → X_1 + X_[2,4)`. -/
def witMiss : DissRxn 1 ℚ where
  id := fun q => match q with | .r => 0 | .p1 => 1 | .p2 => 0
  mom := fun q _ => match q with | .r => some 2 | .p1 => none | .p2 => some 2
  vol := fun q => match q with | .p1 => 1 | _ => 2
  rate := 1
  coefs := fun _ q _ => match q with | .r => 1 | .p1 => 1 | .p2 => 3

/-- **C10 fails for dissociation and re-solution**: because the guard tests the first product, the diagonal entry of the first
moment of the second product is missing. -/
theorem dissociation_reduced_misses_diagonal :
    ¬ ∀ (r : DissRxn 1 ℚ) (n : ℕ), r.DMomInj → r.DMomDisj →
      netOf r.computeReducedPartials (some (n, n)) = netOf r.computePartials (n, n) := by
  intro h
  have h1 := h witMiss 2 (by intro k i m _ _; exact Subsingleton.elim _ _) (by
    intro q q' k m hm
    cases q <;> cases q' <;> simp [witMiss] at hm <;> simp [witMiss, ← hm])
  revert h1
  decide +kernel

/-- Two axes; reactant and first product grouped on axis 0, second product a single cluster. -/
def witUnset : DissRxn 2 ℚ where
  id := fun q => match q with | .r => 0 | .p1 => 1 | .p2 => 2
  mom := fun q k => match q with
    | .r => if k = 0 then some 3 else none
    | .p1 => if k = 0 then some 4 else none
    | .p2 => none
  vol := fun _ => 1
  rate := 1
  coefs := fun _ _ _ => 1

/-- **C10 fails, second way**: with two axes the same guard makes the code write through a `_connEntries` element that
was never set. -/
theorem dissociation_reduced_unset_entry :
    ∃ u ∈ witUnset.computeReducedPartials, u.1 = none := by decide +kernel

/-- Non-vacuity of the positive statements: a grouped dissociation with a non-zero diagonal entry. -/
example : (∀ k m, witMiss.mom .p1 k = some m → False) ∧
    netOf witMiss.computePartials (2, 2) = 1 := by decide +kernel

end DissRxn

end Xolotl.Network
