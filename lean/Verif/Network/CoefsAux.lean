import Verif.Network.CoefsLemmas

/-!
# Helper lemmas: value of every coefficient entry
-/

set_option linter.unusedSectionVars false

namespace Xolotl.Network

open Xolotl.Util

namespace ProdIn

variable {d : ℕ} {K : Type*} [Field K] [LinearOrder K] [IsStrictOrderedRing K]

/-- Conditions under which `computeCoefficients` is meaningful: without product there is a single quadruple on
every axis (the code does not count in that case), every axis
admits a composition quadruple (the `assert(nOverlap > 0)`, Reaction.tpp:123), and the two product slots
carry the same data when they designate the same cluster. -/
structure WF (r : ProdIn d K) : Prop where
  prod : r.noProd = true → ∀ i, (r.axis i).card = 1
  overlap : ∀ i, (r.axis i).Nonempty
  same : r.prod1 = r.prod2 → r.p1 = r.p2 ∧ r.dp1 = r.dp2

variable {r : ProdIn d K} (h : r.WF)

include h in
theorem width_eq (i : Fin d) : r.width i = ((r.axis i).card : K) := by
  by_cases hn : r.noProd = true
  · simp [width, hn, h.prod hn i]
  · simp [width, hn, overlapWidth_eq_card, axis]

include h in
theorem width_ne (i : Fin d) : r.width i ≠ 0 := by
  rw [width_eq h]
  exact_mod_cast (Finset.card_pos.mpr (h.overlap i)).ne'

include h in
/-- **C02** `nOverlap` is the number of composition quadruples (all axes at once). -/
theorem nOverlap_eq_card : r.nOverlap = (r.allQuads.card : K) := by
  rw [card_allQuads]
  by_cases hn : r.noProd = true
  · simp [nOverlap, hn, h.prod hn]
  · simp only [nOverlap, hn]
    exact Finset.prod_congr rfl fun i _ => width_eq h i

include h in
theorem nOverlap_ne : r.nOverlap ≠ 0 := by
  rw [nOverlap_eq_card h, card_allQuads]
  exact Finset.prod_ne_zero_iff.mpr fun i _ => by rw [← width_eq h]; exact width_ne h i

include h in
theorem nOverlap_pos : 0 < r.nOverlap := by
  rw [nOverlap_eq_card h]
  have := nOverlap_ne h
  rw [nOverlap_eq_card h] at this
  exact lt_of_le_of_ne (Nat.cast_nonneg _) this.symm

include h in
/-- A single-axis sum, as the code computes it. -/
theorem sum_one (i : Fin d) (u : Quad → K) :
    ∑ x ∈ r.allQuads, u (x i) = r.factor i * ∑ q ∈ r.axis i, u q := by
  have hs := r.sum_split i u (fun _ => 1) (fun _ _ => rfl)
  simp only [mul_one, Finset.sum_const, nsmul_eq_mul] at hs
  rw [← width_eq h, ← nOverlap_eq_card h] at hs
  have := width_ne h i
  unfold factor
  field_simp
  rw [mul_comm, hs, mul_comm]

include h in
/-- Independence of the axes. -/
theorem sum_indep (i : Fin d) (u : Quad → K) (F : (Fin d → Quad) → K)
    (hF : ∀ x q, F (Function.update x i q) = F x) :
    ∑ x ∈ r.allQuads, u (x i) * F x
      = (∑ x ∈ r.allQuads, u (x i)) * (∑ x ∈ r.allQuads, F x) / r.nOverlap := by
  have hs := r.sum_split i u F hF
  rw [← width_eq h] at hs
  have hw := width_ne h i
  have hn := nOverlap_ne h
  rw [sum_one h]
  unfold factor
  field_simp
  rw [mul_comm, hs]

include h in
theorem thisRR_eq (q : Slot) : r.thisRR q = r.reg q := by
  cases q <;> simp only [thisRR, reg]
  split
  · next h' => exact (h.same h'.symm).1
  · rfl

include h in
theorem otherRR_p1 : r.otherRR .p1 = r.p2 := rfl

include h in
theorem otherRR_p2 : r.otherRR .p2 = r.p1 := by
  simp only [otherRR]
  split
  · next h' => exact (h.same h'.symm).1.symm
  · rfl

include h in
theorem thisDisp_eq (q : Slot) : r.thisDisp q = r.disp q := by
  cases q <;> simp only [thisDisp, disp]
  split
  · next h' => exact (h.same h'.symm).2
  · rfl

/-! ### Axis sums seen from each slot -/

theorem axis_sum_A (i : Fin d) :
    (computeFirstOrderSum (r.c1 i) (r.c2 i) (r.p1 i) (r.p2 i) : K)
      = ∑ q ∈ r.axis i, ((Slot.r1.part q : K) - (r.reg .r1 i).mid) :=
  computeFirstOrderSum_eq _ _ _ _

theorem axis_sum_B (i : Fin d) :
    (computeFirstOrderSum (r.c2 i) (r.c1 i) (r.p1 i) (r.p2 i) : K)
      = ∑ q ∈ r.axis i, ((Slot.r2.part q : K) - (r.reg .r2 i).mid) := by
  rw [computeFirstOrderSum_eq, axis, sum_quads_swapR]
  rfl

include h in
theorem axis_sum_P (q : Slot) (hq : q.isProd) (i : Fin d) :
    (computeFirstOrderSum (r.thisRR q i) (r.otherRR q i) (r.c2 i) (r.c1 i) : K)
      = ∑ x ∈ r.axis i, ((q.part x : K) - (r.reg q i).mid) := by
  rw [computeFirstOrderSum_eq, thisRR_eq h]
  cases q with
  | p1 =>
    rw [otherRR_p1 h, axis, sum_quads_swapRP (r.c1 i), sum_quads_swapP (r.p1 i) (r.p2 i) (r.c1 i)]
    rfl
  | p2 =>
    rw [otherRR_p2 h, axis, sum_quads_swapRP (r.c1 i), sum_quads_swapR (r.p1 i),
      sum_quads_swapP (r.p2 i) (r.p1 i) (r.c1 i)]
    rfl
  | r1 => simp [Slot.isProd] at hq
  | r2 => simp [Slot.isProd] at hq

include h in
theorem axis_sum_AP (q : Slot) (hq : q.isProd) (i : Fin d) :
    (computeSecondOrderOffsetSum (r.c1 i) (r.c2 i) (r.thisRR q i) (r.otherRR q i) : K)
      = ∑ x ∈ r.axis i, ((Slot.r1.part x : K) - (r.reg .r1 i).mid) *
          ((q.part x : K) - (r.reg q i).mid) := by
  rw [computeSecondOrderOffsetSum_eq, thisRR_eq h]
  cases q with
  | p1 => rw [otherRR_p1 h]; rfl
  | p2 =>
    rw [otherRR_p2 h, axis, sum_quads_swapP]
    rfl
  | r1 => simp [Slot.isProd] at hq
  | r2 => simp [Slot.isProd] at hq

include h in
theorem axis_sum_BP (q : Slot) (hq : q.isProd) (i : Fin d) :
    (computeSecondOrderOffsetSum (r.c2 i) (r.c1 i) (r.thisRR q i) (r.otherRR q i) : K)
      = ∑ x ∈ r.axis i, ((Slot.r2.part x : K) - (r.reg .r2 i).mid) *
          ((q.part x : K) - (r.reg q i).mid) := by
  rw [computeSecondOrderOffsetSum_eq, thisRR_eq h]
  cases q with
  | p1 => rw [otherRR_p1 h, axis, sum_quads_swapR]; rfl
  | p2 =>
    rw [otherRR_p2 h, axis, sum_quads_swapP, sum_quads_swapR]
    rfl
  | r1 => simp [Slot.isProd] at hq
  | r2 => simp [Slot.isProd] at hq

theorem axis_sum_AB (i : Fin d) :
    (reactantsSecondOrderSum (r.c1 i) (r.c2 i) (r.p1 i) (r.p2 i) : K)
      = ∑ x ∈ r.axis i, ((Slot.r1.part x : K) - (r.reg .r1 i).mid) *
          ((Slot.r2.part x : K) - (r.reg .r2 i).mid) :=
  reactantsSecondOrderSum_eq _ _ _ _

theorem axis_sum_AA (i : Fin d) :
    (computeSecondOrderSum (r.c1 i) (r.c2 i) (r.p1 i) (r.p2 i) : K)
      = ∑ x ∈ r.axis i, ((Slot.r1.part x : K) - (r.reg .r1 i).mid) ^ 2 :=
  computeSecondOrderSum_eq _ _ _ _

theorem axis_sum_BB (i : Fin d) :
    (computeSecondOrderSum (r.c2 i) (r.c1 i) (r.p1 i) (r.p2 i) : K)
      = ∑ x ∈ r.axis i, ((Slot.r2.part x : K) - (r.reg .r2 i).mid) ^ 2 := by
  rw [computeSecondOrderSum_eq, axis, sum_quads_swapR]; rfl

theorem axis_sum_AAB (i : Fin d) :
    (computeThirdOrderSum (r.c2 i) (r.c1 i) (r.p1 i) (r.p2 i) : K)
      = ∑ x ∈ r.axis i, ((Slot.r1.part x : K) - (r.reg .r1 i).mid) ^ 2 *
          ((Slot.r2.part x : K) - (r.reg .r2 i).mid) := by
  rw [computeThirdOrderSum_eq, axis, sum_quads_swapR]; rfl

theorem axis_sum_ABB (i : Fin d) :
    (computeThirdOrderSum (r.c1 i) (r.c2 i) (r.p1 i) (r.p2 i) : K)
      = ∑ x ∈ r.axis i, ((Slot.r2.part x : K) - (r.reg .r2 i).mid) ^ 2 *
          ((Slot.r1.part x : K) - (r.reg .r1 i).mid) :=
  computeThirdOrderSum_eq _ _ _ _

include h in
theorem axis_sum_ABP (q : Slot) (hq : q.isProd) (i : Fin d) :
    (productThirdOrderSum (r.c1 i) (r.c2 i) (r.thisRR q i) (r.otherRR q i) : K)
      = ∑ x ∈ r.axis i, ((Slot.r1.part x : K) - (r.reg .r1 i).mid) *
          (((Slot.r2.part x : K) - (r.reg .r2 i).mid) * ((q.part x : K) - (r.reg q i).mid)) := by
  rw [productThirdOrderSum_eq, thisRR_eq h]
  cases q with
  | p1 => rw [otherRR_p1 h]; rfl
  | p2 =>
    rw [otherRR_p2 h, axis, sum_quads_swapP]
    rfl
  | r1 => simp [Slot.isProd] at hq
  | r2 => simp [Slot.isProd] at hq

/-! ### The specification sums -/

/-- `∑ dev_α(r1) dev_β(r2) dev_γ(q)` before normalisation. -/
def M (r : ProdIn d K) (α β : Option (Fin d)) (q : Slot) (γ : Option (Fin d)) : K :=
  ∑ x ∈ r.allQuads, r.dev .r1 α x * r.dev .r2 β x * r.dev q γ x

theorem coefSpec_eq (α β : Option (Fin d)) (q : Slot) (γ : Option (Fin d)) :
    r.coefSpec α β q γ = r.M α β q γ / r.dispO q γ := rfl

theorem dev_update_ne (q : Slot) {i : Fin d} {γ : Option (Fin d)} (hγ : γ ≠ some i)
    (x : Fin d → Quad) (y : Quad) : r.dev q γ (Function.update x i y) = r.dev q γ x := by
  cases γ with
  | none => rfl
  | some k =>
    have hk : k ≠ i := fun e => hγ (by rw [e])
    simp [dev, Function.update_of_ne hk]

include h in
theorem M_zero (q : Slot) : r.M none none q none = r.nOverlap := by
  simp [M, dev, nOverlap_eq_card h]

include h in
theorem M_A (i : Fin d) (q : Slot) : r.M (some i) none q none = r.cA i := by
  simp only [M, cA, axis_sum_A, dev, mul_one]
  exact sum_one h i (fun y => (Slot.r1.part y : K) - (r.reg .r1 i).mid)

include h in
theorem M_B (i : Fin d) (q : Slot) : r.M none (some i) q none = r.cB i := by
  simp only [M, cB, axis_sum_B, dev, mul_one, one_mul]
  exact sum_one h i (fun y => (Slot.r2.part y : K) - (r.reg .r2 i).mid)

include h in
theorem M_r1 (k : Fin d) : r.M none none .r1 (some k) = r.cA k := by
  rw [← M_A h k .r1]; simp [M, dev]

include h in
theorem M_r2 (k : Fin d) : r.M none none .r2 (some k) = r.cB k := by
  rw [← M_B h k .r1]; simp [M, dev]

include h in
theorem M_P (q : Slot) (hq : q.isProd) (k : Fin d) :
    r.M none none q (some k) = r.factor k *
      computeFirstOrderSum (r.thisRR q k) (r.otherRR q k) (r.c2 k) (r.c1 k) := by
  simp only [M, axis_sum_P h q hq, dev, one_mul]
  exact sum_one h k (fun y => (q.part y : K) - (r.reg q k).mid)

/-- General factorisation of `M`, first reactant axis different from the others. -/
theorem M_indep_A (h : r.WF) {i : Fin d} {β γ : Option (Fin d)} (q : Slot)
    (hβ : β ≠ some i) (hγ : γ ≠ some i) :
    r.M (some i) β q γ = r.cA i * r.M none β q γ / r.nOverlap := by
  rw [← M_A h i q]
  unfold M
  have key := sum_indep h i (fun y => (Slot.r1.part y : K) - (r.reg .r1 i).mid)
    (fun x => r.dev .r2 β x * r.dev q γ x) (by
      intro x y
      simp only [dev_update_ne _ hβ, dev_update_ne _ hγ])
  calc _ = ∑ x ∈ r.allQuads, ((Slot.r1.part (x i) : K) - (r.reg .r1 i).mid) *
        (r.dev .r2 β x * r.dev q γ x) := by
        refine Finset.sum_congr rfl fun x _ => ?_
        simp only [dev]; ring
    _ = _ := by
        rw [key]
        simp [dev]

/-- Second reactant axis different from the others. -/
theorem M_indep_B (h : r.WF) {j : Fin d} {α γ : Option (Fin d)} (q : Slot)
    (hα : α ≠ some j) (hγ : γ ≠ some j) :
    r.M α (some j) q γ = r.cB j * r.M α none q γ / r.nOverlap := by
  rw [← M_B h j q]
  unfold M
  have key := sum_indep h j (fun y => (Slot.r2.part y : K) - (r.reg .r2 j).mid)
    (fun x => r.dev .r1 α x * r.dev q γ x) (by
      intro x y
      simp only [dev_update_ne _ hα, dev_update_ne _ hγ])
  calc _ = ∑ x ∈ r.allQuads, ((Slot.r2.part (x j) : K) - (r.reg .r2 j).mid) *
        (r.dev .r1 α x * r.dev q γ x) := by
        refine Finset.sum_congr rfl fun x _ => ?_
        simp only [dev]; ring
    _ = _ := by
        rw [key]
        simp [dev]

/-- Updated participant's axis different from the reactants'. -/
theorem M_indep_q (h : r.WF) {k : Fin d} {α β : Option (Fin d)} (q : Slot)
    (hα : α ≠ some k) (hβ : β ≠ some k) :
    r.M α β q (some k) = r.M none none q (some k) * r.M α β q none / r.nOverlap := by
  unfold M
  have key := sum_indep h k (fun y => (q.part y : K) - (r.reg q k).mid)
    (fun x => r.dev .r1 α x * r.dev .r2 β x) (by
      intro x y
      simp only [dev_update_ne _ hα, dev_update_ne _ hβ])
  calc _ = ∑ x ∈ r.allQuads, ((q.part (x k) : K) - (r.reg q k).mid) *
        (r.dev .r1 α x * r.dev .r2 β x) := by
        refine Finset.sum_congr rfl fun x _ => ?_
        simp only [dev]; ring
    _ = _ := by
        rw [key]
        simp [dev]

include h in
theorem M_AB_diag (i : Fin d) (q : Slot) : r.M (some i) (some i) q none = r.factor i *
    reactantsSecondOrderSum (r.c1 i) (r.c2 i) (r.p1 i) (r.p2 i) := by
  simp only [M, axis_sum_AB, dev, mul_one]
  exact sum_one h i (fun y => ((Slot.r1.part y : K) - (r.reg .r1 i).mid) *
    ((Slot.r2.part y : K) - (r.reg .r2 i).mid))

include h in
theorem M_AA_diag (i : Fin d) : r.M (some i) none .r1 (some i) = r.factor i *
    computeSecondOrderSum (r.c1 i) (r.c2 i) (r.p1 i) (r.p2 i) := by
  simp only [M, axis_sum_AA, dev, mul_one, ← sq]
  exact sum_one h i (fun y => ((Slot.r1.part y : K) - (r.reg .r1 i).mid) ^ 2)

include h in
theorem M_BB_diag (i : Fin d) : r.M none (some i) .r2 (some i) = r.factor i *
    computeSecondOrderSum (r.c2 i) (r.c1 i) (r.p1 i) (r.p2 i) := by
  simp only [M, axis_sum_BB, dev, one_mul, ← sq]
  exact sum_one h i (fun y => ((Slot.r2.part y : K) - (r.reg .r2 i).mid) ^ 2)

include h in
theorem M_AP_diag (q : Slot) (hq : q.isProd) (i : Fin d) :
    r.M (some i) none q (some i) = r.factor i *
      computeSecondOrderOffsetSum (r.c1 i) (r.c2 i) (r.thisRR q i) (r.otherRR q i) := by
  simp only [M, axis_sum_AP h q hq, dev, mul_one]
  exact sum_one h i (fun y => ((Slot.r1.part y : K) - (r.reg .r1 i).mid) *
    ((q.part y : K) - (r.reg q i).mid))

include h in
theorem M_BP_diag (q : Slot) (hq : q.isProd) (i : Fin d) :
    r.M none (some i) q (some i) = r.factor i *
      computeSecondOrderOffsetSum (r.c2 i) (r.c1 i) (r.thisRR q i) (r.otherRR q i) := by
  simp only [M, axis_sum_BP h q hq, dev, one_mul]
  exact sum_one h i (fun y => ((Slot.r2.part y : K) - (r.reg .r2 i).mid) *
    ((q.part y : K) - (r.reg q i).mid))

include h in
theorem M_ABP_diag (q : Slot) (hq : q.isProd) (i : Fin d) :
    r.M (some i) (some i) q (some i) = r.factor i *
      productThirdOrderSum (r.c1 i) (r.c2 i) (r.thisRR q i) (r.otherRR q i) := by
  simp only [M, axis_sum_ABP h q hq, dev, mul_assoc]
  exact sum_one h i (fun y => ((Slot.r1.part y : K) - (r.reg .r1 i).mid) *
    (((Slot.r2.part y : K) - (r.reg .r2 i).mid) * ((q.part y : K) - (r.reg q i).mid)))

include h in
theorem M_AAB_diag (i : Fin d) : r.M (some i) (some i) .r1 (some i) = r.factor i *
    computeThirdOrderSum (r.c2 i) (r.c1 i) (r.p1 i) (r.p2 i) := by
  simp only [M, axis_sum_AAB, dev]
  rw [← sum_one h i (fun y => ((Slot.r1.part y : K) - (r.reg .r1 i).mid) ^ 2 *
    ((Slot.r2.part y : K) - (r.reg .r2 i).mid))]
  exact Finset.sum_congr rfl fun x _ => by ring

include h in
theorem M_ABB_diag (i : Fin d) : r.M (some i) (some i) .r2 (some i) = r.factor i *
    computeThirdOrderSum (r.c1 i) (r.c2 i) (r.p1 i) (r.p2 i) := by
  simp only [M, axis_sum_ABB, dev]
  rw [← sum_one h i (fun y => ((Slot.r2.part y : K) - (r.reg .r2 i).mid) ^ 2 *
    ((Slot.r1.part y : K) - (r.reg .r1 i).mid))]
  exact Finset.sum_congr rfl fun x _ => by ring

/-- Equation of the first reactant: its own deviation plays the role of an order. -/
theorem M_r1_comm (β : Option (Fin d)) (k : Fin d) :
    r.M none β .r1 (some k) = r.M (some k) β .r1 none := by
  unfold M
  exact Finset.sum_congr rfl fun x _ => by simp only [dev]; ring

theorem M_r2_comm (α : Option (Fin d)) (k : Fin d) :
    r.M α none .r2 (some k) = r.M α (some k) .r1 none := by
  unfold M
  exact Finset.sum_congr rfl fun x _ => by simp only [dev]; ring

theorem M_none_slot (α β : Option (Fin d)) (q q' : Slot) : r.M α β q none = r.M α β q' none := rfl

/-! ### Values after the first loop -/

theorem coefs1_zero : r.coefs1 none none .r1 none = r.nOverlap := by
  unfold coefs1
  exact final_never (get := fun s : Tensor d K => s none none .r1 none) (fun s j => rfl)

theorem coefs1_A (i : Fin d) : r.coefs1 (some i) none .r1 none = r.cA i := by
  unfold coefs1
  rw [final_eq (i := i) (get := fun s : Tensor d K => s (some i) none .r1 none)]
  · simp [step1]
  · intro s j hj; simp [step1, hj.symm]

theorem coefs1_B (i : Fin d) : r.coefs1 none (some i) .r1 none = r.cB i := by
  unfold coefs1
  rw [final_eq (i := i) (get := fun s : Tensor d K => s none (some i) .r1 none)]
  · simp [step1]
  · intro s j hj; simp [step1, hj.symm]

theorem step1_q_ne (s : Tensor d K) (q : Slot) {j k : Fin d} (hj : j ≠ k) :
    r.step1 s j none none q (some k) = s none none q (some k) := by
  cases q <;> simp [step1, hj.symm]

theorem coefs1_r1 (k : Fin d) : r.coefs1 none none .r1 (some k) = r.cA k / r.d1 k := by
  unfold coefs1
  rw [final_eq (i := k) (get := fun s : Tensor d K => s none none .r1 (some k))]
  · simp [step1]
  · intro s j hj; exact step1_q_ne s _ hj

theorem coefs1_r2 (k : Fin d) : r.coefs1 none none .r2 (some k) = r.cB k / r.d2 k := by
  unfold coefs1
  rw [final_eq (i := k) (get := fun s : Tensor d K => s none none .r2 (some k))]
  · simp [step1]
  · intro s j hj; exact step1_q_ne s _ hj

theorem step1_P (s : Tensor d K) (q : Slot) (hq : q.isProd) (hv : r.valid q) (k : Fin d) :
    r.step1 s k none none q (some k) = r.cP q k := by
  cases q <;> simp_all [step1, Slot.isProd]

theorem coefs1_P (q : Slot) (hq : q.isProd) (hv : r.valid q) (k : Fin d) :
    r.coefs1 none none q (some k) = r.cP q k := by
  unfold coefs1
  rw [final_eq (i := k) (get := fun s : Tensor d K => s none none q (some k))]
  · exact step1_P _ q hq hv k
  · intro s j hj; exact step1_q_ne s _ hj

/-- The value of a product entry seen by iteration `i` of the first loop. -/
theorem pre1_P (q : Slot) (hq : q.isProd) (hv : r.valid q) (i k : Fin d) :
    pre r.step1 r.coefs0 i none none q (some k) = if k < i then r.cP q k else 0 := by
  split
  · next hk =>
    rw [pre_after (i := k) (get := fun s : Tensor d K => s none none q (some k))
      (fun s j hj => step1_q_ne s _ hj) i hk i.2.le]
    exact step1_P _ q hq hv k
  · next hk =>
    rw [pre_before (i := k) (get := fun s : Tensor d K => s none none q (some k))
      (fun s j hj => step1_q_ne s _ hj) i (by omega)]
    rfl

theorem coefs1_AP (q : Slot) (hq : q.isProd) (hv : r.valid q) (i k : Fin d) :
    r.coefs1 (some i) none q (some k) =
      if k = i then r.factor i *
          computeSecondOrderOffsetSum (r.c1 i) (r.c2 i) (r.thisRR q i) (r.otherRR q i) /
          r.thisDisp q i
      else if k < i then r.cA i * r.cP q k / r.nOverlap else 0 := by
  unfold coefs1
  rw [final_eq (i := i) (get := fun s : Tensor d K => s (some i) none q (some k))]
  · simp only [step1, hq, hv, and_self, if_true]
    split
    · rfl
    · rw [pre1_P q hq hv i k]
      split <;> simp
  · intro s j hj; simp [step1, hj.symm]

theorem coefs1_BP (q : Slot) (hq : q.isProd) (hv : r.valid q) (i k : Fin d) :
    r.coefs1 none (some i) q (some k) =
      if k = i then r.factor i *
          computeSecondOrderOffsetSum (r.c2 i) (r.c1 i) (r.thisRR q i) (r.otherRR q i) /
          r.thisDisp q i
      else if k < i then r.cB i * r.cP q k / r.nOverlap else 0 := by
  unfold coefs1
  rw [final_eq (i := i) (get := fun s : Tensor d K => s none (some i) q (some k))]
  · simp only [step1, hq, hv, and_self, if_true]
    split
    · rfl
    · rw [pre1_P q hq hv i k]
      split <;> simp
  · intro s j hj; simp [step1, hj.symm]

theorem coefs1_untouched (i j : Fin d) (q : Slot) (γ : Option (Fin d)) :
    r.coefs1 (some i) (some j) q γ = 0 := by
  unfold coefs1
  rw [final_never (get := fun s : Tensor d K => s (some i) (some j) q γ)]
  · rfl
  · intro s k; rfl

theorem coefs1_untouched' (q : Slot) (hq : q.isProd = false) (i k : Fin d) :
    r.coefs1 (some i) none q (some k) = 0 ∧ r.coefs1 none (some i) q (some k) = 0 := by
  unfold coefs1
  constructor
  · rw [final_never (get := fun s : Tensor d K => s (some i) none q (some k))]
    · rfl
    · intro s k; simp [step1, hq]
  · rw [final_never (get := fun s : Tensor d K => s none (some i) q (some k))]
    · rfl
    · intro s k; simp [step1, hq]

/-! ### Values during and after the second loop -/

/-- Entries not written by the second loop. -/
theorem pre2_frozen (n : ℕ) (hn : n ≤ d) :
    let s := pre r.step2 r.coefs1 n
    s none none .r1 none = r.nOverlap ∧
    (∀ i, s (some i) none .r1 none = r.cA i) ∧ (∀ i, s none (some i) .r1 none = r.cB i) ∧
    (∀ k, s none none .r1 (some k) = r.cA k / r.d1 k) ∧
    (∀ k, s none none .r2 (some k) = r.cB k / r.d2 k) ∧
    (∀ q k, s none none q (some k) = r.coefs1 none none q (some k)) ∧
    (∀ q, q.isProd → ∀ i k, s (some i) none q (some k) = r.coefs1 (some i) none q (some k)) ∧
    (∀ q, q.isProd → ∀ i k, s none (some i) q (some k) = r.coefs1 none (some i) q (some k)) := by
  refine ⟨?_, ?_, ?_, ?_, ?_, ?_, ?_, ?_⟩
  · rw [pre_never (step := r.step2) (get := fun s : Tensor d K => s none none .r1 none) (fun s j => rfl) n hn]
    exact coefs1_zero
  · intro i
    rw [pre_never (step := r.step2) (get := fun s : Tensor d K => s (some i) none .r1 none) (fun s j => rfl) n hn]
    exact coefs1_A i
  · intro i
    rw [pre_never (step := r.step2) (get := fun s : Tensor d K => s none (some i) .r1 none) (fun s j => rfl) n hn]
    exact coefs1_B i
  · intro k
    rw [pre_never (step := r.step2) (get := fun s : Tensor d K => s none none .r1 (some k)) (fun s j => rfl) n hn]
    exact coefs1_r1 k
  · intro k
    rw [pre_never (step := r.step2) (get := fun s : Tensor d K => s none none .r2 (some k)) (fun s j => rfl) n hn]
    exact coefs1_r2 k
  · intro q k
    rw [pre_never (step := r.step2) (get := fun s : Tensor d K => s none none q (some k)) (fun s j => rfl) n hn]
  · intro q hq i k
    rw [pre_never (step := r.step2) (get := fun s : Tensor d K => s (some i) none q (some k)) _ n hn]
    intro s j
    cases q <;> simp_all [step2, Slot.isProd]
  · intro q hq i k
    rw [pre_never (step := r.step2) (get := fun s : Tensor d K => s none (some i) q (some k)) _ n hn]
    intro s j
    cases q <;> simp_all [step2, Slot.isProd]

/-- `_coefs(i+1,j+1,0,0)` is still zero when iteration `n ≤ i` starts. -/
theorem pre2_AB_before (i j : Fin d) (q : Slot) (γ : Option (Fin d)) (n : ℕ) (hn : n ≤ i) :
    pre r.step2 r.coefs1 n (some i) (some j) q γ = 0 := by
  rw [pre_before (i := i) (get := fun s : Tensor d K => s (some i) (some j) q γ) _ n hn]
  · exact coefs1_untouched i j q γ
  · intro s k hk
    cases γ <;> simp [step2, hk.symm]

include h in
theorem cAB_eq (i j : Fin d) (n : ℕ) (hn : n ≤ i) :
    r.cAB (pre r.step2 r.coefs1 n) i j = r.M (some i) (some j) .r1 none := by
  obtain ⟨_, hA, hB, _⟩ := pre2_frozen (r := r) n (by omega)
  unfold cAB
  split
  · next hij =>
    subst hij
    rw [pre2_AB_before i i .r1 none n hn, zero_add, M_AB_diag h]
  · next hij =>
    rw [hA, hB, M_indep_A h .r1 (by simpa using fun e => hij e.symm) (by simp), M_B h]

include h in
theorem pre2_AB_after (i j : Fin d) (n : ℕ) (hn : i < n) (hd : n ≤ d) :
    pre r.step2 r.coefs1 n (some i) (some j) .r1 none = r.M (some i) (some j) .r1 none := by
  rw [pre_after (i := i) (get := fun s : Tensor d K => s (some i) (some j) .r1 none) _ n hn hd]
  · simp only [step2, and_self, if_true]
    exact cAB_eq h i j i le_rfl
  · intro s k hk; simp [step2, hk.symm]

include h in
theorem cA1_eq (i k : Fin d) (n : ℕ) (hn : n ≤ d) :
    r.cA1 (pre r.step2 r.coefs1 n) i k = r.M (some i) none .r1 (some k) / r.d1 k := by
  obtain ⟨_, hA, hB, _⟩ := pre2_frozen (r := r) n hn
  unfold cA1
  split
  · next hk => subst hk; rw [M_AA_diag h]
  · next hk =>
    rw [hA, hA, M_indep_A h .r1 (by simp) (by simpa using hk), M_r1 h]
    rw [div_div]

include h in
theorem cB2_eq (i k : Fin d) (n : ℕ) (hn : n ≤ d) :
    r.cB2 (pre r.step2 r.coefs1 n) i k = r.M none (some i) .r2 (some k) / r.d2 k := by
  obtain ⟨_, hA, hB, _⟩ := pre2_frozen (r := r) n hn
  unfold cB2
  split
  · next hk => subst hk; rw [M_BB_diag h]
  · next hk =>
    rw [hB, hB, M_indep_B h .r2 (by simp) (by simpa using hk), M_r2 h]
    rw [div_div]

include h in
theorem cA2_eq (i k : Fin d) (n : ℕ) (hn : n ≤ i) :
    r.cA2 (pre r.step2 r.coefs1 n) i k = r.M (some i) none .r2 (some k) / r.d2 k := by
  unfold cA2
  rw [cAB_eq h i k n hn, M_r2_comm]

include h in
theorem cB1_eq (i k : Fin d) :
    r.cB1 (pre r.step2 r.coefs1 i) i k =
      if i < k then 0 else r.M none (some i) .r1 (some k) / r.d1 k := by
  unfold cB1
  split
  · next hk => subst hk; rw [cAB_eq h k k k le_rfl, M_r1_comm]; simp
  · next hk =>
    split
    · next hlt => rw [pre2_AB_before k i .r1 none i (by omega), zero_div]
    · next hge =>
      have : k < i := lt_of_le_of_ne (not_lt.mp hge) hk
      rw [pre2_AB_after h k i i this i.2.le, M_r1_comm]

include h in
/-- `_coefs(0,j+1,0,j+1)` as seen at the start of iteration `i ≠ j`. -/
theorem pre2_B1 (i j : Fin d) (hij : i ≠ j) :
    pre r.step2 r.coefs1 i none (some j) .r1 (some j) =
      if i < j then 0 else r.M none (some j) .r1 (some j) / r.d1 j := by
  have hw : ∀ (s : Tensor d K) (k : Fin d), k ≠ j →
      r.step2 s k none (some j) .r1 (some j) = s none (some j) .r1 (some j) := by
    intro s k hk; simp [step2, hk.symm]
  split
  · next hlt =>
    rw [pre_before (i := j) (get := fun s : Tensor d K => s none (some j) .r1 (some j)) hw i
      (by omega)]
    exact (coefs1_untouched' .r1 rfl j j).2
  · next hge =>
    have : j < i := lt_of_le_of_ne (not_lt.mp hge) hij.symm
    rw [pre_after (i := j) (get := fun s : Tensor d K => s none (some j) .r1 (some j)) hw i
      this i.2.le]
    simp only [step2, if_true]
    rw [cB1_eq h]; simp

include h in
theorem pre2_B2 (i j : Fin d) (hij : i ≠ j) :
    pre r.step2 r.coefs1 i none (some j) .r2 (some j) =
      if i < j then 0 else r.M none (some j) .r2 (some j) / r.d2 j := by
  have hw : ∀ (s : Tensor d K) (k : Fin d), k ≠ j →
      r.step2 s k none (some j) .r2 (some j) = s none (some j) .r2 (some j) := by
    intro s k hk; simp [step2, hk.symm]
  split
  · next hlt =>
    rw [pre_before (i := j) (get := fun s : Tensor d K => s none (some j) .r2 (some j)) hw i
      (by omega)]
    exact (coefs1_untouched' .r2 rfl j j).2
  · next hge =>
    have : j < i := lt_of_le_of_ne (not_lt.mp hge) hij.symm
    rw [pre_after (i := j) (get := fun s : Tensor d K => s none (some j) .r2 (some j)) hw i
      this i.2.le]
    simp only [step2, if_true]
    exact cB2_eq h j j j j.2.le

end ProdIn

end Xolotl.Network
