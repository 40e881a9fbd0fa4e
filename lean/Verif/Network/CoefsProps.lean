import Verif.Network.CoefsAux
import Mathlib.Tactic.FinCases

/-!
# C02/C03: the coefficients of a production reaction are sums over the composition quadruples
-/

set_option linter.unusedSectionVars false

namespace Xolotl.Network

open Xolotl.Util

namespace ProdIn

variable {d : ℕ} {K : Type*} [Field K] [LinearOrder K] [IsStrictOrderedRing K]

open Classical in
/-- **C03** Every coefficient read by the flux, partial-derivative and constant-rate functions equals
its specification (sum over all composition quadruples of the product of deviations), except the
`Lost` ones, which are zero.  The slot is irrelevant for order zero equations (the code always reads slot
0 for them). -/
theorem coefs_eq (r : ProdIn d K) (h : r.WF) (α β : Option (Fin d)) (q : Slot)
    (γ : Option (Fin d)) (hv : r.valid q) (hq : γ = none → q = .r1) :
    r.coefs α β q γ = if Lost α β q γ then 0 else r.coefSpec α β q γ := by
  obtain ⟨f0, fA, fB, fr1, fr2, fN, fAP, fBP⟩ := pre2_frozen (r := r) d le_rfl
  rw [pre_final] at f0 fA fB fr1 fr2 fN fAP fBP
  rw [coefSpec_eq]
  match α, β, γ with
  | none, none, none =>
    rw [if_neg (by simp [Lost]), hq rfl, M_zero h]
    simp only [dispO, div_one]
    exact f0
  | some i, none, none =>
    rw [if_neg (by simp [Lost]), hq rfl, M_A h]
    simp only [dispO, div_one]
    exact fA i
  | none, some i, none =>
    rw [if_neg (by simp [Lost]), hq rfl, M_B h]
    simp only [dispO, div_one]
    exact fB i
  | some i, some j, none =>
    rw [if_neg (by simp [Lost]), hq rfl]
    simp only [dispO, div_one]
    rw [← pre2_AB_after h i j d i.2 le_rfl, pre_final]
    rfl
  | none, none, some k =>
    rw [if_neg (by simp [Lost])]
    simp only [dispO]
    cases q with
    | r1 => rw [M_r1 h]; exact fr1 k
    | r2 => rw [M_r2 h]; exact fr2 k
    | p1 =>
      rw [M_P h _ rfl, ← thisDisp_eq h]
      exact (fN .p1 k).trans (coefs1_P _ rfl hv k)
    | p2 =>
      rw [M_P h _ rfl, ← thisDisp_eq h]
      exact (fN .p2 k).trans (coefs1_P _ rfl hv k)
  | some i, none, some k =>
    have hP : ∀ q : Slot, q.isProd → r.valid q → r.coefs (some i) none q (some k)
        = if i < k then 0 else r.M (some i) none q (some k) / r.disp q k := by
      intro q hq' hv'
      refine (fAP q hq' i k).trans ?_
      rw [coefs1_AP q hq' hv']
      by_cases hk : k = i
      · subst hk
        rw [if_pos rfl, if_neg (lt_irrefl _), M_AP_diag h q hq', thisDisp_eq h]
      · rw [if_neg hk]
        by_cases hlt : k < i
        · rw [if_pos hlt, if_neg (not_lt.mpr hlt.le),
            M_indep_A h q (by simp) (by simpa using hk), M_P h q hq', cP, thisDisp_eq h]
          ring
        · rw [if_neg hlt, if_pos (lt_of_le_of_ne (not_lt.mp hlt) (fun e => hk e.symm))]
    simp only [dispO]
    cases q with
    | r1 =>
      rw [if_neg (by simp [Lost, Slot.isProd])]
      unfold coefs
      rw [final_eq (i := i) (get := fun s : Tensor d K => s (some i) none .r1 (some k))]
      · simp only [step2, if_true]; exact cA1_eq h i k i i.2.le
      · intro s j hj; simp [step2, hj.symm]
    | r2 =>
      rw [if_neg (by simp [Lost, Slot.isProd])]
      unfold coefs
      rw [final_eq (i := i) (get := fun s : Tensor d K => s (some i) none .r2 (some k))]
      · simp only [step2, if_true]; exact cA2_eq h i k i le_rfl
      · intro s j hj; simp [step2, hj.symm]
    | p1 => rw [hP .p1 rfl hv]; simp [Lost, Slot.isProd]
    | p2 => rw [hP .p2 rfl hv]; simp [Lost, Slot.isProd]
  | none, some i, some k =>
    have hP : ∀ q : Slot, q.isProd → r.valid q → r.coefs none (some i) q (some k)
        = if i < k then 0 else r.M none (some i) q (some k) / r.disp q k := by
      intro q hq' hv'
      refine (fBP q hq' i k).trans ?_
      rw [coefs1_BP q hq' hv']
      by_cases hk : k = i
      · subst hk
        rw [if_pos rfl, if_neg (lt_irrefl _), M_BP_diag h q hq', thisDisp_eq h]
      · rw [if_neg hk]
        by_cases hlt : k < i
        · rw [if_pos hlt, if_neg (not_lt.mpr hlt.le),
            M_indep_B h q (by simp) (by simpa using hk), M_P h q hq', cP, thisDisp_eq h]
          ring
        · rw [if_neg hlt, if_pos (lt_of_le_of_ne (not_lt.mp hlt) (fun e => hk e.symm))]
    simp only [dispO]
    cases q with
    | r1 =>
      have : r.coefs none (some i) .r1 (some k) = r.cB1 (pre r.step2 r.coefs1 i) i k := by
        unfold coefs
        rw [final_eq (i := i) (get := fun s : Tensor d K => s none (some i) .r1 (some k))]
        · simp only [step2, if_true]
        · intro s j hj; simp [step2, hj.symm]
      rw [this, cB1_eq h]
      simp [Lost, Slot.isProd, disp]
    | r2 =>
      rw [if_neg (by simp [Lost, Slot.isProd])]
      unfold coefs
      rw [final_eq (i := i) (get := fun s : Tensor d K => s none (some i) .r2 (some k))]
      · simp only [step2, if_true]; exact cB2_eq h i k i i.2.le
      · intro s j hj; simp [step2, hj.symm]
    | p1 => rw [hP .p1 rfl hv]; simp [Lost, Slot.isProd]
    | p2 => rw [hP .p2 rfl hv]; simp [Lost, Slot.isProd]
  | some i, some j, some k =>
    obtain ⟨_, gA, gB, gr1, gr2, gN, gAP, gBP⟩ := pre2_frozen (r := r) i i.2.le
    have hP : ∀ q : Slot, q.isProd → r.valid q → r.coefs (some i) (some j) q (some k)
        = r.M (some i) (some j) q (some k) / r.disp q k := by
      intro q hq' hv'
      have : r.coefs (some i) (some j) q (some k)
          = r.cABP (pre r.step2 r.coefs1 i) i j k q := by
        unfold coefs
        rw [final_eq (i := i) (get := fun s : Tensor d K => s (some i) (some j) q (some k))]
        · cases q <;> simp_all [step2, Slot.isProd]
        · intro s j hj; simp [step2, hj.symm]
      rw [this]
      unfold cABP
      by_cases hij : i = j
      · subst hij
        by_cases hik : i = k
        · subst hik
          rw [if_pos ⟨rfl, rfl⟩, pre2_AB_before i i q (some i) i le_rfl, zero_add,
            M_ABP_diag h q hq', thisDisp_eq h]
        · rw [if_neg (by simp [hik]), if_neg hik, if_neg hik, if_pos rfl, cAB_eq h i i i le_rfl, gN,
            coefs1_P q hq' hv', M_indep_q h q (by simpa using hik) (by simpa using hik),
            M_P h q hq', cP, thisDisp_eq h, M_none_slot _ _ q .r1]
          ring
      · rw [if_neg (by simp [hij])]
        by_cases hjk : j = k
        · subst hjk
          rw [if_pos rfl, gA, gBP q hq', coefs1_BP q hq' hv', if_pos rfl,
            M_indep_A h q (by simpa using fun e => hij e.symm) (by simpa using fun e => hij e.symm),
            M_BP_diag h q hq', thisDisp_eq h]
          ring
        · rw [if_neg hjk]
          by_cases hik : i = k
          · subst hik
            rw [if_pos rfl, gB, gAP q hq', coefs1_AP q hq' hv', if_pos rfl,
              M_indep_B h q (by simpa using hij) (by simpa using fun e => hjk e.symm),
              M_AP_diag h q hq', thisDisp_eq h]
            ring
          · rw [if_neg hik, if_neg hij, gA, gB, gN, coefs1_P q hq' hv',
              M_indep_A h q (by simpa using fun e => hij e.symm)
                (by simpa using fun e => hik e.symm),
              M_indep_B h q (by simp) (by simpa using fun e => hjk e.symm),
              M_P h q hq', cP, thisDisp_eq h]
            field_simp
    simp only [dispO]
    cases q with
    | p1 => rw [if_neg (by simp [Lost, Slot.isProd]), hP .p1 rfl hv]
    | p2 => rw [if_neg (by simp [Lost, Slot.isProd]), hP .p2 rfl hv]
    | r1 =>
      have : r.coefs (some i) (some j) .r1 (some k)
          = r.cABR1 (pre r.step2 r.coefs1 i) i j k := by
        unfold coefs
        rw [final_eq (i := i) (get := fun s : Tensor d K => s (some i) (some j) .r1 (some k))]
        · simp [step2]
        · intro s j hj; simp [step2, hj.symm]
      rw [this]
      unfold cABR1
      by_cases hij : i = j
      · subst hij
        have hL : ¬ Lost (some i) (some i) .r1 (some k) := by simp [Lost]
        rw [if_neg hL]
        by_cases hik : i = k
        · subst hik
          rw [if_pos ⟨rfl, rfl⟩, M_AAB_diag h]; rfl
        · rw [if_neg (by simp [hik]), if_neg hik, if_neg hik, if_pos rfl, cAB_eq h i i i le_rfl,
            gr1, M_indep_q h .r1 (by simpa using hik) (by simpa using hik), M_r1 h]
          simp only [disp]; ring
      · rw [if_neg (by simp [hij])]
        by_cases hik : i = k
        · subst hik
          have hL : ¬ Lost (some i) (some j) .r1 (some i) := by
            rintro ⟨_, e, _⟩; exact hij e.symm
          rw [if_neg hL, if_pos rfl, gB,
            cA1_eq h i i i i.2.le,
            M_indep_B h .r1 (by simpa using hij) (by simpa using hij)]
          simp only [disp]; ring
        · rw [if_neg hik]
          by_cases hjk : j = k
          · subst hjk
            rw [if_pos rfl, gA, pre2_B1 h i j hij]
            simp only [Lost, Slot.isProd, true_and, disp]
            by_cases hlt : i < j
            · simp [hlt]
            · rw [if_neg hlt, if_neg hlt, M_indep_A h .r1 (by simpa using fun e => hij e.symm)
                (by simpa using fun e => hij e.symm)]
              ring
          · have hL : ¬ Lost (some i) (some j) .r1 (some k) := by simp [Lost, hjk]
            rw [if_neg hL, if_neg hjk, if_neg hij, gA, gB, gA,
              M_indep_A h .r1 (by simpa using fun e => hij e.symm)
                (by simpa using fun e => hik e.symm),
              M_indep_B h .r1 (by simp) (by simpa using fun e => hjk e.symm), M_r1 h]
            simp only [disp]; field_simp
    | r2 =>
      have : r.coefs (some i) (some j) .r2 (some k)
          = r.cABR2 (pre r.step2 r.coefs1 i) i j k := by
        unfold coefs
        rw [final_eq (i := i) (get := fun s : Tensor d K => s (some i) (some j) .r2 (some k))]
        · simp [step2]
        · intro s j hj; simp [step2, hj.symm]
      rw [this]
      unfold cABR2
      by_cases hij : i = j
      · subst hij
        have hL : ¬ Lost (some i) (some i) .r2 (some k) := by simp [Lost]
        rw [if_neg hL]
        by_cases hik : i = k
        · subst hik
          rw [if_pos ⟨rfl, rfl⟩, M_ABB_diag h]; rfl
        · rw [if_neg (by simp [hik]), if_neg hik, if_neg hik, if_pos rfl, cAB_eq h i i i le_rfl,
            gr2, M_indep_q h .r2 (by simpa using hik) (by simpa using hik), M_r2 h,
            M_none_slot _ _ .r2 .r1]
          simp only [disp]; ring
      · rw [if_neg (by simp [hij])]
        by_cases hik : i = k
        · subst hik
          have hL : ¬ Lost (some i) (some j) .r2 (some i) := by
            rintro ⟨_, e, _⟩; exact hij e.symm
          rw [if_neg hL, if_pos rfl, gB,
            cA2_eq h i i i le_rfl,
            M_indep_B h .r2 (by simpa using hij) (by simpa using hij)]
          simp only [disp]; ring
        · rw [if_neg hik]
          by_cases hjk : j = k
          · subst hjk
            rw [if_pos rfl, gA, pre2_B2 h i j hij]
            simp only [Lost, Slot.isProd, true_and, disp]
            by_cases hlt : i < j
            · simp [hlt]
            · rw [if_neg hlt, if_neg hlt, M_indep_A h .r2 (by simpa using fun e => hij e.symm)
                (by simpa using fun e => hij e.symm)]
              ring
          · have hL : ¬ Lost (some i) (some j) .r2 (some k) := by simp [Lost, hjk]
            rw [if_neg hL, if_neg hjk, if_neg hij, gA, gB, gB,
              M_indep_A h .r2 (by simpa using fun e => hij e.symm)
                (by simpa using fun e => hik e.symm),
              M_indep_B h .r2 (by simp) (by simpa using fun e => hjk e.symm), M_r2 h]
            simp only [disp]; field_simp

/-- **C03** (one moment axis, e.g. the alloy and zirconium networks) every coefficient that is read
equals its specification. -/
theorem coefs_eq_one_axis (r : ProdIn 1 K) (h : r.WF) (α β : Option (Fin 1)) (q : Slot)
    (γ : Option (Fin 1)) (hv : r.valid q) (hq : γ = none → q = .r1) :
    r.coefs α β q γ = r.coefSpec α β q γ := by
  rw [coefs_eq r h α β q γ hv hq, if_neg]
  intro hL
  have lt : ∀ a b : Fin 1, ¬ a < b := fun a b => by
    rw [Subsingleton.elim a b]; exact lt_irrefl _
  match α, β, γ, hL with
  | some i, none, some k, hL => exact lt _ _ hL.2
  | none, some i, some k, hL => exact lt _ _ hL.2
  | some i, some j, some k, hL => exact lt _ _ hL.2.2

/-- **C03** (any number of moment axes) order zero equations are always exact. -/
theorem coefs_eq_order_zero (r : ProdIn d K) (h : r.WF) (α β : Option (Fin d)) :
    r.coefs α β .r1 none = r.coefSpec α β .r1 none := by
  rw [coefs_eq r h α β .r1 none rfl (fun _ => rfl), if_neg]
  cases α <;> cases β <;> simp [Lost]

/-- A participant that is not grouped on an axis has no deviation on it. -/
theorem dev_single (r : ProdIn d K) {x : Fin d → Quad} (hx : x ∈ r.allQuads) (q : Slot) (i : Fin d)
    (h1 : (r.reg q i).e = (r.reg q i).b + 1) : r.dev q (some i) x = 0 := by
  have hm := (mem_allQuads r).mp hx i
  rw [axis, show x i = ((x i).1, (x i).2.1, (x i).2.2.1, (x i).2.2.2) from rfl, mem_quads] at hm
  have hp : q.part (x i) = (r.reg q i).b := by
    cases q <;> simp only [reg, Slot.part] at * <;> omega
  simp only [dev, hp, Ival.mid, h1]
  push_cast
  ring

/-- **C03** (any number of moment axes) when all the groups of the reaction are grouped along the same single axis, every coefficient that is read equals its
specification. -/
theorem coefs_eq_one_grouped_axis (r : ProdIn d K) (h : r.WF) (i0 : Fin d)
    (hg : ∀ i, i ≠ i0 → ∀ q, (r.reg q i).e = (r.reg q i).b + 1)
    (α β : Option (Fin d)) (q : Slot)
    (γ : Option (Fin d)) (hv : r.valid q) (hq : γ = none → q = .r1) :
    r.coefs α β q γ = r.coefSpec α β q γ := by
  classical
  rw [coefs_eq r h α β q γ hv hq]
  split_ifs with hL
  · symm
    unfold coefSpec
    rw [Finset.sum_eq_zero, zero_div]
    intro x hx
    have hz : ∀ q i, i ≠ i0 → r.dev q (some i) x = 0 := fun q i hi => r.dev_single hx q i (hg i hi q)
    match α, β, γ, hL with
    | some i, none, some k, hL =>
      by_cases hi : i = i0
      · rw [hz q k (fun e => absurd hL.2 (by rw [e, hi]; exact lt_irrefl _)), mul_zero]
      · rw [hz .r1 i hi, zero_mul, zero_mul]
    | none, some i, some k, hL =>
      by_cases hi : i = i0
      · rw [hz q k (fun e => absurd hL.2 (by rw [e, hi]; exact lt_irrefl _)), mul_zero]
      · rw [hz .r2 i hi, mul_zero, zero_mul]
    | some i, some j, some k, hL =>
      by_cases hi : i = i0
      · rw [hz .r2 j (fun e => absurd hL.2.2 (by rw [e, hi]; exact lt_irrefl _)), mul_zero, zero_mul]
      · rw [hz .r1 i hi, zero_mul, zero_mul]
  · rfl

/-- A one-axis reaction of two groups: sizes `[1,4)` and `[2,4)` merge into the group `[4,7)`. -/
def wit1 : ProdIn 1 ℚ where
  c1 := fun _ => ⟨1, 4⟩
  c2 := fun _ => ⟨2, 4⟩
  p1 := fun _ => ⟨4, 7⟩
  p2 := fun _ => ⟨0, 1⟩
  d1 := fun _ => 2 / 3
  d2 := fun _ => 1 / 4
  dp1 := fun _ => 2 / 3
  dp2 := fun _ => 1
  prod1 := some 7
  prod2 := none

theorem wit1_wf : wit1.WF where
  prod := by decide
  overlap := fun i => ⟨(2, 2, 4, 0), by fin_cases i; decide +kernel⟩
  same := by decide

/-- Non-vacuity and a non-zero value. -/
example : wit1.coefs (some 0) none .p1 (some 0) = 3 := by
  rw [coefs_eq_one_axis wit1 wit1_wf _ _ .p1 _ rfl (by simp)]
  decide +kernel

/-- A two-axis reaction: the group `[1,3)×[1,3)` absorbs the single `(1,1)` and stays in its own group. -/
def wit2 : ProdIn 2 ℚ where
  c1 := fun _ => ⟨1, 3⟩
  c2 := fun _ => ⟨1, 2⟩
  p1 := fun _ => ⟨1, 3⟩
  p2 := fun _ => ⟨0, 1⟩
  d1 := fun _ => 1 / 4
  d2 := fun _ => 1
  dp1 := fun _ => 1 / 4
  dp2 := fun _ => 1
  prod1 := some 0
  prod2 := none

theorem wit2_wf : wit2.WF where
  prod := by decide
  overlap := fun i => ⟨(1, 1, 2, 0), by fin_cases i <;> decide +kernel⟩
  same := by decide

/-- **C03 fails with two moment axes**: the coefficient of the first reactant's axis 0 moment in the
product's axis 1 moment equation is not zero according to its meaning, but the code stores zero, because
it multiplies with `_coefs(0,0,p+2,k+1)` before that entry is written. -/
theorem coefs_lost_two_axes :
    wit2.coefs (some 0) none .p1 (some 1) = 0 ∧ wit2.coefSpec (some 0) none .p1 (some 1) = -1 := by
  constructor
  · rw [coefs_eq wit2 wit2_wf _ _ .p1 _ rfl (by simp), if_pos]
    exact ⟨rfl, by decide⟩
  · decide +kernel

/-- A complete annihilation of two groups: vacancies `[5,8)` with interstitials of the same sizes (which are `[-7,-4)`
on the vacancy axis). -/
def wit3 : ProdIn 1 ℚ where
  c1 := fun _ => ⟨5, 8⟩
  c2 := fun _ => ⟨-7, -4⟩
  p1 := fun _ => ⟨0, 1⟩
  p2 := fun _ => ⟨0, 1⟩
  d1 := fun _ => 2 / 3
  d2 := fun _ => 2 / 3
  dp1 := fun _ => 1
  dp2 := fun _ => 1
  prod1 := none
  prod2 := none

/-- **C02 fails for reactions without product**: the code takes one overlap whatever the groups, whereas three pairs of
sizes annihilate. -/
theorem nOverlap_no_product : wit3.nOverlap = 1 ∧ wit3.allQuads.card = 3 := by
  constructor
  · rfl
  · decide +kernel

end ProdIn

end Xolotl.Network
