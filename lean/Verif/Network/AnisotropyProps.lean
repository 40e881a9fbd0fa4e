import Verif.Network.Anisotropy
import Verif.Network.RadiusProps
import Verif.Network.RatesProps
import Mathlib.Tactic.IntervalCases
import Mathlib.Analysis.Complex.ExponentialBounds

/-!
# Diffusion coefficients and anisotropy of the zirconium network: properties

C108.
-/

namespace Xolotl.Network.Anisotropy

open Real Xolotl.Network.Rates Xolotl.Network.Radius

private theorem kB0 : 0 < kB := by unfold kB; norm_num

theorem arrhenius_kernel (d m T : ℝ) : d * exp (m * (-1 / (kB * T))) = arrhenius d m T := by
  unfold arrhenius
  congr 2
  ring

theorem arrhenius_pos {d m T : ℝ} (h : 0 < d) : 0 < arrhenius d m T := mul_pos h (exp_pos _)

/-- **C108** Mean and ratio say the same as the two diffusivities: along a the mean over the square of the ratio, along c the mean times its fourth power. -/
theorem mean3_spec {T : ℝ} (hT : 0 < T) {f e : ℝ × ℝ} (h1 : 0 < f.1) (h2 : 0 < f.2) :
    ∃ D p, mean3 T f e = some (D, p) ∧ 0 < D ∧ 0 < p ∧ D / p ^ 2 = arrhenius f.1 e.1 T ∧ D * p ^ 4 = arrhenius f.2 e.2 T := by
  have a := arrhenius_pos (m := e.1) (T := T) h1
  have c := arrhenius_pos (m := e.2) (T := T) h2
  refine ⟨_, _, by rw [mean3, if_neg hT.ne'], ?_⟩
  simp only [arrhenius_kernel]
  generalize arrhenius f.1 e.1 T = x at *
  generalize arrhenius f.2 e.2 T = y at *
  have hD : 0 < (x * x * y) ^ (1 / 3 : ℝ) := rpow_pos_of_pos (by positivity) _
  have hp : 0 < (y / x) ^ (1 / 6 : ℝ) := rpow_pos_of_pos (by positivity) _
  have p2 : ((y / x) ^ (1 / 6 : ℝ)) ^ 2 = (y / x) ^ (1 / 3 : ℝ) := by
    rw [← rpow_natCast, ← rpow_mul (by positivity)]; norm_num
  have key : (x * x * y) ^ (1 / 3 : ℝ) = x * (y / x) ^ (1 / 3 : ℝ) := by
    have : x * x * y = x ^ 3 * (y / x) := by field_simp
    rw [this, mul_rpow (by positivity) (by positivity), ← rpow_natCast, ← rpow_mul a.le]
    norm_num
  have p3 : ((y / x) ^ (1 / 3 : ℝ)) ^ 3 = y / x := by
    rw [← rpow_natCast, ← rpow_mul (by positivity)]; norm_num
  have hq : 0 < (y / x) ^ (1 / 3 : ℝ) := rpow_pos_of_pos (by positivity) _
  refine ⟨hD, hp, ?_, ?_⟩
  · rw [p2, key]; field_simp
  · rw [show ((y / x) ^ (1 / 6 : ℝ)) ^ 4 = (((y / x) ^ (1 / 6 : ℝ)) ^ 2) ^ 2 by ring, p2, key]
    calc x * (y / x) ^ (1 / 3 : ℝ) * ((y / x) ^ (1 / 3 : ℝ)) ^ 2 = x * ((y / x) ^ (1 / 3 : ℝ)) ^ 3 := by ring
      _ = y := by rw [p3]; field_simp

/-- Two positive numbers are determined by the equations of `mean3_spec`. -/
theorem unique {D p D' p' x y : ℝ} (hD : 0 < D) (hp : 0 < p) (hp' : 0 < p') (a : D / p ^ 2 = x) (c : D * p ^ 4 = y) (a' : D' / p' ^ 2 = x) (c' : D' * p' ^ 4 = y) :
    D = D' ∧ p = p' := by
  have e1 : D = x * p ^ 2 := by rw [← a]; field_simp
  have e2 : D' = x * p' ^ 2 := by rw [← a']; field_simp
  have hx : 0 < x := by rw [← a]; positivity
  have q : p ^ 6 = p' ^ 6 := by
    have : x * p ^ 6 = x * p' ^ 6 := by
      calc x * p ^ 6 = D * p ^ 4 := by rw [e1]; ring
        _ = D' * p' ^ 4 := by rw [c, c']
        _ = x * p' ^ 6 := by rw [e2]; ring
    exact mul_left_cancel₀ hx.ne' this
  have : p = p' := (pow_left_inj₀ hp.le hp'.le (by norm_num)).1 q
  exact ⟨by rw [e1, e2, this], this⟩

/-- **C108** The mean lies between the two diffusivities, and the ratio is below 1 exactly when the cluster is slower along c than along a. -/
theorem between {D p x y : ℝ} (hD : 0 < D) (hp : 0 < p) (a : D / p ^ 2 = x) (c : D * p ^ 4 = y) : min x y ≤ D ∧ D ≤ max x y ∧ (p < 1 ↔ y < x) := by
  have e1 : D = x * p ^ 2 := by rw [← a]; field_simp
  have hx : 0 < x := by rw [← a]; positivity
  have e2 : y = x * p ^ 6 := by rw [← c, e1]; ring
  rcases lt_or_ge p 1 with h | h
  · have h2 : p ^ 2 < 1 := pow_lt_one₀ hp.le h (by norm_num)
    have h4 : p ^ 4 < 1 := pow_lt_one₀ hp.le h (by norm_num)
    have h6 : p ^ 6 < 1 := pow_lt_one₀ hp.le h (by norm_num)
    have l1 : D ≤ x := by rw [e1]; nlinarith
    have l2 : y ≤ D := by rw [← c]; nlinarith
    exact ⟨(min_le_right _ _).trans l2, l1.trans (le_max_left _ _), ⟨fun _ => by rw [e2]; nlinarith, fun _ => h⟩⟩
  · have h2 : 1 ≤ p ^ 2 := one_le_pow₀ h
    have h4 : 1 ≤ p ^ 4 := one_le_pow₀ h
    have h6 : 1 ≤ p ^ 6 := one_le_pow₀ h
    have l1 : x ≤ D := by rw [e1]; nlinarith
    have l2 : D ≤ y := by rw [← c]; nlinarith
    exact ⟨(min_le_left _ _).trans l1, l2.trans (le_max_right _ _), ⟨fun q => absurd h (not_le.2 q), fun q => by rw [e2] at q; nlinarith⟩⟩

/-! ### The clusters of the network -/

/-- The documented clusters that move: one to six vacancies, one to three interstitials. -/
def Moves (r : Select.RZ) : Prop := (r.lo.b = 0 ∧ r.lo.i = 0 ∧ 1 ≤ r.lo.v ∧ r.lo.v ≤ 6) ∨ (r.lo.b = 0 ∧ r.lo.v = 0 ∧ 1 ≤ r.lo.i ∧ r.lo.i ≤ 3)

/-- Factors along a and c of a cluster that moves, from the data. -/
noncomputable def factors (r : Select.RZ) : ℝ × ℝ := if r.lo.i = 0 then vFactor.getD r.lo.v (0, 0) else iFactor.getD r.lo.i (0, 0)

/-- Energies along a and c. -/
noncomputable def barriers (r : Select.RZ) : ℝ × ℝ := if r.lo.i = 0 then vMigration.getD r.lo.v (0, 0) else iMigration.getD r.lo.i (0, 0)

theorem tables_pos (r : Select.RZ) (h : Moves r) : (0 < (factors r).1 ∧ 0 < (factors r).2) ∧ 0 < (barriers r).1 ∧ 0 < (barriers r).2 := by
  obtain ⟨⟨v, b, i⟩, hi⟩ := r
  unfold Moves at h
  simp only [factors, barriers] at h ⊢
  rcases h with ⟨_, rfl, h1, h2⟩ | ⟨_, _, h1, h2⟩
  · interval_cases v <;> norm_num [vFactor, vMigration]
  · interval_cases i <;> norm_num [iFactor, iMigration]

/-- No read leaves the tables. -/
theorem visit_moves (T : ℝ) (r : Select.RZ) (s : ℝ × ℝ) (h : Moves r) : visit T r s = mean3 T (factors r) (barriers r) := by
  obtain ⟨_, q, _, _⟩ := zr_mobile r
  have m : 0 < zrDiffusion r := (zr_mobile r).1.2 h
  have mg := q.1 m
  unfold visit update
  rw [if_neg m.ne', mg, if_pos ⟨-1, rfl, by norm_num⟩]
  obtain ⟨⟨v, b, i⟩, hi⟩ := r
  unfold Moves at h
  simp only [factors, barriers] at h ⊢
  rcases h with ⟨rfl, rfl, h1, h2⟩ | ⟨rfl, rfl, h1, h2⟩
  · interval_cases v <;> simp [vFactor, vMigration]
  · interval_cases i <;> simp [iFactor, iMigration]

theorem visit_rests (T : ℝ) (r : Select.RZ) (s : ℝ × ℝ) (h : ¬ Moves r) : visit T r s = some s := by
  have m : zrDiffusion r = 0 := by
    by_contra c
    rcases (zr_mobile r).2.2.1 with z | z
    · exact c z
    · exact h ((zr_mobile r).1.1 (by rw [z]; norm_num))
  rw [visit, if_pos m]

/-- **C108** Whatever the temperatures before, with none of them zero, a cluster that moves has the two diffusivities of the last temperature; -/
theorem after_moves (Ts : List ℝ) (T : ℝ) (hs : ∀ t ∈ Ts, 0 < t) (hT : 0 < T) (r : Select.RZ) (h : Moves r) :
    ∃ D p, after (Ts ++ [T]) r = some (D, p) ∧ 0 < D ∧ 0 < p ∧ D / p ^ 2 = arrhenius (factors r).1 (barriers r).1 T ∧ D * p ^ 4 = arrhenius (factors r).2 (barriers r).2 T := by
  obtain ⟨⟨f1, f2⟩, _⟩ := tables_pos r h
  have d : ∃ s, after Ts r = some s := by
    induction Ts using List.reverseRecOn with
    | nil => exact ⟨_, rfl⟩
    | append_singleton Ts t ih =>
      obtain ⟨s, hs'⟩ := ih (fun x hx => hs x (by simp [hx]))
      obtain ⟨D, p, e, _⟩ := mean3_spec (hs t (by simp)) (e := barriers r) f1 f2
      refine ⟨(D, p), ?_⟩
      unfold after at hs' ⊢
      rw [List.foldlM_append, hs']
      simp [visit_moves _ _ _ h, e]
  obtain ⟨s, hs'⟩ := d
  obtain ⟨D, p, e, q⟩ := mean3_spec hT (e := barriers r) f1 f2
  refine ⟨D, p, ?_, q⟩
  unfold after at hs' ⊢
  rw [List.foldlM_append, hs']
  simp [visit_moves _ _ _ h, e]

/-- and all others, among them all basal clusters and nine interstitials, keep zero for both. -/
theorem after_rests (Ts : List ℝ) (r : Select.RZ) (h : ¬ Moves r) : after Ts r = some (0, 0) := by
  induction Ts using List.reverseRecOn with
  | nil => rfl
  | append_singleton Ts t ih =>
    unfold after at ih ⊢
    rw [List.foldlM_append, ih]
    simp [visit_rests _ _ _ h]

/-- **C108** The mean grows with the temperature; the ratio grows when the barrier along c is the higher one and falls when it is the lower one. -/
theorem temperature {T T' : ℝ} (hT : 0 < T) (h : T < T') {f e : ℝ × ℝ} (h1 : 0 < f.1) (h2 : 0 < f.2) (e1 : 0 < e.1) (e2 : 0 < e.2) {D p D' p' : ℝ}
    (r : mean3 T f e = some (D, p)) (r' : mean3 T' f e = some (D', p')) : D < D' ∧ (e.1 < e.2 → p < p') ∧ (e.2 < e.1 → p' < p) := by
  have up : ∀ {m : ℝ}, 0 < m → -m / (kB * T) < -m / (kB * T') := fun {m} hm => by
    rw [neg_div, neg_div, neg_lt_neg_iff]
    exact div_lt_div_of_pos_left hm (mul_pos kB0 hT) (mul_lt_mul_of_pos_left h kB0)
  have arr : ∀ {d m : ℝ}, 0 < d → 0 < m → arrhenius d m T < arrhenius d m T' := fun {d m} hd hm => mul_lt_mul_of_pos_left (exp_lt_exp.2 (up hm)) hd
  have quot : ∀ t : ℝ, arrhenius f.2 e.2 t / arrhenius f.1 e.1 t = f.2 / f.1 * exp (-(e.2 - e.1) / (kB * t)) := by
    intro t
    unfold arrhenius
    rw [mul_div_mul_comm, ← exp_sub]
    congr 2
    ring
  have hf : 0 < f.2 / f.1 := div_pos h2 h1
  have a := arrhenius_pos (m := e.1) (T := T) h1
  have c := arrhenius_pos (m := e.2) (T := T) h2
  have a' := arrhenius_pos (m := e.1) (T := T') h1
  have c' := arrhenius_pos (m := e.2) (T := T') h2
  rw [mean3, if_neg hT.ne'] at r
  rw [mean3, if_neg (hT.trans h).ne'] at r'
  simp only [arrhenius_kernel, Option.some.injEq, Prod.mk.injEq] at r r'
  obtain ⟨rfl, rfl⟩ := r
  obtain ⟨rfl, rfl⟩ := r'
  refine ⟨?_, fun q => ?_, fun q => ?_⟩
  · refine rpow_lt_rpow (by positivity) ?_ (by norm_num)
    exact mul_lt_mul'' (mul_lt_mul'' (arr h1 e1) (arr h1 e1) a.le a.le) (arr h2 e2) (by positivity) c.le
  · refine rpow_lt_rpow (by positivity) ?_ (by norm_num)
    rw [quot, quot]
    exact mul_lt_mul_of_pos_left (exp_lt_exp.2 (up (by linarith))) hf
  · refine rpow_lt_rpow (by positivity) ?_ (by norm_num)
    rw [quot, quot]
    refine mul_lt_mul_of_pos_left (exp_lt_exp.2 ?_) hf
    have := up (m := e.1 - e.2) (by linarith)
    rw [show -(e.2 - e.1) = -(-(e.1 - e.2)) by ring, neg_div, neg_div _ (-(e.1 - e.2)), neg_lt_neg_iff]
    exact this

/-- **C108** Which of them is the case: interstitials and one, three and four vacancies get faster along c, against a, when it gets hotter; two, five and six vacancies slower. -/
theorem directions (r : Select.RZ) (h : Moves r) : ((barriers r).1 < (barriers r).2 ↔ r.lo.v ≠ 2 ∧ r.lo.v ≠ 5 ∧ r.lo.v ≠ 6) ∧ ((barriers r).2 < (barriers r).1 ↔ r.lo.v = 2 ∨ r.lo.v = 5 ∨ r.lo.v = 6) := by
  obtain ⟨⟨v, b, i⟩, hi⟩ := r
  unfold Moves at h
  simp only [barriers] at h ⊢
  rcases h with ⟨_, rfl, h1, h2⟩ | ⟨_, rfl, h1, h2⟩
  · interval_cases v <;> norm_num [vMigration]
  · interval_cases i <;> norm_num [iMigration]

/-! ### In the reactions -/

/-- What `Verif.Network.Rates` knows of a cluster with these values. -/
def toCl (k : ZrKind) (n : ℕ) (radius rdI rdV : ℝ) (s : ℝ × ℝ) : Cl ZrKind := ⟨k, n, radius, s.1, s.2, rdI, rdV⟩

/-- A cluster of `n` on axis `k`. -/
def point : ZrKind → ℕ → Select.RZ
  | .v, n => Select.pointZ ⟨n, 0, 0⟩
  | .basal, n => Select.pointZ ⟨0, n, 0⟩
  | .i, n => Select.pointZ ⟨0, 0, n⟩

theorem moves_point (k : ZrKind) (n : ℕ) (hn : 0 < n) : Moves (point k n) ↔ zrDiffusionFactor k n ≠ 0 := by
  unfold zrDiffusionFactor
  cases k <;> simp only [point, Moves, Select.pointZ] <;> split_ifs <;> simp_all <;> omega

/-- **C108** The assumptions of C58 about coefficients and ratios hold after every setting of the temperatures: the rate of every pair with a cluster that moves is a positive number, as is the sink rate of every cluster that moves. -/
theorem rates_defined (Ts : List ℝ) (T : ℝ) (hs : ∀ t ∈ Ts, 0 < t) (hT : 0 < T) (k k' : ZrKind) (n n' : ℕ) (hn : 0 < n) (m : zrDiffusionFactor k n ≠ 0)
    (t : ℕ) (r0 r1 i0 v0 i1 v1 : ℝ) (h0 : 0 < r0) (h1 : 0 < r1) (a0 : 0 ≤ i0 ∧ 0 ≤ v0) (a1 : 0 ≤ i1 ∧ 0 ≤ v1) :
    ∃ s s', after (Ts ++ [T]) (point k n) = some s ∧ after (Ts ++ [T]) (point k' n') = some s' ∧
      (∃ x, zrRate (toCl k n r0 i0 v0 s) (toCl k' n' r1 i1 v1 s') (zrP (toCl k n r0 i0 v0 s) (toCl k' n' r1 i1 v1 s')) t = some x ∧ 0 < x) ∧
      ∃ x, zrSink (toCl k n r0 i0 v0 s) = some x ∧ 0 < x := by
  obtain ⟨D, p, e, hD, hp, _⟩ := after_moves Ts T hs hT (point k n) ((moves_point k n hn).2 m)
  have other : ∃ D' p', after (Ts ++ [T]) (point k' n') = some (D', p') ∧ 0 ≤ D' ∧ (0 < D' → 0 < p') := by
    by_cases c : Moves (point k' n')
    · obtain ⟨D', p', e', q1, q2, _⟩ := after_moves Ts T hs hT (point k' n') c
      exact ⟨D', p', e', q1.le, fun _ => q2⟩
    · exact ⟨0, 0, after_rests _ _ c, le_rfl, fun q => absurd q (lt_irrefl _)⟩
  obtain ⟨D', p', e', q1, q2⟩ := other
  refine ⟨(D, p), (D', p'), e, e', zr_pos _ _ t h0 h1 a0 a1 hD.le q1 (fun _ => hp) q2 (Or.inl hD), ?_⟩
  obtain ⟨s, s0, _, s2⟩ := zrSink_pos (toCl k n r0 i0 v0 (D, p)) m hp
  exact ⟨_, s2, mul_pos hD s0⟩

/-! ### What is not as the claim says -/

/-- **C108** Nine interstitials have a migration energy of 0.1 eV and a sink of their own, and never move. -/
theorem nine_rest (Ts : List ℝ) : zrMigration (point .i 9) = some (1 / 10) ∧ after Ts (point .i 9) = some (0, 0) ∧ ∀ r rdI rdV, zrSink (toCl .i 9 r rdI rdV (0, 0)) = some 0 := by
  refine ⟨?_, after_rests _ _ (by simp [Moves, point, Select.pointZ]), fun r rdI rdV => by simp [zrSink, toCl]⟩
  simp [zrMigration, point, Select.pointZ]
  norm_num

/-- **C108** The data of four and five interstitials are never used: whatever stood there, the coefficient is zero. -/
theorem four_five_rest (Ts : List ℝ) : after Ts (point .i 4) = some (0, 0) ∧ after Ts (point .i 5) = some (0, 0) :=
  ⟨after_rests _ _ (by simp [Moves, point, Select.pointZ]), after_rests _ _ (by simp [Moves, point, Select.pointZ])⟩

/-- **C108** At a point with zero kelvin the ratio of a cluster that moves is not a number. -/
theorem zero_kelvin (r : Select.RZ) (h : Moves r) : after [0] r = none := by
  simp [after, visit_moves _ _ _ h, mean3]

/-- **C108** A group is taken for the cluster at its origin: six to nine vacancies together move as six do. -/
theorem group_origin (Ts : List ℝ) : after Ts ⟨⟨6, 0, 0⟩, ⟨10, 1, 1⟩⟩ = after Ts (point .v 6) := by
  unfold after
  congr 1

/-- Two vacancies are faster along c than along a at 600 K and slower at 1000 K: the ratio crosses 1 in between. -/
theorem two_vacancies : arrhenius 2.7e12 0.58 600 < arrhenius 2.3e11 0.41 600 ∧ arrhenius 2.3e11 0.41 1000 < arrhenius 2.7e12 0.58 1000 := by
  have key : ∀ T : ℝ, 0 < T → arrhenius 2.3e11 0.41 T = arrhenius 2.7e12 0.58 T * (2.3 / 27 * exp (0.17 / (kB * T))) := by
    intro T hT
    unfold arrhenius
    have : exp (-0.41 / (kB * T)) = exp (-0.58 / (kB * T)) * exp (0.17 / (kB * T)) := by
      rw [← exp_add]; congr 1; ring
    rw [this]; ring
  have p : ∀ T, 0 < arrhenius 2.7e12 0.58 T := fun T => arrhenius_pos (by norm_num)
  rw [key 600 (by norm_num), key 1000 (by norm_num)]
  constructor
  · have : (27 / 2.3 : ℝ) < exp (0.17 / (kB * 600)) := by
      have h : (3 : ℝ) ≤ 0.17 / (kB * 600) := by unfold kB; norm_num
      have e3 : (27 / 2.3 : ℝ) < exp 3 := by
        have : exp (3 : ℝ) = exp 1 ^ 3 := by rw [← exp_nat_mul]; norm_num
        rw [this]
        have := Real.exp_one_gt_d9
        nlinarith [pow_le_pow_left₀ (by norm_num : (0 : ℝ) ≤ 2.7) (by linarith : (2.7 : ℝ) ≤ exp 1) 3]
      exact e3.trans_le (exp_le_exp.2 h)
    have h1 : 1 < 2.3 / 27 * exp (0.17 / (kB * 600)) := by linarith
    exact lt_mul_of_one_lt_right (p 600) h1
  · have : exp (0.17 / (kB * 1000)) < 27 / 2.3 := by
      have h : 0.17 / (kB * 1000) ≤ (2 : ℝ) := by unfold kB; norm_num
      have e2 : exp 2 < (27 / 2.3 : ℝ) := by
        have : exp (2 : ℝ) = exp 1 ^ 2 := by rw [← exp_nat_mul]; norm_num
        rw [this]
        have := Real.exp_one_lt_d9
        have := exp_pos (1 : ℝ)
        nlinarith
      exact (exp_le_exp.2 h).trans_lt e2
    have h1 : 2.3 / 27 * exp (0.17 / (kB * 1000)) < 1 := by linarith
    exact mul_lt_of_lt_one_right (p 1000) h1

/-! ### Examples -/

example : Moves (point .v 2) ∧ Moves (point .i 3) ∧ ¬ Moves (point .basal 1) := by simp [Moves, point, Select.pointZ]

example : ∃ D p, after [500, 600] (point .v 2) = some (D, p) ∧ 0 < D ∧ 1 < p := by
  obtain ⟨D, p, e, hD, hp, a, c⟩ := after_moves [500] 600 (by simp) (by norm_num) (point .v 2) (by simp [Moves, point, Select.pointZ])
  refine ⟨D, p, e, hD, ?_⟩
  have q := (between hD hp a c).2.2
  have f : factors (point .v 2) = (2.7e12, 2.3e11) := by simp [factors, point, Select.pointZ, vFactor]
  have b : barriers (point .v 2) = (0.58, 0.41) := by simp [barriers, point, Select.pointZ, vMigration]
  rw [f, b] at q a c
  have t := two_vacancies.1
  rcases lt_trichotomy p 1 with h | h | h
  · exact absurd (q.1 h) (not_lt.2 t.le)
  · rw [h] at a c
    simp only [one_pow, div_one, mul_one] at a c
    rw [a] at c
    exact absurd c t.ne
  · exact h

end Xolotl.Network.Anisotropy
