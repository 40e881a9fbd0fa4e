import Verif.Flux.Profile
import Mathlib.MeasureTheory.Measure.Lebesgue.Basic
import Mathlib.Algebra.Order.Archimedean.Real.Basic
import Mathlib.Tactic.Linarith
import Mathlib.Tactic.Ring
import Mathlib.Tactic.NormNum
import Mathlib.Tactic.FieldSimp

/-!
# Properties of the pulsed source (C52)
-/

set_option linter.unusedSectionVars false

namespace Xolotl.Flux

variable {K : Type*} [Field K] [LinearOrder K] [IsStrictOrderedRing K] [FloorRing K]

/-- **C52, conversion.** A number converts exactly when the integer left of its decimal point is one of the 2^32 values of `int`. -/
theorem toInt_spec (x : K) (n : ℤ) :
    toInt x = some n ↔ (-2147483648 ≤ n ∧ n ≤ 2147483647) ∧ ((0 ≤ x ∧ (n : K) ≤ x ∧ x < n + 1) ∨ (x < 0 ∧ (n : K) - 1 < x ∧ x ≤ n)) := by
  unfold toInt
  dsimp only
  by_cases h : 0 ≤ x
  · rw [if_pos h]
    have e : ⌊x⌋ = n ↔ (n : K) ≤ x ∧ x < n + 1 := Int.floor_eq_iff
    constructor
    · intro q
      split_ifs at q with r
      have q := Option.some.inj q
      exact ⟨by omega, .inl ⟨h, e.mp q⟩⟩
    · rintro ⟨⟨r1, r2⟩, (⟨_, q⟩ | ⟨q, _⟩)⟩
      · rw [e.mpr q, if_pos (by omega)]
      · exact absurd h (not_le.mpr q)
  · rw [if_neg h]
    have e : ⌈x⌉ = n ↔ (n : K) - 1 < x ∧ x ≤ n := Int.ceil_eq_iff
    constructor
    · intro q
      split_ifs at q with r
      have q := Option.some.inj q
      exact ⟨by omega, .inr ⟨not_le.mp h, e.mp q⟩⟩
    · rintro ⟨⟨r1, r2⟩, (⟨q, _⟩ | ⟨_, q⟩)⟩
      · exact absurd q h
      · rw [e.mpr q, if_pos (by omega)]

/-- In period number `n` the conversion to `int` gives `n`, as long as it fits. -/
theorem toInt_cycle (dT t : K) (hd : 0 < dT) (n : ℕ) (hn : n < 2 ^ 31) (h1 : n * dT ≤ t) (h2 : t < (n + 1) * dT) :
    toInt (t / dT) = some (n : ℤ) := by
  have h0 : 0 ≤ t / dT := div_nonneg (le_trans (mul_nonneg (Nat.cast_nonneg _) hd.le) h1) hd.le
  have hfl : ⌊t / dT⌋ = (n : ℤ) := by
    rw [Int.floor_eq_iff]
    constructor
    · rw [le_div_iff₀ hd]; exact_mod_cast h1
    · rw [div_lt_iff₀ hd]; exact_mod_cast h2
  unfold toInt
  rw [if_pos h0, hfl]
  dsimp only
  rw [if_pos ⟨by omega, by omega⟩]

/-- **C52, on and off.** During period number `n`, with pulse time and proportion above the rounding threshold, the source is on exactly during the first fraction `alpha` of the period (its last instant included). -/
theorem pulse_on_iff (eps dT alpha t : K) (hd : eps ≤ dT) (hep : 0 < eps) (ha : eps ≤ alpha) (n : ℕ) (hn : n < 2 ^ 31)
    (h1 : n * dT ≤ t) (h2 : t < (n + 1) * dT) :
    ∃ b, pulseOn eps dT alpha t = some b ∧ (b = true ↔ t ≤ n * dT + alpha * dT) := by
  have hdp : 0 < dT := hep.trans_le hd
  unfold pulseOn
  rw [if_neg hdp.ne', toInt_cycle dT t hdp n hn h1 h2]
  refine ⟨_, rfl, ?_⟩
  have n1 : ¬ near eps dT 0 := by
    unfold near; rw [zero_sub, abs_neg, abs_of_pos hdp]; exact not_lt.mpr hd
  have n2 : ¬ near eps alpha 0 := by
    unfold near; rw [zero_sub, abs_neg, abs_of_pos (hep.trans_le ha)]; exact not_lt.mpr ha
  simp only [n1, n2, decide_false, Bool.or_false, Bool.not_eq_true', decide_eq_false_iff_not, not_lt, gt_iff_lt, Int.cast_natCast]
  constructor <;> intro h <;> linarith

/-- **C52, switched off.** With a proportion below the threshold, or a pulse time below it, the source is never on. -/
theorem pulse_off (eps dT alpha t : K) (h : near eps alpha 0 ∨ near eps dT 0) : pulseOn eps dT alpha t ≠ some true := by
  unfold pulseOn
  split_ifs
  · simp
  · cases toInt (t / dT) with
    | none => simp
    | some c =>
      rcases h with h | h <;> simp [h]

/-- **C52, a zero pulse time** is divided by before it is tested. -/
theorem pulse_zero (eps alpha t : K) : pulseOn eps 0 alpha t = none := by
  unfold pulseOn; rw [if_pos rfl]

/-- **C52, long runs.** From period number `2 ^ 31` on the conversion to `int` is undefined. -/
theorem pulse_overflow (eps dT alpha t : K) (hd : 0 < dT) (h : 2 ^ 31 * dT ≤ t) : pulseOn eps dT alpha t = none := by
  have h0 : (2 : K) ^ 31 ≤ t / dT := by rw [le_div_iff₀ hd]; exact h
  have hz : (0 : K) ≤ t / dT := le_trans (by positivity) h0
  have hfl : (2 : ℤ) ^ 31 ≤ ⌊t / dT⌋ := by rw [Int.le_floor]; exact_mod_cast h0
  unfold pulseOn
  rw [if_neg hd.ne']
  have : toInt (t / dT) = none := by
    unfold toInt
    rw [if_pos hz]
    dsimp only
    rw [if_neg (by omega)]
  rw [this]

open MeasureTheory Set in
/-- The instants of the first `n` periods at which the source is on. -/
theorem on_set (eps dT alpha : ℝ) (hd : eps ≤ dT) (hep : 0 < eps) (ha : eps ≤ alpha) (n : ℕ) (hn : n ≤ 2 ^ 31) :
    {t : ℝ | 0 ≤ t ∧ t < n * dT ∧ pulseOn eps dT alpha t = some true} =
      ⋃ k ∈ Finset.range n, (Icc (k * dT) (k * dT + alpha * dT) ∩ Iio ((k + 1) * dT)) := by
  have hdp : 0 < dT := hep.trans_le hd
  ext t
  simp only [mem_ofPred_eq, Finset.mem_range, mem_iUnion, mem_inter_iff, mem_Icc, mem_Iio, exists_prop]
  constructor
  · rintro ⟨h0, h1, hon⟩
    have hq : 0 ≤ t / dT := div_nonneg h0 hdp.le
    have hk0 : (⌊t / dT⌋₊ : ℝ) ≤ t / dT := Nat.floor_le hq
    have hk1 : t / dT < ⌊t / dT⌋₊ + 1 := Nat.lt_floor_add_one _
    rw [le_div_iff₀ hdp] at hk0
    rw [div_lt_iff₀ hdp] at hk1
    have hkn : ⌊t / dT⌋₊ < n := by
      have : (⌊t / dT⌋₊ : ℝ) * dT < n * dT := hk0.trans_lt h1
      exact_mod_cast lt_of_mul_lt_mul_right this hdp.le
    refine ⟨⌊t / dT⌋₊, hkn, ⟨hk0, ?_⟩, hk1⟩
    obtain ⟨b, e, hb⟩ := pulse_on_iff eps dT alpha t hd hep ha ⌊t / dT⌋₊ (by omega) hk0 hk1
    rw [e, Option.some.injEq] at hon
    exact hb.mp hon
  · rintro ⟨k, hk, ⟨h1, h2⟩, h3⟩
    obtain ⟨b, e, hb⟩ := pulse_on_iff eps dT alpha t hd hep ha k (by omega) h1 h3
    refine ⟨le_trans (mul_nonneg (Nat.cast_nonneg _) hdp.le) h1, ?_, by rw [e, hb.mpr h2]⟩
    have : ((k : ℝ) + 1) ≤ n := by exact_mod_cast hk
    exact h3.trans_le (mul_le_mul_of_nonneg_right this hdp.le)

open MeasureTheory Set in
/-- **C52, total on-time (partial: pulse time and proportion not below the rounding threshold, period numbers within `int`).** Over any number of whole periods (up to the range of `int`), with a proportion of at most one, the total time during which the source is on is `alpha` times the elapsed time. -/
theorem pulse_total_partial (eps dT alpha : ℝ) (hd : eps ≤ dT) (hep : 0 < eps) (ha : eps ≤ alpha) (ha1 : alpha ≤ 1) (n : ℕ) (hn : n ≤ 2 ^ 31) :
    volume {t : ℝ | 0 ≤ t ∧ t < n * dT ∧ pulseOn eps dT alpha t = some true} = ENNReal.ofReal (alpha * (n * dT)) := by
  have hdp : 0 < dT := hep.trans_le hd
  have hap : 0 < alpha := hep.trans_le ha
  rw [on_set eps dT alpha hd hep ha n hn]
  rw [measure_biUnion_finset]
  · have hk : ∀ k ∈ Finset.range n, volume (Icc ((k : ℝ) * dT) (k * dT + alpha * dT) ∩ Iio ((k + 1) * dT)) = ENNReal.ofReal (alpha * dT) := by
      intro k _
      have hle : (k : ℝ) * dT + alpha * dT ≤ (k + 1) * dT := by nlinarith
      apply le_antisymm
      · refine (measure_mono inter_subset_left).trans ?_
        rw [Real.volume_Icc, add_sub_cancel_left]
      · have hsub : Ico ((k : ℝ) * dT) (k * dT + alpha * dT) ⊆ Icc ((k : ℝ) * dT) (k * dT + alpha * dT) ∩ Iio ((k + 1) * dT) := by
          rintro t ⟨h1, h2⟩
          exact ⟨⟨h1, h2.le⟩, h2.trans_le hle⟩
        refine le_trans ?_ (measure_mono hsub)
        rw [Real.volume_Ico, add_sub_cancel_left]
    rw [Finset.sum_congr rfl hk, Finset.sum_const, Finset.card_range, nsmul_eq_mul, ← ENNReal.ofReal_natCast,
      ← ENNReal.ofReal_mul (Nat.cast_nonneg _)]
    congr 1; ring
  · intro i _ j _ hij
    have dis : ∀ a b : ℕ, a < b → Disjoint (Icc ((a : ℝ) * dT) (a * dT + alpha * dT) ∩ Iio ((a + 1) * dT))
        (Icc ((b : ℝ) * dT) (b * dT + alpha * dT) ∩ Iio ((b + 1) * dT)) := by
      intro a b hab
      rw [Set.disjoint_left]
      rintro t ⟨-, h1⟩ ⟨⟨h2, -⟩, -⟩
      have : ((a : ℝ) + 1) ≤ b := by exact_mod_cast hab
      have h3 := mul_le_mul_of_nonneg_right this hdp.le
      simp only [mem_Iio] at h1
      linarith
    rcases lt_or_gt_of_ne hij with h | h
    · exact dis i j h
    · exact (dis j i h).symm
  · intro k _
    exact measurableSet_Icc.inter measurableSet_Iio

/-- Three pulses of period 2, on during the first half: at 4.5 on, at 5 still on, at 5.25 off. -/
example : (∃ b, pulseOn (1 / 1000 : ℚ) 2 (1 / 2) (9 / 2) = some b ∧ (b = true ↔ (9 / 2 : ℚ) ≤ 2 * 2 + 1 / 2 * 2)) ∧
    (∃ b, pulseOn (1 / 1000 : ℚ) 2 (1 / 2) (21 / 4) = some b ∧ (b = true ↔ (21 / 4 : ℚ) ≤ 2 * 2 + 1 / 2 * 2)) := by
  constructor
  · exact pulse_on_iff (1 / 1000 : ℚ) 2 (1 / 2) (9 / 2) (by norm_num) (by norm_num) (by norm_num) 2 (by norm_num) (by norm_num) (by norm_num)
  · exact pulse_on_iff (1 / 1000 : ℚ) 2 (1 / 2) (21 / 4) (by norm_num) (by norm_num) (by norm_num) 2 (by norm_num) (by norm_num) (by norm_num)

example : MeasureTheory.volume {t : ℝ | 0 ≤ t ∧ t < (3 : ℕ) * 2 ∧ pulseOn (1 / 1000) 2 (1 / 2) t = some true} = ENNReal.ofReal 3 := by
  rw [pulse_total_partial (1 / 1000) 2 (1 / 2) (by norm_num) (by norm_num) (by norm_num) (by norm_num) 3 (by norm_num)]
  norm_num

end Xolotl.Flux
