import Verif.Util.Stepping
import Mathlib.Algebra.BigOperators.Group.Finset.Basic
import Mathlib.Algebra.BigOperators.Intervals
import Mathlib.Algebra.Order.BigOperators.Group.Finset
import Mathlib.Algebra.Order.Archimedean.Basic
import Mathlib.Algebra.Order.Field.Basic
import Mathlib.Tactic.Ring
import Mathlib.Tactic.Linarith
import Mathlib.Tactic.FieldSimp
import Mathlib.Tactic.NormNum

/-!
# C15 – C18: stepping in time
-/

set_option linter.unusedSectionVars false

namespace Xolotl.Util

variable {K : Type*} [Field K] [LinearOrder K] [IsStrictOrderedRing K]

theorem cmin_eq_min (a b : K) : cmin a b = min a b := by
  unfold cmin
  rcases lt_or_ge b a with h | h
  · rw [if_pos h, min_eq_right h.le]
  · rw [if_neg (not_lt.mpr h), min_eq_left h]

/-! ### C15 -/

namespace Stepper

variable (t : Stepper K)

theorem stateAt_seq (k : ℕ) : (t.stateAt k).seq = t.seq.stateAt k := by
  induction k with
  | zero => rfl
  | succ k ih => simp [stateAt, step, Sequence.stateAt, ih]

/-- **C15** The time at step `k` is the start time plus the sum of the first `k` step sizes, and the previous time is the time of the step before. -/
theorem time_eq (k : ℕ) :
    (t.stateAt k).cur = t.startTime + ∑ i ∈ Finset.range k, (t.seq.stateAt i).value ∧
    (t.stateAt (k + 1)).prev = (t.stateAt k).cur ∧ (t.stateAt 0).prev = t.startTime := by
  refine ⟨?_, rfl, rfl⟩
  induction k with
  | zero => simp [stateAt, start]
  | succ k ih =>
    rw [Finset.sum_range_succ, ← add_assoc, ← ih]
    simp [stateAt, step, stateAt_seq]

/-- **C15** Times strictly increase when the step sizes are positive. -/
theorem time_strictMono (h : ∀ i, 0 < (t.seq.stateAt i).value) :
    StrictMono fun k => (t.stateAt k).cur := by
  refine strictMono_nat_of_lt_succ fun k => ?_
  show (t.stateAt k).cur < (t.stateAt (k + 1)).cur
  simp only [stateAt, step, stateAt_seq]
  linarith [h k]

theorem valid_iff (s : StepperSt K) :
    t.valid s = true ↔ s.cur < t.endTime ∧ (t.maxSteps = 0 ∨ s.seq.step ≤ t.maxSteps) := by
  simp [valid]

/-- **C15** The loop terminates when the step sizes are bounded away from zero: there is a number of iterations `n`
such that all iterations before are run, with their time before the end time and step number within the maximum,
and the loop is left at `n`, where the end time is reached or the maximum number of steps exceeded. -/
theorem loop_terminates [Archimedean K] (δ : K) (hδ : 0 < δ)
    (h : ∀ i, δ ≤ (t.seq.stateAt i).value) :
    ∃ n, (∀ k < n, t.valid (t.stateAt k) = true) ∧ t.valid (t.stateAt n) = false ∧
      (t.endTime ≤ (t.stateAt n).cur ∨ (t.maxSteps ≠ 0 ∧ t.maxSteps < (t.stateAt n).seq.step)) := by
  classical
  have hex : ∃ n, t.valid (t.stateAt n) = false := by
    obtain ⟨n, hn⟩ := Archimedean.arch (t.endTime - t.startTime) hδ
    refine ⟨n, ?_⟩
    have h1 := (t.time_eq n).1
    have h2 : n • δ ≤ ∑ i ∈ Finset.range n, (t.seq.stateAt i).value := by
      have := Finset.card_nsmul_le_sum (Finset.range n) (fun i => (t.seq.stateAt i).value) δ
        fun i _ => h i
      simpa using this
    rw [Bool.eq_false_iff]
    intro hv
    have := ((t.valid_iff _).mp hv).1
    linarith
  refine ⟨Nat.find hex, fun k hk => ?_, Nat.find_spec hex, ?_⟩
  · have := Nat.find_min hex hk
    simpa using this
  · have h3 := Nat.find_spec hex
    by_contra hcon
    push Not at hcon
    have : t.valid (t.stateAt (Nat.find hex)) = true := by
      rw [valid_iff]
      refine ⟨hcon.1, ?_⟩
      by_cases h0 : t.maxSteps = 0
      · exact Or.inl h0
      · exact Or.inr (hcon.2 h0)
    rw [h3] at this
    exact Bool.noConfusion this

/-- With a maximum number of steps and a sequence counting from zero, at most `maxSteps + 1` iterations are run (the first one is at the start time). -/
theorem loop_bounded (hm : t.maxSteps ≠ 0) (hs : ∀ i, (t.seq.stateAt i).step = i) (n : ℕ)
    (h : ∀ k < n, t.valid (t.stateAt k) = true) : n ≤ t.maxSteps + 1 := by
  by_contra hn
  have := h (t.maxSteps + 1) (by omega)
  rw [valid_iff, stateAt_seq, hs] at this
  omega

end Stepper

/-! ### C16, C17 -/

namespace Growth

variable (g : Growth K)

theorem step_count (k : ℕ) : (g.seq.stateAt k).step = g.initialStep + k := by
  induction k with
  | zero => rfl
  | succ k ih =>
    show (g.seq.stateAt k).step + 1 = _
    rw [ih, add_assoc]

theorem value_succ (k : ℕ) :
    (g.seq.stateAt (k + 1)).value = min ((g.seq.stateAt k).value * g.gf) g.final := by
  show cmin _ _ = _
  rw [cmin_eq_min]

/-- **C17** Closed form of the stepped value when the first value does not exceed the final value. -/
theorem value_eq (h0 : 0 ≤ g.initial) (h1 : g.initial ≤ g.final) (hg : 0 ≤ g.gf) (k : ℕ) :
    (g.seq.stateAt k).value = min (g.initial * g.gf ^ k) g.final := by
  induction k with
  | zero =>
    show g.initial = _
    rw [pow_zero, mul_one, min_eq_left h1]
  | succ k ih =>
    rw [value_succ, ih]
    rcases le_total (1 : K) g.gf with hge | hle
    · rcases le_total (g.initial * g.gf ^ k) g.final with h2 | h2
      · rw [min_eq_left h2, pow_succ, mul_assoc]
      · rw [min_eq_right h2]
        have h3 : g.final ≤ g.final * g.gf := le_mul_of_one_le_right (h0.trans h1) hge
        have h4 : g.final ≤ g.initial * g.gf ^ (k + 1) := by
          rw [pow_succ, ← mul_assoc]
          exact h3.trans (mul_le_mul_of_nonneg_right h2 hg)
        rw [min_eq_right h3, min_eq_right h4]
    · have h2 : g.initial * g.gf ^ k ≤ g.final :=
        (mul_le_of_le_one_right h0 (pow_le_one₀ hg hle)).trans h1
      rw [min_eq_left h2, pow_succ, mul_assoc]

/-- **C16** A growing sequence is nondecreasing and never exceeds its final value. -/
theorem growth_bounds (h0 : 0 ≤ g.initial) (h1 : g.initial ≤ g.final) (hg : 1 ≤ g.gf) :
    (Monotone fun k => (g.seq.stateAt k).value) ∧
      ∀ k, g.initial ≤ (g.seq.stateAt k).value ∧ (g.seq.stateAt k).value ≤ g.final := by
  have hv := g.value_eq h0 h1 (zero_le_one.trans hg)
  have hmono : Monotone fun k => (g.seq.stateAt k).value := by
    refine monotone_nat_of_le_succ fun k => ?_
    show (g.seq.stateAt k).value ≤ (g.seq.stateAt (k + 1)).value
    rw [hv, hv]
    exact min_le_min_right _ (mul_le_mul_of_nonneg_left (pow_le_pow_right₀ hg (Nat.le_succ k)) h0)
  refine ⟨hmono, fun k => ⟨hmono (Nat.zero_le k), ?_⟩⟩
  rw [hv]
  exact min_le_right _ _

/-- **C16** With a growth factor above one and a positive first value, the final value is reached after finitely many steps and kept from then on. -/
theorem growth_reaches [Archimedean K] (h0 : 0 < g.initial) (h1 : g.initial ≤ g.final)
    (hg : 1 < g.gf) : ∃ n, ∀ k ≥ n, (g.seq.stateAt k).value = g.final := by
  obtain ⟨n, hn⟩ := pow_unbounded_of_one_lt (g.final / g.initial) hg
  refine ⟨n, fun k hk => ?_⟩
  rw [g.value_eq h0.le h1 (zero_le_one.trans hg.le), min_eq_right]
  rw [div_lt_iff₀ h0] at hn
  have h2 : g.gf ^ n ≤ g.gf ^ k := pow_le_pow_right₀ hg.le hk
  have h3 := mul_le_mul_of_nonneg_left h2 h0.le
  linarith [mul_comm (g.gf ^ n) g.initial]

/-- The growth factor may also be below one: then the sequence is nonincreasing and still positive. -/
theorem shrink_bounds (h0 : 0 < g.initial) (h1 : g.initial ≤ g.final) (hg : 0 < g.gf)
    (hg1 : g.gf ≤ 1) : (Antitone fun k => (g.seq.stateAt k).value) ∧
      ∀ k, 0 < (g.seq.stateAt k).value := by
  have hv := g.value_eq h0.le h1 hg.le
  refine ⟨antitone_nat_of_succ_le fun k => ?_, fun k => ?_⟩
  · show (g.seq.stateAt (k + 1)).value ≤ (g.seq.stateAt k).value
    rw [hv, hv]
    exact min_le_min_right _ (mul_le_mul_of_nonneg_left (pow_le_pow_of_le_one hg.le hg1
      (Nat.le_succ k)) h0.le)
  · rw [hv]
    exact lt_min (mul_pos h0 (pow_pos hg k)) (h0.trans_le h1)

/-- **C16 (negation for a first value above the final one)** The first value is not limited by the final value. -/
theorem growth_first_exceeds : ∃ g : Growth ℚ, 1 ≤ g.gf ∧ 0 < g.final ∧
    g.final < (g.seq.stateAt 0).value :=
  ⟨⟨2, 1, 1, 0⟩, by norm_num, by norm_num, by show (1 : ℚ) < 2; norm_num⟩

/-- **C15** The coupling loop with a growing sequence terminates. -/
theorem growth_loop_terminates [Archimedean K] (h0 : 0 < g.initial) (h1 : g.initial ≤ g.final)
    (hg : 1 ≤ g.gf) (t : Stepper K) (ht : t.seq = g.seq) :
    ∃ n, (∀ k < n, t.valid (t.stateAt k) = true) ∧ t.valid (t.stateAt n) = false := by
  obtain ⟨n, a, b, -⟩ := t.loop_terminates g.initial h0 fun i => by
    rw [ht]; exact ((g.growth_bounds h0.le h1 hg).2 i).1
  exact ⟨n, a, b⟩

/-- **C15 (negation for growth factors below one)** With growth factor 1/2 and no maximum number of steps the loop to end time 3 from 0 with
first step 1 never ends. -/
theorem shrinking_loop_diverges :
    let t : Stepper ℚ := ⟨(⟨1, 1, 1 / 2, 0⟩ : Growth ℚ).seq, 0, 0, 3⟩
    ∀ k, t.valid (t.stateAt k) = true := by
  intro t k
  have hv := (⟨1, 1, 1 / 2, 0⟩ : Growth ℚ).value_eq (by norm_num) (by norm_num) (by norm_num)
  have hsum : (t.stateAt k).cur = 2 - 2 * (1 / 2 : ℚ) ^ k := by
    rw [(t.time_eq k).1]
    induction k with
    | zero => norm_num [t]
    | succ k ih =>
      rw [Finset.sum_range_succ, ← add_assoc, ih]
      have : (t.seq.stateAt k).value = (1 / 2 : ℚ) ^ k := by
        show ((⟨1, 1, 1 / 2, 0⟩ : Growth ℚ).seq.stateAt k).value = _
        rw [hv k, one_mul, min_eq_left]
        exact pow_le_one₀ (by norm_num) (by norm_num)
      rw [this, pow_succ]
      ring
  rw [Stepper.valid_iff]
  refine ⟨?_, Or.inl rfl⟩
  rw [hsum]
  show (2 : ℚ) - 2 * (1 / 2) ^ k < 3
  have : (0 : ℚ) < (1 / 2) ^ k := by positivity
  linarith

theorem sumLoop_eq (n k : ℕ) (s : K) :
    (g.sumLoop n (s, (g.seq.stateAt k).value)).1 =
      s + ∑ i ∈ Finset.range n, (g.seq.stateAt (k + i)).value := by
  induction n generalizing k s with
  | zero => simp [sumLoop]
  | succ n ih =>
    have : cmin ((g.seq.stateAt k).value * g.gf) g.final = (g.seq.stateAt (k + 1)).value := rfl
    rw [sumLoop, this, ih, Finset.sum_range_succ', add_zero, add_assoc]
    congr 1
    rw [add_comm]
    congr 1
    exact Finset.sum_congr rfl fun i _ => by rw [show k + 1 + i = k + (i + 1) by omega]

/-- **C17** The partial sum reported for a step number is the sum of the sizes of the steps up to it, for restarted sequences too. -/
theorem partialSumAt_eq (k : ℕ) :
    g.partialSumAt (g.initialStep + k) = ∑ i ∈ Finset.range k, (g.seq.stateAt i).value := by
  have := g.sumLoop_eq k 0 0
  simp only [zero_add] at this
  rw [partialSumAt, show g.initialStep + k - g.initialStep = k by omega]
  exact this

/-- **C17** The time reported for a step number is the time at which the stepper has this step number. -/
theorem timeAtStep_eq (t : Stepper K) (ht : t.seq = g.seq) (k : ℕ) :
    t.startTime + g.partialSumAt (t.stateAt k).seq.step = (t.stateAt k).cur := by
  rw [(t.time_eq k).1, t.stateAt_seq, ht, step_count, partialSumAt_eq]

/-- **C17 (step sizes, partial)** The step size reported for a step number equals the stepped value for sequences that start at step zero with a first value not above the final value. Missing: sequences
with a nonzero initial step, see `at_ignores_initialStep`. -/
theorem valAt_partial (h0 : 0 ≤ g.initial) (h1 : g.initial ≤ g.final) (hg : 0 ≤ g.gf)
    (hi : g.initialStep = 0) (k : ℕ) :
    g.valAt (g.seq.stateAt k).step = (g.seq.stateAt k).value := by
  rw [step_count, hi, zero_add, g.value_eq h0 h1 hg, valAt, cmin_eq_min]

/-- The reported step size is also right for constant sequences. -/
theorem valAt_constant (h1 : g.initial ≤ g.final) (hg : g.gf = 1) (n k : ℕ) :
    g.valAt n = (g.seq.stateAt k).value := by
  have : ∀ k, (g.seq.stateAt k).value = g.initial := by
    intro k
    induction k with
    | zero => rfl
    | succ k ih => rw [value_succ, ih, hg, mul_one, min_eq_left h1]
  rw [this, valAt, cmin_eq_min, hg, one_pow, mul_one, min_eq_left h1]

/-- And for sequences that start at their final value. -/
theorem valAt_saturated (h0 : 0 ≤ g.final) (h1 : g.initial = g.final) (hg : 1 ≤ g.gf) (n k : ℕ) :
    g.valAt n = (g.seq.stateAt k).value := by
  have h2 : ∀ k, (g.seq.stateAt k).value = g.final := by
    intro k
    rw [g.value_eq (h1 ▸ h0) h1.le (zero_le_one.trans hg), h1, min_eq_right]
    exact le_mul_of_one_le_right h0 (one_le_pow₀ hg)
  rw [h2, valAt, cmin_eq_min, h1, min_eq_right]
  exact le_mul_of_one_le_right h0 (one_le_pow₀ hg)

/-- **C17 (negation)** `at` ignores the initial step: a sequence that starts at step 2 with value 1 and growth factor 2 reports 4 for step 2. -/
theorem at_ignores_initialStep :
    let g : Growth ℚ := ⟨1, 100, 2, 2⟩
    (g.seq.stateAt 0).step = 2 ∧ (g.seq.stateAt 0).value = 1 ∧ g.valAt 2 = 4 := by
  refine ⟨rfl, rfl, ?_⟩
  norm_num [valAt, cmin]

end Growth

namespace Ramp

theorem step_count (r : Ramp K) (k : ℕ) : (r.seq.stateAt k).step = k := by
  induction k with
  | zero => rfl
  | succ k ih =>
    show (r.step (r.seq.stateAt k)).step = _
    unfold step
    dsimp only
    split <;> simp [ih]

/-- **C16** A linear ramp with at least one step has the linearly interpolated value up to the number of ramp steps, where it has the final value, and is constant from then on. -/
theorem ramp_value (initial final : K) (n : ℕ) (hn : 0 < n) (k : ℕ) :
    ((make initial final n).seq.stateAt k).value =
      initial + (final - initial) * ((min k n : ℕ) : K) / n := by
  have hn' : (0 : K) < n := by exact_mod_cast hn
  induction k with
  | zero => simp [Sequence.stateAt, seq, start, make]
  | succ k ih =>
    show ((make initial final n).step _).value = _
    unfold step
    dsimp only
    rw [step_count]
    by_cases h : n < k + 1
    · have : ((k + 1 : ℕ) : K) > (make initial final n).rampSteps := by
        show (n : K) < _
        exact_mod_cast h
      rw [if_pos this, ih, Nat.min_eq_right (by omega : n ≤ k), Nat.min_eq_right h.le]
    · have : ¬ ((k + 1 : ℕ) : K) > (make initial final n).rampSteps := by
        show ¬ (n : K) < _
        exact_mod_cast h
      rw [if_neg this, Nat.min_eq_left (by omega : k + 1 ≤ n), mul_div_assoc]
      rfl

/-- **C16** The ramp is monotone from the initial to the final value, reaches it at the last ramp step and stays there. -/
theorem ramp_bounds (initial final : K) (n : ℕ) (hn : 0 < n) (hle : initial ≤ final) :
    (Monotone fun k => ((make initial final n).seq.stateAt k).value) ∧
    (∀ k, initial ≤ ((make initial final n).seq.stateAt k).value ∧
      ((make initial final n).seq.stateAt k).value ≤ final) ∧
    (∀ k ≥ n, ((make initial final n).seq.stateAt k).value = final) ∧
    ((make initial final n).seq.stateAt 0).value = initial := by
  have hn' : (0 : K) < n := by exact_mod_cast hn
  have hd : 0 ≤ final - initial := sub_nonneg.mpr hle
  have hmono : Monotone fun k => ((make initial final n).seq.stateAt k).value := by
    intro a b hab
    show ((make initial final n).seq.stateAt a).value ≤ ((make initial final n).seq.stateAt b).value
    rw [ramp_value _ _ _ hn, ramp_value _ _ _ hn]
    have : ((min a n : ℕ) : K) ≤ ((min b n : ℕ) : K) := by
      exact_mod_cast min_le_min_right n hab
    have h1 := mul_le_mul_of_nonneg_left this hd
    have h2 := div_le_div_of_nonneg_right h1 hn'.le
    linarith
  have hend : ∀ k ≥ n, ((make initial final n).seq.stateAt k).value = final := by
    intro k hk
    rw [ramp_value _ _ _ hn, Nat.min_eq_right hk, mul_div_assoc, div_self hn'.ne']
    ring
  refine ⟨hmono, fun k => ⟨hmono (Nat.zero_le k), ?_⟩, hend, rfl⟩
  exact (hmono (le_max_left k n)).trans_eq (hend (max k n) (le_max_right _ _))

/-- **C16** The same for a descending ramp. -/
theorem ramp_bounds_desc (initial final : K) (n : ℕ) (hn : 0 < n) (hle : final ≤ initial) :
    (Antitone fun k => ((make initial final n).seq.stateAt k).value) ∧
    (∀ k ≥ n, ((make initial final n).seq.stateAt k).value = final) := by
  have hn' : (0 : K) < n := by exact_mod_cast hn
  have hd : final - initial ≤ 0 := sub_nonpos.mpr hle
  refine ⟨fun a b hab => ?_, fun k hk => ?_⟩
  · show ((make initial final n).seq.stateAt b).value ≤ ((make initial final n).seq.stateAt a).value
    rw [ramp_value _ _ _ hn, ramp_value _ _ _ hn]
    have : ((min a n : ℕ) : K) ≤ ((min b n : ℕ) : K) := by
      exact_mod_cast min_le_min_right n hab
    have h1 := mul_le_mul_of_nonpos_left this hd
    have h2 := div_le_div_of_nonneg_right h1 hn'.le
    linarith
  · rw [ramp_value _ _ _ hn, Nat.min_eq_right hk, mul_div_assoc, div_self hn'.ne']
    ring

/-- **C16 (negation for zero ramp steps)** A ramp of zero steps keeps the initial value forever. -/
theorem ramp_zero_steps (initial final : K) (k : ℕ) :
    ((make initial final 0).seq.stateAt k).value = initial := by
  induction k with
  | zero => rfl
  | succ k ih =>
    show ((make initial final 0).step _).value = _
    unfold step
    dsimp only
    rw [if_pos, ih]
    show ((0 : ℕ) : K) < _
    exact_mod_cast Nat.succ_pos _

end Ramp

/-! ### C18 -/

namespace Leg

variable (o : RunOpts K)

/-- Two legs follow the same schedule, iteration `k` of the second being iteration `n + k` of the first. -/
def Continues (l l' : Leg K) (n : ℕ) : Prop := ∀ k, l'.schedule o k = l.schedule o (n + k)

/-- State of the stepper of a leg by number of steps. -/
theorem iter_seq (l : Leg K) (k : ℕ) : (l.iter o k).seq =
    l.growth.seq.stateAt (k + if l.restarting then 1 else 0) :=
  Stepper.stateAt_seq _ _

/-- If the reported step size of the last completed step is right, restarting continues the schedule. -/
theorem restart_of_valAt (l : Leg K) (n m : ℕ)
    (hm : (n + if l.restarting then 1 else 0) = m + 1)
    (hgf : l.growth.gf = o.gf) (hfin : l.growth.final = o.maxDt)
    (hat : l.growth.valAt (l.growth.seq.stateAt m).step = (l.growth.seq.stateAt m).value) :
    Continues o l (l.restartAt o n) n := by
  have hstep : (l.iter o n).seq.step - 1 = l.growth.initialStep + m := by
    rw [iter_seq, hm, Growth.step_count]; omega
  have hst : l.stop o n = ⟨l.growth.initialStep + m, (l.stepper o).stateAt m |>.cur,
      (l.growth.seq.stateAt m).value⟩ := by
    unfold stop
    dsimp only
    rw [hstep]
    have h1 := l.growth.timeAtStep_eq (l.stepper o) rfl m
    rw [Stepper.stateAt_seq] at h1
    have h2 : ((l.stepper o).seq.stateAt m).step = l.growth.initialStep + m :=
      l.growth.step_count m
    rw [h2] at h1
    rw [Growth.step_count] at hat
    rw [hat, ← h1]
    rfl
  set l' := l.restartAt o n with hl'
  have hg' : l'.growth = ⟨(l.growth.seq.stateAt m).value, o.maxDt, o.gf, l.growth.initialStep + m⟩ := by
    rw [hl', restartAt, hst]; rfl
  have ht' : l'.startTime = ((l.stepper o).stateAt m).cur := by
    rw [hl', restartAt, hst]; rfl
  have hstates : ∀ k, l'.growth.seq.stateAt k = l.growth.seq.stateAt (m + k) := by
    intro k
    induction k with
    | zero =>
      show l'.growth.start = _
      rw [hg']
      show (⟨_, _⟩ : SeqSt K) = _
      rw [← Growth.step_count]
      rfl
    | succ k ih =>
      show l'.growth.step (l'.growth.seq.stateAt k) = l.growth.step (l.growth.seq.stateAt (m + k))
      rw [ih, hg']
      unfold Growth.step
      rw [hgf, hfin]
  have hcur : ∀ k, ((l'.stepper o).stateAt (k + 1)).cur = ((l.stepper o).stateAt (m + k + 1)).cur ∧
      ((l'.stepper o).stateAt (k + 1)).prev = ((l.stepper o).stateAt (m + k + 1)).prev := by
    have hc : ∀ k, ((l'.stepper o).stateAt k).cur = ((l.stepper o).stateAt (m + k)).cur := by
      intro k
      induction k with
      | zero => exact ht'
      | succ k ih =>
        show ((l'.stepper o).stateAt k).cur + ((l'.stepper o).stateAt k).seq.value =
          ((l.stepper o).stateAt (m + k)).cur + ((l.stepper o).stateAt (m + k)).seq.value
        rw [ih, Stepper.stateAt_seq, Stepper.stateAt_seq]
        show _ + (l'.growth.seq.stateAt k).value = _ + (l.growth.seq.stateAt (m + k)).value
        rw [hstates]
    exact fun k => ⟨hc (k + 1), hc k⟩
  intro k
  have hr : l'.restarting = true := by rw [hl']; rfl
  have e : n + k + (if l.restarting then 1 else 0) = m + k + 1 := by omega
  have hq : (l'.iter o k).seq = (l.iter o (n + k)).seq := by
    rw [iter_seq, iter_seq, hr, e, if_pos rfl, hstates]
    rfl
  have hc : (l'.iter o k).cur = (l.iter o (n + k)).cur ∧ (l'.iter o k).prev = (l.iter o (n + k)).prev := by
    unfold iter
    rw [e, hr, if_pos rfl]
    exact hcur k
  unfold schedule
  rw [hq, hc.1, hc.2]

/-- **C18 (partial)** A run that was never restarted, stopped after any number of completed steps, and restarted continues with the same step numbers, times and step
sizes. Missing: further restarts of the restarted run, see `second_restart_differs`. -/
theorem restart_once_partial (start initDt : K) (h0 : 0 ≤ initDt) (h1 : initDt ≤ o.maxDt) (hg : 0 ≤ o.gf)
    (n : ℕ) (hn : 0 < n) :
    Continues o (freshLeg o start initDt) ((freshLeg o start initDt).restartAt o n) n := by
  obtain ⟨m, rfl⟩ := Nat.exists_eq_succ_of_ne_zero hn.ne'
  exact restart_of_valAt o _ _ m (by simp [freshLeg]) rfl rfl
    (Growth.valAt_partial _ h0 h1 hg rfl m)

/-- Any number of successive restarts, each leg being left after the given number of iterations. -/
def restarts (l : Leg K) : List ℕ → Leg K
  | [] => l
  | n :: ns => restarts (l.restartAt o n) ns

/-- **C18 (partial)** Any number of successive restarts continues the original schedule when the step size no longer changes: constant step size, or first restart after
the maximum step size was reached. -/
theorem restart_repeated_partial (start initDt : K) (h0 : 0 ≤ initDt) (h1 : initDt ≤ o.maxDt) (hg : 0 ≤ o.gf) (n : ℕ)
    (hn : 0 < n)
    (hconst : o.gf = 1 ∨ (1 ≤ o.gf ∧ ((freshLeg o start initDt).iter o (n - 1)).seq.value = o.maxDt))
    (ns : List ℕ) :
    Continues o (freshLeg o start initDt) (restarts o (freshLeg o start initDt) (n :: ns)) ((n :: ns).sum) := by
  have hval : ∀ g : Growth K, g.gf = o.gf → g.final = o.maxDt → g.initial ≤ o.maxDt →
      (o.gf = 1 ∨ (1 ≤ o.gf ∧ g.initial = o.maxDt)) → ∀ i k, g.valAt i = (g.seq.stateAt k).value := by
    intro g e1 e2 e3 e4 i k
    rcases e4 with e4 | ⟨e4, e5⟩
    · exact g.valAt_constant (by rw [e2]; exact e3) (by rw [e1, e4]) i k
    · exact g.valAt_saturated (by rw [e2]; exact h0.trans h1) (by rw [e5, e2]) (by rw [e1]; exact e4) i k
  have key : ∀ (ns : List ℕ) (l : Leg K), l.restarting = true → l.growth.gf = o.gf →
      l.growth.final = o.maxDt → l.growth.initial ≤ o.maxDt →
      (o.gf = 1 ∨ (1 ≤ o.gf ∧ l.growth.initial = o.maxDt)) →
      Continues o l (restarts o l ns) ns.sum := by
    intro ns
    induction ns with
    | nil => intro l _ _ _ _ _ k; simp [restarts]
    | cons n ns ih =>
      intro l hr hg hf hi hs
      have hc : Continues o l (l.restartAt o n) n :=
        restart_of_valAt o l n n (by rw [hr]; rfl) hg hf (hval _ hg hf hi hs _ _)
      have hinit : (l.restartAt o n).growth.initial = l.growth.initial := by
        show l.growth.valAt _ = _
        rw [hval _ hg hf hi hs _ 0]
        rfl
      have h2 := ih (l.restartAt o n) rfl rfl rfl (by rw [hinit]; exact hi) (by rw [hinit]; exact hs)
      intro k
      show (restarts o (l.restartAt o n) ns).schedule o k = _
      rw [h2 k, hc, List.sum_cons, add_assoc]
  have hfirst := restart_once_partial o start initDt h0 h1 hg n hn
  obtain ⟨m, rfl⟩ := Nat.exists_eq_succ_of_ne_zero hn.ne'
  have hinit : ((freshLeg o start initDt).restartAt o (m + 1)).growth.initial =
      ((freshLeg o start initDt).growth.seq.stateAt m).value := by
    show (freshLeg o start initDt).growth.valAt _ = _
    rw [← Growth.valAt_partial _ h0 h1 hg rfl m]
    congr 1
    rw [iter_seq, Growth.step_count, Growth.step_count]
    simp [freshLeg]
  have h2 := key ns ((freshLeg o start initDt).restartAt o (m + 1)) rfl rfl rfl (by
    rw [hinit, Growth.value_eq _ h0 h1 hg]
    exact min_le_right _ _) (by
    rw [hinit]
    rw [iter_seq] at hconst
    exact hconst)
  intro k
  show (restarts o ((freshLeg o start initDt).restartAt o (m + 1)) ns).schedule o k = _
  rw [h2 k, hfirst, List.sum_cons, add_assoc]

/-- **C18 (negation)** With growth factor 2 and first step 1 (maximum 1000), the run stopped after 2 iterations, restarted, stopped after 1 more iteration and restarted again
takes a step of size 8 from time 3 to 11 where the uninterrupted run takes one of size 4 from 3 to 7. -/
theorem second_restart_differs :
    let o : RunOpts ℚ := ⟨1000, 2, 100, 0⟩
    let l := freshLeg o 0 1
    let l2 := restarts o l [2, 1]
    l.schedule o 3 = (3, 3, 7, 8) ∧ l2.schedule o 0 = (3, 3, 11, 16) := by
  decide +kernel

/-- Non-vacuity of `restart_once_partial`. -/
example : let o : RunOpts ℚ := ⟨5, 2, 100, 0⟩
    let l := freshLeg o 0 1
    l.schedule o 3 = (3, 3, 7, 5) ∧ (l.restartAt o 2).schedule o 1 = (3, 3, 7, 5) := by
  decide +kernel

end Leg

/-- Non-vacuity of the termination theorem: four iterations at times 0, 1, 3, 7, left at 12. -/
example : let t : Stepper ℚ := ⟨(⟨1, 5, 2, 0⟩ : Growth ℚ).seq, 0, 0, 10⟩
    (∀ k < 4, t.valid (t.stateAt k) = true) ∧ t.valid (t.stateAt 4) = false ∧
      (t.stateAt 4).cur = 12 := by decide +kernel

end Xolotl.Util
