import Verif.Solver.Stride
import Mathlib.Tactic.Linarith
import Mathlib.Tactic.NormNum
import Mathlib.Tactic.FieldSimp
import Mathlib.Tactic.Positivity
import Mathlib.Tactic.Ring

/-!
# C56: checkpoints are written once per stride
-/

set_option linter.unusedSectionVars false

namespace Xolotl.Solver.Stride

variable {K : Type*} [Field K] [LinearOrder K] [IsStrictOrderedRing K] [FloorRing K]

theorem trunc_nonneg (x : K) (h : 0 ≤ x) : trunc x = ⌊x⌋ := if_pos h

/-- A step is written exactly when the time, moved on by a tenth of the step, has reached one more multiple of the stride than checkpoints were written. -/
theorem step_spec (stride : K) (st : St K) (time : K) (hs : 0 < stride) (ht : 0 < time) (hp : st.previous ≤ time) :
    ∃ st' w, step stride st time = some (st', w) ∧ st'.previous = time ∧
      (w = true ↔ ((st.count + 1 : ℤ) : K) * stride ≤ time + (time - st.previous) / 10) ∧
      st'.count = if w then st.count + 1 else st.count := by
  have hx : 0 ≤ (time + (time - st.previous) / 10) / stride := by
    have : 0 ≤ time - st.previous := by linarith
    positivity
  have key : reached stride st.previous time > st.count ↔ ((st.count + 1 : ℤ) : K) * stride ≤ time + (time - st.previous) / 10 := by
    rw [reached, trunc_nonneg _ hx, gt_iff_lt, ← Int.add_one_le_iff, Int.le_floor, le_div_iff₀ hs]
  unfold step
  rw [if_neg hs.ne']
  by_cases c : reached stride st.previous time ≤ st.count
  · rw [if_pos ⟨c, ht⟩]
    refine ⟨_, _, rfl, rfl, ?_, rfl⟩
    rw [← key]
    simp [not_lt.mpr c]
  · rw [if_neg fun q => c q.1]
    have c' : reached stride st.previous time > st.count := not_le.mp c
    refine ⟨_, _, rfl, rfl, ?_, ?_⟩
    · rw [← key]; simp [c']
    · simp [c']

/-- The times of a run: increasing, with no step longer than `d`. -/
def Steps (d : K) : K → List K → Prop
  | _, [] => True
  | p, t :: ts => p < t ∧ t - p ≤ d ∧ Steps d t ts

/-- **C56, one checkpoint per stride.** Start at a time before the next multiple of the stride.  With steps no longer than the stride, checkpoint number `k` is written in the first step that ends, a tenth of the step added, at `k` times the stride or later: never more than a tenth of the step early, and less than a step late.  The list gives for each step the multiple it has to reach. -/
theorem run_window (stride : K) (hs : 0 < stride) : ∀ (ts : List K) (st : St K), 0 ≤ st.previous → Steps stride st.previous ts →
    st.previous < ((st.count + 1 : ℤ) : K) * stride →
    ∃ st' ws, run stride st ts = some (st', ws) ∧ ws.length = ts.length ∧ st'.count = st.count + (ws.count true : ℤ) ∧
      st'.previous = (st.previous :: ts).getLast (by simp) ∧ st'.previous < ((st'.count + 1 : ℤ) : K) * stride ∧
      ∀ i (hi : i < ts.length) (hw : i < ws.length),
        let p := (st.previous :: ts)[i]'(by simp; omega)
        let k : ℤ := st.count + ((ws.take i).count true : ℤ) + 1
        (ws[i] = true → (k : K) * stride - (ts[i] - p) / 10 ≤ ts[i] ∧ ts[i] < (k : K) * stride + (ts[i] - p)) ∧
        (ws[i] = false → ts[i] + (ts[i] - p) / 10 < (k : K) * stride) := by
  intro ts
  induction ts with
  | nil =>
    intro st h0 _ hlt
    exact ⟨st, [], rfl, rfl, by simp, rfl, hlt, fun i hi => absurd hi (by simp)⟩
  | cons t ts ih =>
    intro st h0 hst hlt
    obtain ⟨hp, hd, hrest⟩ := hst
    have ht : 0 < t := lt_of_le_of_lt h0 hp
    obtain ⟨st1, w, e1, hprev, hw, hcount⟩ := step_spec stride st t hs ht hp.le
    have next : st1.previous < ((st1.count + 1 : ℤ) : K) * stride := by
      rw [hprev, hcount]
      cases w with
      | true =>
        push_cast at hlt
        simp only [if_true]
        push_cast
        linarith
      | false =>
        have := mt hw.mpr (by simp)
        push Not at this
        have : (0 : K) ≤ (t - st.previous) / 10 := by
          have : 0 ≤ t - st.previous := by linarith
          positivity
        simp only [Bool.false_eq_true, if_false]
        linarith
    obtain ⟨st2, ws, e2, hl, hc, hlast, hfin, hall⟩ := ih st1 (by rw [hprev]; exact ht.le) (by rw [hprev]; exact hrest) next
    refine ⟨st2, w :: ws, ?_, by simp [hl], ?_, ?_, hfin, ?_⟩
    · rw [run, e1]; simp [e2]
    · rw [hc, hcount]; cases w <;> simp; ring
    · rw [hlast]; simp [hprev]
    · intro i hi hwi
      cases i with
      | zero =>
        simp only [List.getElem_cons_zero, List.take_zero, List.count_nil, Nat.cast_zero, add_zero]
        constructor
        · intro q
          have q := hw.mp q
          push_cast at q hlt ⊢
          constructor <;> linarith
        · intro q
          have : ¬ w = true := by simp [q]
          have := mt hw.mpr this
          push Not at this
          exact this
      | succ i =>
        have := hall i (by simpa using hi) (by simpa using hwi)
        have ek : st.count + (((w :: ws).take (i + 1)).count true : ℤ) + 1 = st1.count + ((ws.take i).count true : ℤ) + 1 := by
          rw [hcount]; cases w <;> simp [List.take_succ_cons]; ring
        simp only [List.getElem_cons_succ]
        rw [ek]
        have ep : ((st1.previous :: ts)[i]'(by simp at hi ⊢; omega)) = (t :: ts)[i]'(by simp at hi ⊢; omega) := by
          cases i <;> simp [hprev]
        simp only [ep] at this
        exact this

/-- The count never runs ahead by more than the tenth of a step. -/
theorem run_lower (stride : K) (hs : 0 < stride) : ∀ (ts : List K) (st : St K), 0 ≤ st.previous → Steps stride st.previous ts →
    (st.count : K) * stride ≤ st.previous + stride / 10 → ∀ st' ws, run stride st ts = some (st', ws) →
    (st'.count : K) * stride ≤ st'.previous + stride / 10 := by
  intro ts
  induction ts with
  | nil => intro st _ _ h st' ws e; cases e; exact h
  | cons t ts ih =>
    intro st h0 ⟨hp, hd, hrest⟩ h st' ws e
    obtain ⟨st1, w, e1, hprev, hw, hcount⟩ := step_spec stride st t hs (lt_of_le_of_lt h0 hp) hp.le
    rw [run, e1] at e
    simp only [Option.bind_eq_bind, Option.bind_some] at e
    cases e2 : run stride st1 ts with
    | none => rw [e2] at e; cases e
    | some r =>
      rw [e2] at e
      cases e
      refine ih st1 (by rw [hprev]; linarith) (by rw [hprev]; exact hrest) ?_ r.1 r.2 e2
      rw [hcount, hprev]
      cases w with
      | true =>
        have := hw.mp rfl
        simp only [if_true]
        linarith
      | false => simp only [Bool.false_eq_true, if_false]; linarith

/-- **C56, number of checkpoints.** After a run that began at time 0, with steps no longer than the stride, the number of checkpoints is the number of multiples of the stride up to the last time, or one more if the next multiple is less than a tenth of the stride away. -/
theorem run_count (stride : K) (hs : 0 < stride) (ts : List K) (h : Steps stride 0 ts) :
    ∃ st' ws, run stride fresh ts = some (st', ws) ∧ st'.previous = ((0 : K) :: ts).getLast (by simp) ∧
      let last := ((0 : K) :: ts).getLast (by simp)
      (ws.count true : ℤ) = ⌊last / stride⌋ ∨ ((ws.count true : ℤ) = ⌊last / stride⌋ + 1 ∧ (⌊last / stride⌋ + 1) * stride - stride / 10 ≤ last) := by
  obtain ⟨st', ws, e, _, hc, hlast, hlt, _⟩ := run_window stride hs ts fresh le_rfl h (by simp [fresh, hs])
  have hlow := run_lower stride hs ts fresh le_rfl h (by simp [fresh]; positivity) st' ws e
  refine ⟨st', ws, e, hlast, ?_⟩
  have hc' : (ws.count true : ℤ) = st'.count := by rw [hc]; simp [fresh]
  simp only
  rw [hc']
  have hlast' : st'.previous = ((0 : K) :: ts).getLast (by simp) := hlast
  rw [← hlast']
  have h1 : ⌊st'.previous / stride⌋ < st'.count + 1 := by rw [Int.floor_lt, div_lt_iff₀ hs]; exact hlt
  have h2 : st'.count - 1 ≤ ⌊st'.previous / stride⌋ := by
    rw [Int.le_floor, le_div_iff₀ hs]
    push_cast
    nlinarith
  rcases eq_or_ne st'.count ⌊st'.previous / stride⌋ with q | q
  · exact .inl q
  · right
    have q' : st'.count = ⌊st'.previous / stride⌋ + 1 := by omega
    refine ⟨q', ?_⟩
    have : ((⌊st'.previous / stride⌋ + 1 : ℤ) : K) = st'.count := by rw [q']
    push_cast at this
    rw [this]
    linarith

/-- **C56, long steps.** Steps as long as the stride are all written. -/
theorem every_step (stride : K) (hs : 0 < stride) : ∀ (ts : List K) (st : St K), 0 ≤ st.previous → (st.count : K) * stride ≤ st.previous →
    (∀ i (hi : i < ts.length), stride ≤ ts[i] - (st.previous :: ts)[i]'(by simp; omega)) →
    ∃ st' ws, run stride st ts = some (st', ws) ∧ ws = List.replicate ts.length true := by
  intro ts
  induction ts with
  | nil => intro st _ _ _; exact ⟨st, [], rfl, rfl⟩
  | cons t ts ih =>
    intro st h0 hc h
    have h1 : stride ≤ t - st.previous := h 0 (by simp)
    have ht : 0 < t := by linarith
    obtain ⟨st1, w, e1, hprev, hw, hcount⟩ := step_spec stride st t hs ht (by linarith)
    have wt : w = true := by
      rw [hw]; push_cast
      linarith
    subst wt
    obtain ⟨st2, ws, e2, rfl⟩ := ih st1 (by rw [hprev]; exact ht.le) (by
      rw [hcount, hprev]; simp only [if_true]; push_cast; linarith) (by
      intro i hi
      have := h (i + 1) (by simpa using hi)
      cases i with
      | zero => simpa [hprev] using this
      | succ i => simpa using this)
    refine ⟨st2, true :: List.replicate ts.length true, ?_, by simp [List.replicate_succ]⟩
    rw [run, e1]; simp [e2]

/-- **C56 fails after a long step.** The count goes up by one per step, whatever the step has passed: after a step over several multiples every following step is written, however short, until the count has caught up. -/
theorem backlog (stride : K) (hs : 0 < stride) : ∀ (ts : List K) (st : St K), 0 < st.previous →
    (∀ i (hi : i < ts.length), (st.previous :: ts)[i]'(by simp; omega) ≤ ts[i]) →
    ((st.count : K) + ts.length) * stride ≤ st.previous →
    ∃ st' ws, run stride st ts = some (st', ws) ∧ ws = List.replicate ts.length true := by
  intro ts
  induction ts with
  | nil => intro st _ _ _; exact ⟨st, [], rfl, rfl⟩
  | cons t ts ih =>
    intro st h0 h hb
    have h1 : st.previous ≤ t := h 0 (by simp)
    obtain ⟨st1, w, e1, hprev, hw, hcount⟩ := step_spec stride st t hs (h0.trans_le h1) h1
    have hn : (0 : K) ≤ ts.length := Nat.cast_nonneg _
    have wt : w = true := by
      rw [hw]
      simp only [List.length_cons] at hb
      push_cast at hb ⊢
      nlinarith
    subst wt
    obtain ⟨st2, ws, e2, rfl⟩ := ih st1 (by rw [hprev]; exact h0.trans_le h1) (by
      intro i hi
      have := h (i + 1) (by simpa using hi)
      cases i with
      | zero => simpa [hprev] using this
      | succ i => simpa using this) (by
      rw [hcount, hprev]
      simp only [List.length_cons] at hb
      simp only [if_true]; push_cast at hb ⊢
      linarith)
    refine ⟨st2, true :: List.replicate ts.length true, ?_, by simp [List.replicate_succ]⟩
    rw [run, e1]; simp [e2]

/-- **C56 fails after the surface moved.** The count starts at 0 again: from time `T` on every step is written, however short, until there are as many new checkpoints as multiples of the stride up to `T`. -/
theorem move_backlog (stride : K) (hs : 0 < stride) (st : St K) (ts : List K) (h0 : 0 < st.previous)
    (h : ∀ i (hi : i < ts.length), (st.previous :: ts)[i]'(by simp; omega) ≤ ts[i]) (hn : (ts.length : K) * stride ≤ st.previous) :
    ∃ st' ws, run stride (moved st) ts = some (st', ws) ∧ ws = List.replicate ts.length true :=
  backlog stride hs ts (moved st) h0 h (by simpa [moved] using hn)

example : run (1 : ℚ) (moved ⟨3, 3⟩) [3, 3 + 1 / 100, 3 + 2 / 100] = some (⟨3 + 2 / 100, 3⟩, [true, true, true]) ∧
    run (1 : ℚ) ⟨3, 3⟩ [3, 3 + 1 / 100, 3 + 2 / 100] = some (⟨3 + 2 / 100, 3⟩, [false, false, false]) := by decide +kernel

/-- The first call, at time 0, is written and not counted. -/
theorem first_step (stride : K) (hs : 0 < stride) : step stride (fresh : St K) 0 = some (fresh, true) := by
  unfold step
  rw [if_neg hs.ne', if_neg (by simp)]
  simp [reached, fresh, trunc]

/-- **C56, restart.** When the checkpointed step did not begin in the tenth of a step before an early checkpoint, the restarted run has the count of the original one, hence writes the same checkpoints. -/
theorem restart_same (stride : K) (hs : 0 < stride) (st : St K) (h0 : 0 ≤ st.previous) (h1 : (st.count : K) * stride ≤ st.previous)
    (h2 : st.previous < ((st.count + 1 : ℤ) : K) * stride) (ts : List K) : run stride (restart stride st.previous) ts = run stride st ts := by
  have : restart stride st.previous = st := by
    have e : trunc (st.previous / stride) = st.count := by
      rw [trunc_nonneg _ (by positivity), Int.floor_eq_iff, le_div_iff₀ hs, div_lt_iff₀ hs]
      push_cast at h2
      exact ⟨h1, h2⟩
    cases st
    simp only [restart, St.mk.injEq, true_and]
    exact e
  rw [this]

/-- In a run from time 0 with steps no longer than the stride, the restarted count is the original one or one less. -/
theorem restart_count (stride : K) (hs : 0 < stride) (ts : List K) (h : Steps stride 0 ts) (st : St K) (ws : List Bool)
    (e : run stride fresh ts = some (st, ws)) (h0 : 0 ≤ st.previous) :
    (restart stride st.previous).count = st.count ∨ (restart stride st.previous).count = st.count - 1 := by
  obtain ⟨st', ws', e', _, _, _, hlt, _⟩ := run_window stride hs ts fresh le_rfl h (by simp [fresh, hs])
  rw [e] at e'
  cases e'
  have hlow := run_lower stride hs ts fresh le_rfl h (by simp [fresh]; positivity) st ws e
  simp only [restart]
  rw [trunc_nonneg _ (by positivity)]
  have h1 : ⌊st.previous / stride⌋ < st.count + 1 := by rw [Int.floor_lt, div_lt_iff₀ hs]; exact hlt
  have h2 : st.count - 1 ≤ ⌊st.previous / stride⌋ := by
    rw [Int.le_floor, le_div_iff₀ hs]
    push_cast
    nlinarith
  omega

/-- **C56 fails for a restart after an early checkpoint.** Stride 10; steps to 9.5 (written early, a tenth of the step added), 19.5 (written) and 20.  The original run does not write at 20, the run restarted from the checkpoint of 19.5 does. -/
theorem restart_extra : run (10 : ℚ) fresh [19 / 2, 39 / 2, 20] = some (⟨20, 2⟩, [true, true, false]) ∧
    run (10 : ℚ) (restart 10 (19 / 2)) [39 / 2, 20] = some (⟨20, 2⟩, [true, true]) := by decide +kernel

/-- **C56 fails for a stride of 0.** -/
theorem zero_stride (st : St K) (t : K) : step 0 st t = none := if_pos rfl

/-! ## Examples -/

example : Steps (10 : ℚ) 0 [4, 8, 12, 22, 25] ∧ run (10 : ℚ) fresh [4, 8, 12, 22, 25] = some (⟨25, 2⟩, [false, false, true, true, false]) := by
  constructor
  · norm_num [Steps]
  · decide +kernel

/-- One step over five multiples, then every short step is written. -/
example : run (1 : ℚ) fresh [5, 51 / 10, 52 / 10, 53 / 10, 54 / 10, 55 / 10] = some (⟨55 / 10, 5⟩, [true, true, true, true, true, false]) := by decide +kernel

end Xolotl.Solver.Stride
