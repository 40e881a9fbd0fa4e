import Verif.Perf.Timer
import Mathlib.Tactic.Ring
import Mathlib.Tactic.NormNum

/-!
# Properties of timers
-/

namespace Xolotl.Perf.Timers

/-- The history as an observer keeps it: when the interval under way began, if any, and the intervals completed and the values added since the last accepted reset. -/
structure Ledger where
  since : Option ℤ
  done : List (ℤ × ℤ)
  added : List ℚ

/-- A call as the observer sees it. -/
def Ledger.note (l : Ledger) : Op → Ledger
  | .start now => match l.since with | none => { l with since := some now } | some _ => l
  | .stop now => match l.since with | none => l | some b => { l with since := none, done := l.done ++ [(b, now)] }
  | .reset => match l.since with | none => ⟨none, [], []⟩ | some _ => l
  | .add v => { l with added := l.added ++ [v] }

/-- The history after a sequence of calls. -/
def ledger (ops : List Op) : Ledger := ops.foldl Ledger.note ⟨none, [], []⟩

/-- Length of an interval in seconds. -/
def seconds (hz : ℚ) (i : ℤ × ℤ) : ℚ := ((i.2 : ℚ) - i.1) / hz

/-- The readings of the clock in a sequence of calls. -/
def readings (ops : List Op) : List ℤ := ops.filterMap fun | .start now => some now | .stop now => some now | _ => none

/-- The timer and the history fit. -/
def Fits (hz : ℚ) (t : Timer) (l : Ledger) : Prop :=
  t.val = (l.done.map (seconds hz)).sum + l.added.sum ∧ t.startTime = l.since.getD invalid ∧ l.since ≠ some invalid

theorem fits_call {hz : ℚ} {t : Timer} {l : Ledger} (h : Fits hz t l) (o : Op) (ho : invalid ∉ readings [o]) :
    Fits hz (call hz t o).1 (l.note o) := by
  obtain ⟨h1, h2, h3⟩ := h
  have hr : t.running = l.since.isSome := by
    unfold Timer.running
    rw [h2]
    cases hs : l.since with
    | none => simp
    | some b =>
      have : b ≠ invalid := fun e => h3 (by rw [hs, e])
      simp [this]
  cases o with
  | start now =>
    have hn : now ≠ invalid := fun e => ho (by simp [readings, e])
    unfold call Timer.start
    cases hs : l.since with
    | none =>
      rw [hr, hs]
      simp only [Ledger.note, hs]
      exact ⟨h1, rfl, fun e => hn (Option.some.inj e)⟩
    | some b =>
      rw [hr, hs]
      simp only [Ledger.note, hs]
      exact ⟨h1, h2, h3⟩
  | stop now =>
    unfold call Timer.stop
    cases hs : l.since with
    | none =>
      rw [hr, hs]
      simp only [Ledger.note, hs]
      exact ⟨h1, h2, h3⟩
    | some b =>
      rw [hr, hs]
      simp only [Ledger.note, hs]
      refine ⟨?_, rfl, fun e => by cases e⟩
      have hb : t.startTime = b := by rw [h2, hs]; rfl
      simp only [Option.isSome_some, if_true, List.map_append, List.map_cons, List.map_nil, List.sum_append, List.sum_cons, List.sum_nil, seconds]
      rw [h1, hb]
      push_cast
      ring
  | reset =>
    unfold call Timer.reset
    cases hs : l.since with
    | none =>
      rw [hr, hs]
      simp only [Ledger.note, hs]
      refine ⟨by simp, ?_, fun e => by cases e⟩
      show t.startTime = _
      rw [h2, hs]
    | some b =>
      rw [hr, hs]
      simp only [Ledger.note, hs]
      exact ⟨h1, h2, h3⟩
  | add v =>
    refine ⟨?_, h2, h3⟩
    show t.val + v = _
    rw [h1]
    simp only [Ledger.note, List.sum_append, List.sum_cons, List.sum_nil]
    ring

theorem fits_run {hz : ℚ} (ops : List Op) {t : Timer} {l : Ledger} (h : Fits hz t l) (ho : invalid ∉ readings ops) :
    Fits hz (ops.foldl (fun t o => (call hz t o).1) t) (ops.foldl Ledger.note l) := by
  induction ops generalizing t l with
  | nil => exact h
  | cons o ops ih =>
    refine ih (fits_call h o ?_) ?_
    · intro hm
      refine ho ?_
      unfold readings at hm ⊢
      rw [List.filterMap_cons]
      cases o <;> simp_all
    · intro hm
      refine ho ?_
      unfold readings at hm ⊢
      rw [List.filterMap_cons]
      cases o <;> simp_all

/-- **The value of a timer** is the sum of the lengths of the intervals completed since the last accepted reset and of the values added since then, whatever calls were made; it is running exactly if an interval is under way.  The clock must not read exactly the epoch. -/
theorem run_value (hz : ℚ) (ops : List Op) (ho : invalid ∉ readings ops) :
    (run hz ops).val = ((ledger ops).done.map (seconds hz)).sum + (ledger ops).added.sum ∧
      ((run hz ops).running = true ↔ (ledger ops).since ≠ none) := by
  obtain ⟨h1, h2, h3⟩ := fits_run (hz := hz) ops (t := new) (l := ⟨none, [], []⟩) ⟨by simp [new], rfl, fun e => by cases e⟩ ho
  refine ⟨h1, ?_⟩
  show ((run hz ops).startTime != invalid) = true ↔ _
  have e : (run hz ops).startTime = (ledger ops).since.getD invalid := h2
  have e3 : (ledger ops).since ≠ some invalid := h3
  rw [e]
  cases hs : (ledger ops).since with
  | none => simp
  | some b =>
    have : b ≠ invalid := fun e => e3 (by rw [hs, e])
    simp [this]

/-- A history with a rejected start, a rejected stop, a rejected reset and an accepted one. -/
example : invalid ∉ readings [.start 5, .start 6, .stop 8, .stop 9, .reset, .start 10, .reset, .stop 17, .add 3] ∧
    (run 1 [.start 5, .start 6, .stop 8, .stop 9, .reset, .start 10, .reset, .stop 17, .add 3]).val = 10 ∧
    (ledger [.start 5, .start 6, .stop 8, .stop 9, .reset, .start 10, .reset, .stop 17, .add 3]).done = [(10, 17)] := by
  refine ⟨by decide, ?_, rfl⟩
  norm_num [run, call, Timer.start, Timer.stop, Timer.reset, Timer.add, Timer.running, new, invalid]

/-- **Rejected calls.**  A call is rejected exactly if it starts or resets a running timer or stops an idle one, and a rejected call changes nothing. -/
theorem rejected (hz : ℚ) (t : Timer) (o : Op) :
    ((call hz t o).2 = false ↔ match o with
      | .start _ => t.running = true
      | .stop _ => t.running = false
      | .reset => t.running = true
      | .add _ => False) ∧ ((call hz t o).2 = false → (call hz t o).1 = t) := by
  cases o <;> cases h : t.running <;> simp [call, Timer.start, Timer.stop, Timer.reset, h]

/-- If the clock never goes back, no interval and no added value is negative, the value is not negative and between resets it never falls. -/
theorem value_mono {hz : ℚ} (hz0 : 0 < hz) (t : Timer) (o : Op) (hr : o ≠ .reset)
    (hs : ∀ now, o = .stop now → t.running = true → t.startTime ≤ now) (ha : ∀ v, o = .add v → 0 ≤ v) : t.val ≤ (call hz t o).1.val := by
  cases o with
  | start now => cases h : t.running <;> simp [call, Timer.start, h]
  | stop now =>
    cases h : t.running with
    | false => simp [call, Timer.stop, h]
    | true =>
      have := hs now rfl h
      simp only [call, Timer.stop, h, if_true]
      have h2 : (0 : ℚ) ≤ ((now - t.startTime : ℤ) : ℚ) := by exact_mod_cast sub_nonneg.2 this
      have := div_nonneg h2 hz0.le
      exact le_add_of_nonneg_right this
  | reset => exact absurd rfl hr
  | add v => exact le_add_of_nonneg_right (ha v rfl)

/-- `system_clock` can be set back, and then an interval counts as negative. -/
theorem clock_back : (run 1 [.start 20, .stop 5]).val = -15 := by
  norm_num [run, call, Timer.start, Timer.stop, Timer.running, new, invalid]

/-- The sentinel is a legal reading: a timer started exactly at the epoch counts as idle and loses the interval. -/
theorem epoch_lost : (run 1 [.start 0, .stop 5]).val = 0 ∧ (ledger [.start 0, .stop 5]).done = [(0, 5)] := by
  refine ⟨?_, rfl⟩
  norm_num [run, call, Timer.start, Timer.stop, Timer.running, new, invalid]

/-- The scopes of the timer in the code are not nested, and the readings on entering are not the sentinel. -/
def Flat : Code → Prop
  | .skip => True
  | .throw => True
  | .seq a b => Flat a ∧ Flat b
  | .scope e _ body => e ≠ invalid ∧ Bare body
where
  /-- No scope of the timer at all. -/
  Bare : Code → Prop
    | .skip => True
    | .throw => True
    | .seq a b => Bare a ∧ Bare b
    | .scope _ _ _ => False

/-- The scopes that code without nested scopes goes through, and whether it ends normally. -/
def visits : Code → List (ℤ × ℤ) × Bool
  | .skip => ([], true)
  | .throw => ([], false)
  | .seq a b => if (visits a).2 then ((visits a).1 ++ (visits b).1, (visits b).2) else ((visits a).1, false)
  | .scope e l body => ([(e, l)], (visits body).2)

theorem exec_bare (hz : ℚ) (c : Code) (h : Flat.Bare c) (t : Timer) :
    exec hz c t = (t, if (visits c).2 then .normal else .exception) := by
  induction c generalizing t with
  | skip => rfl
  | throw => rfl
  | seq a b iha ihb =>
    obtain ⟨ha, hb⟩ := h
    unfold exec
    rw [iha ha]
    cases hv : (visits a).2 with
    | false => simp [visits, hv]
    | true =>
      have := ihb hb t
      simp only [if_true, visits, hv]
      exact this
  | scope _ _ _ _ => exact h.elim

/-- **Scopes.**  Code whose scopes of one timer are not nested ends as it would without the timer, leaves the timer idle, and adds exactly the lengths of the scopes it went through, also those left by an exception. -/
theorem scopes_sum (hz : ℚ) (c : Code) (h : Flat c) (t : Timer) (ht : t.running = false) :
    exec hz c t = (⟨t.val + ((visits c).1.map (seconds hz)).sum, invalid⟩, if (visits c).2 then .normal else .exception) := by
  have hi : t.startTime = invalid := by
    unfold Timer.running at ht
    simpa using ht
  induction c generalizing t with
  | skip => simp [exec, visits, ← hi]
  | throw => simp [exec, visits, ← hi]
  | seq a b iha ihb =>
    obtain ⟨ha, hb⟩ := h
    unfold exec
    rw [iha ha t ht hi]
    cases hv : (visits a).2 with
    | false => simp [visits, hv]
    | true =>
      have := ihb hb ⟨t.val + ((visits a).1.map (seconds hz)).sum, invalid⟩ (by simp [Timer.running]) rfl
      simp only [if_true, visits, hv]
      rw [this]
      simp [add_assoc]
  | scope e l body ih =>
    obtain ⟨he, hb⟩ := h
    unfold exec Timer.start
    rw [ht]
    simp only [Bool.false_eq_true, if_false]
    rw [exec_bare hz body hb]
    have hrun : (Timer.mk t.val e).running = true := by simp [Timer.running, he]
    cases hv : (visits body).2 <;> simp [visits, hv, Timer.stop, hrun, seconds]

/-- Two scopes, the second left by an exception that skips a third. -/
example : Flat (.seq (.scope 1 4 .skip) (.seq (.scope 5 9 .throw) (.scope 10 20 .skip))) ∧
    (visits (.seq (.scope 1 4 .skip) (.seq (.scope 5 9 .throw) (.scope 10 20 .skip)))) = ([(1, 4), (5, 9)], false) :=
  ⟨⟨⟨by decide, trivial⟩, ⟨by decide, trivial⟩, by decide, trivial⟩, rfl⟩

/-- Nested scopes of the same timer: the inner one throws, and the code around it does not complete although the body alone would. -/
theorem nested_throws (hz : ℚ) : (exec hz (.scope 1 4 (.scope 2 3 .skip)) new).2 = .exception := by
  simp [exec, Timer.start, Timer.stop, Timer.running, new, invalid]

/-- **The value of an event counter** is the number of increments, modulo the range of its type. -/
theorem count_eq (n : ℕ) : count n = n % 2 ^ 64 := by
  induction n with
  | zero => rfl
  | succ n ih =>
    show (count n + 1) % 2 ^ 64 = _
    rw [ih, Nat.mod_add_mod]

end Xolotl.Perf.Timers
