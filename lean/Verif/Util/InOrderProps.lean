import Verif.Util.InOrder
import Mathlib.Algebra.Order.BigOperators.Group.Finset

/-!
# Properties of ordered execution
-/

namespace Xolotl.Util.InOrder

open Finset

/-- The ranks below `k` have run their actions one after the other. -/
def full (k : ℕ) : List Event := (List.range k).flatMap fun r => [.started r, .finished r]

theorem full_succ (k : ℕ) : full (k + 1) = full k ++ [.started k] ++ [.finished k] := by
  simp [full, List.range_succ]

/-- Where the token is: with rank `k` before, during or after its action, in the buffer of rank `k`, or back. -/
inductive Where
  | before (k : ℕ)
  | during (k : ℕ)
  | after (k : ℕ)
  | sent (k : ℕ)
  | home

/-- Ranks beyond `k` have not received anything; ranks from 1 to `k - 1` are done; rank 0, if below `k`, waits for the token. -/
def Others (n k : ℕ) (pc : ℕ → ℕ) : Prop :=
  ∀ r < n, (k < r → pc r ≤ 2) ∧ (r < k → 0 < r → pc r = 6) ∧ (r < k → r = 0 → pc r = 5)

/-- What holds when the token is at a given place. -/
def Holds (n : ℕ) (s : State) : Where → Prop
  | .before k => k < n ∧ Others n k s.pc ∧ (k = 0 → s.pc k ≤ 2) ∧ (0 < k → s.pc k = 3) ∧ (∀ a b, s.chan a b = 0) ∧ s.trace = full k
  | .during k => k < n ∧ Others n k s.pc ∧ (k = 0 → s.pc k = 3) ∧ (0 < k → s.pc k = 4) ∧ (∀ a b, s.chan a b = 0) ∧
      s.trace = full k ++ [.started k]
  | .after k => k < n ∧ Others n k s.pc ∧ (k = 0 → s.pc k = 4) ∧ (0 < k → s.pc k = 5) ∧ (∀ a b, s.chan a b = 0) ∧ s.trace = full (k + 1)
  | .sent k => k < n ∧ Others n (k + 1) s.pc ∧ (k + 1 < n → s.pc (k + 1) ≤ 2) ∧
      (∀ a b, s.chan a b = if a = k ∧ b = (k + 1) % n then 1 else 0) ∧ s.trace = full (k + 1)
  | .home => (∀ r < n, s.pc r = 6) ∧ (∀ a b, s.chan a b = 0) ∧ s.trace = full n

/-- Nobody has left the barrier before all have entered it. -/
def Barrier (n : ℕ) (s : State) : Prop := ∀ r < n, 2 ≤ s.pc r → ∀ q < n, 1 ≤ s.pc q

/-- The invariant. -/
def Inv (n : ℕ) (s : State) : Prop := Barrier n s ∧ ∃ w, Holds n s w

/-- What the next call of a rank says about its place in the program. -/
theorem at_iff {n : ℕ} {s : State} {r : ℕ} (i : Instr) : s.at n r = some i ↔
    match i with
    | .enter => s.pc r = 0
    | .leave => s.pc r = 1
    | .start => (r = 0 ∧ s.pc r = 2) ∨ (0 < r ∧ s.pc r = 3)
    | .finish => (r = 0 ∧ s.pc r = 3) ∨ (0 < r ∧ s.pc r = 4)
    | .send d => ((r = 0 ∧ s.pc r = 4) ∨ (0 < r ∧ s.pc r = 5)) ∧ d = (r + 1) % n
    | .recv q => (r = 0 ∧ s.pc r = 5 ∧ q = n - 1) ∨ (0 < r ∧ s.pc r = 2 ∧ q = r - 1) := by
  unfold State.at prog
  by_cases h : r = 0
  · subst h
    rcases hp : s.pc 0 with _ | _ | _ | _ | _ | _ | p <;> cases i <;> simp [eq_comm]
  · have h' : 0 < r := by omega
    rcases hp : s.pc r with _ | _ | _ | _ | _ | _ | p <;> cases i <;> simp [h, h', eq_comm]

theorem advance_pc (s : State) (r q : ℕ) : (s.advance r).pc q = if q = r then s.pc q + 1 else s.pc q := rfl

/-- Entering or leaving the barrier moves a rank up to its third call at most, and changes nothing else. -/
theorem holds_low {n : ℕ} {s : State} {w : Where} {r : ℕ} (hr : r < n) (hp : s.pc r ≤ 1) (h : Holds n s w) : Holds n (s.advance r) w := by
  have ho : ∀ k, Others n k s.pc → Others n k (s.advance r).pc := by
    intro k h q hq
    obtain ⟨h1, h2, h3⟩ := h q hq
    rw [advance_pc]
    by_cases e : q = r
    · subst e
      rw [if_pos rfl]
      refine ⟨fun _ => by omega, fun a b => ?_, fun a b => ?_⟩
      · have := h2 a b; omega
      · have := h3 a b; omega
    · rw [if_neg e]
      exact ⟨h1, h2, h3⟩
  have hk : ∀ k m, 2 ≤ m → s.pc k = m → (s.advance r).pc k = m := by
    intro k m hm h
    rw [advance_pc, if_neg]
    · exact h
    · rintro rfl
      omega
  have hl : ∀ k, s.pc k ≤ 2 → (s.advance r).pc k ≤ 2 := by
    intro k h
    rw [advance_pc]
    split
    · rename_i e
      subst e
      omega
    · exact h
  cases w with
  | before k =>
    obtain ⟨a, b, c, d, e, f⟩ := h
    exact ⟨a, ho k b, fun h => hl _ (c h), fun h => hk _ _ (by omega) (d h), e, f⟩
  | during k =>
    obtain ⟨a, b, c, d, e, f⟩ := h
    exact ⟨a, ho k b, fun h => hk _ _ (by omega) (c h), fun h => hk _ _ (by omega) (d h), e, f⟩
  | after k =>
    obtain ⟨a, b, c, d, e, f⟩ := h
    exact ⟨a, ho k b, fun h => hk _ _ (by omega) (c h), fun h => hk _ _ (by omega) (d h), e, f⟩
  | sent k =>
    obtain ⟨a, b, c, d, e⟩ := h
    exact ⟨a, ho _ b, fun h => hl _ (c h), d, e⟩
  | home =>
    obtain ⟨a, _⟩ := h
    have := a r hr
    omega

/-- The invariant holds at the start. -/
theorem inv_init {n : ℕ} (hn : 0 < n) : Inv n init := by
  refine ⟨fun r _ h => by simp [init] at h, .before 0, hn, fun r _ => ?_, fun _ => by simp [init], fun h => absurd h (by omega), fun _ _ => rfl, rfl⟩
  exact ⟨fun _ => by simp [init], fun h => absurd h (by omega), fun h => absurd h (by omega)⟩

theorem mod_last {n k : ℕ} (h : k < n) : (k + 1) % n = if k + 1 < n then k + 1 else 0 := by
  split
  · exact Nat.mod_eq_of_lt ‹_›
  · have : k + 1 = n := by omega
    rw [this, Nat.mod_self]

/-- Where the token is when a rank is about to start its action. -/
theorem start_before {n : ℕ} {s : State} {w : Where} {r : ℕ} (hr : r < n) (h : Holds n s w) (hi : s.at n r = some .start) : w = .before r := by
  have hi := (at_iff _).1 hi
  dsimp only at hi
  cases w with
  | before k =>
    obtain ⟨a, b, c, d, -, -⟩ := h
    obtain ⟨b1, b2, b3⟩ := b r hr
    rcases Nat.lt_trichotomy k r with h | h | h
    · have := b1 h; omega
    · rw [h]
    · rcases hi with hi | hi
      · have := b3 h hi.1; omega
      · have := b2 h hi.1; omega
  | during k =>
    obtain ⟨a, b, c, d, -, -⟩ := h
    obtain ⟨b1, b2, b3⟩ := b r hr
    exfalso
    rcases Nat.lt_trichotomy k r with h | h | h
    · have := b1 h; omega
    · subst h; rcases hi with hi | hi
      · have := c hi.1; omega
      · have := d hi.1; omega
    · rcases hi with hi | hi
      · have := b3 h hi.1; omega
      · have := b2 h hi.1; omega
  | after k =>
    obtain ⟨a, b, c, d, -, -⟩ := h
    obtain ⟨b1, b2, b3⟩ := b r hr
    exfalso
    rcases Nat.lt_trichotomy k r with h | h | h
    · have := b1 h; omega
    · subst h; rcases hi with hi | hi
      · have := c hi.1; omega
      · have := d hi.1; omega
    · rcases hi with hi | hi
      · have := b3 h hi.1; omega
      · have := b2 h hi.1; omega
  | sent k =>
    obtain ⟨a, b, c, -, -⟩ := h
    obtain ⟨b1, b2, b3⟩ := b r hr
    exfalso
    rcases Nat.lt_trichotomy (k + 1) r with h | h | h
    · have := b1 h; omega
    · subst h; have := c hr; omega
    · rcases hi with hi | hi
      · have := b3 h hi.1; omega
      · have := b2 h hi.1; omega
  | home =>
    have := h.1 r hr
    omega

/-- Where the token is when a rank is about to finish its action. -/
theorem finish_during {n : ℕ} {s : State} {w : Where} {r : ℕ} (hr : r < n) (h : Holds n s w) (hi : s.at n r = some .finish) : w = .during r := by
  have hi := (at_iff _).1 hi
  dsimp only at hi
  cases w with
  | during k =>
    obtain ⟨a, b, c, d, -, -⟩ := h
    obtain ⟨b1, b2, b3⟩ := b r hr
    rcases Nat.lt_trichotomy k r with h | h | h
    · have := b1 h; omega
    · rw [h]
    · rcases hi with hi | hi
      · have := b3 h hi.1; omega
      · have := b2 h hi.1; omega
  | before k =>
    obtain ⟨a, b, c, d, -, -⟩ := h
    obtain ⟨b1, b2, b3⟩ := b r hr
    exfalso
    rcases Nat.lt_trichotomy k r with h | h | h
    · have := b1 h; omega
    · subst h; rcases hi with hi | hi
      · have := c hi.1; omega
      · have := d hi.1; omega
    · rcases hi with hi | hi
      · have := b3 h hi.1; omega
      · have := b2 h hi.1; omega
  | after k =>
    obtain ⟨a, b, c, d, -, -⟩ := h
    obtain ⟨b1, b2, b3⟩ := b r hr
    exfalso
    rcases Nat.lt_trichotomy k r with h | h | h
    · have := b1 h; omega
    · subst h; rcases hi with hi | hi
      · have := c hi.1; omega
      · have := d hi.1; omega
    · rcases hi with hi | hi
      · have := b3 h hi.1; omega
      · have := b2 h hi.1; omega
  | sent k =>
    obtain ⟨a, b, c, -, -⟩ := h
    obtain ⟨b1, b2, b3⟩ := b r hr
    exfalso
    rcases Nat.lt_trichotomy (k + 1) r with h | h | h
    · have := b1 h; omega
    · subst h; have := c hr; omega
    · rcases hi with hi | hi
      · have := b3 h hi.1; omega
      · have := b2 h hi.1; omega
  | home =>
    have := h.1 r hr
    omega

/-- Where the token is when a rank is about to send it. -/
theorem send_after {n : ℕ} {s : State} {w : Where} {r t : ℕ} (hr : r < n) (h : Holds n s w) (hi : s.at n r = some (.send t)) : w = .after r := by
  have hi := ((at_iff _).1 hi).1
  cases w with
  | after k =>
    obtain ⟨a, b, c, d, -, -⟩ := h
    obtain ⟨b1, b2, b3⟩ := b r hr
    rcases Nat.lt_trichotomy k r with h | h | h
    · have := b1 h; omega
    · rw [h]
    · rcases hi with hi | hi
      · have := b3 h hi.1; omega
      · have := b2 h hi.1; omega
  | before k =>
    obtain ⟨a, b, c, d, -, -⟩ := h
    obtain ⟨b1, b2, b3⟩ := b r hr
    exfalso
    rcases Nat.lt_trichotomy k r with h | h | h
    · have := b1 h; omega
    · subst h; rcases hi with hi | hi
      · have := c hi.1; omega
      · have := d hi.1; omega
    · rcases hi with hi | hi
      · have := b3 h hi.1; omega
      · have := b2 h hi.1; omega
  | during k =>
    obtain ⟨a, b, c, d, -, -⟩ := h
    obtain ⟨b1, b2, b3⟩ := b r hr
    exfalso
    rcases Nat.lt_trichotomy k r with h | h | h
    · have := b1 h; omega
    · subst h; rcases hi with hi | hi
      · have := c hi.1; omega
      · have := d hi.1; omega
    · rcases hi with hi | hi
      · have := b3 h hi.1; omega
      · have := b2 h hi.1; omega
  | sent k =>
    obtain ⟨a, b, c, -, -⟩ := h
    obtain ⟨b1, b2, b3⟩ := b r hr
    exfalso
    rcases Nat.lt_trichotomy (k + 1) r with h | h | h
    · have := b1 h; omega
    · subst h; have := c hr; omega
    · rcases hi with hi | hi
      · have := b3 h hi.1; omega
      · have := b2 h hi.1; omega
  | home =>
    have := h.1 r hr
    omega

/-- Only one message is ever on its way. -/
theorem receive_sent {n : ℕ} {s : State} {w : Where} {r q : ℕ} (h : Holds n s w) (hc : 0 < s.chan q r) : w = .sent q ∧ r = (q + 1) % n := by
  cases w with
  | before k => have := h.2.2.2.2.1 q r; omega
  | during k => have := h.2.2.2.2.1 q r; omega
  | after k => have := h.2.2.2.2.1 q r; omega
  | sent k =>
    have := h.2.2.2.1 q r
    rw [this] at hc
    split at hc
    · rename_i e
      obtain ⟨rfl, e⟩ := e
      exact ⟨rfl, e⟩
    · omega
  | home => have := h.2.1 q r; omega

/-- The rank that stays where it was. -/
theorem others_move {n k : ℕ} {s : State} (h : Others n k s.pc) (c : k = 0 → s.pc k = 4) (d : 0 < k → s.pc k = 5) :
    Others n (k + 1) (s.advance k).pc := by
  intro q hq
  obtain ⟨h1, h2, h3⟩ := h q hq
  rw [advance_pc]
  by_cases e : q = k
  · subst e
    rw [if_pos rfl]
    refine ⟨fun _ => by omega, fun _ b => ?_, fun _ b => ?_⟩
    · have := d b; omega
    · have := c b; omega
  · rw [if_neg e]
    exact ⟨fun a => h1 (by omega), fun a b => h2 (by omega) b, fun a b => h3 (by omega) b⟩

theorem others_self {n k : ℕ} {s : State} (h : Others n k s.pc) : Others n k (s.advance k).pc := by
  intro q hq
  obtain ⟨h1, h2, h3⟩ := h q hq
  rw [advance_pc]
  by_cases e : q = k
  · subst e
    exact ⟨fun h => absurd h (by omega), fun h => absurd h (by omega), fun h => absurd h (by omega)⟩
  · rw [if_neg e]
    exact ⟨h1, h2, h3⟩

/-- A rank beyond the barrier goes on. -/
theorem barrier_high {n : ℕ} {s s' : State} {r : ℕ} (h : Barrier n s) (hr : r < n) (hp : 2 ≤ s.pc r) (h' : s'.pc = (s.advance r).pc) : Barrier n s' := by
  intro _ _ _ q hq
  rw [h', advance_pc]
  have := h r hr hp q hq
  split <;> omega

/-- The token arrives at the next rank. -/
theorem arrive {n k : ℕ} {s : State} (hk : k < n) (ho : Others n (k + 1) s.pc) (hq : s.at n ((k + 1) % n) = some (.recv k))
    (hc : ∀ a b, s.chan a b = 0) (ht : s.trace = full (k + 1)) : ∃ w, Holds n (s.advance ((k + 1) % n)) w := by
  have hi := (at_iff _).1 hq
  dsimp only at hi
  rw [mod_last hk] at hi ⊢
  by_cases e : k + 1 < n
  · rw [if_pos e] at hi ⊢
    refine ⟨.before (k + 1), e, others_self ho, fun h => by omega, fun _ => ?_, hc, ht⟩
    rw [advance_pc, if_pos rfl]
    omega
  · rw [if_neg e] at hi ⊢
    have en : n = k + 1 := by omega
    refine ⟨.home, fun r hr => ?_, hc, by rw [en]; exact ht⟩
    obtain ⟨-, h2, h3⟩ := ho r hr
    rw [advance_pc]
    split
    · rename_i h0
      have := h3 (by omega) h0
      omega
    · exact h2 (by omega) (by omega)

/-- The invariant is kept by every step. -/
theorem inv_step {n : ℕ} {buf : ℕ → Bool} {s s' : State} (h : Inv n s) (st : Step n buf s s') : Inv n s' := by
  obtain ⟨hb, w, hw⟩ := h
  cases st with
  | @enter r hr hi =>
    have hp : s.pc r = 0 := (at_iff _).1 hi
    refine ⟨fun q hq h2 p hp' => ?_, w, holds_low hr (by omega) hw⟩
    rw [advance_pc] at h2 ⊢
    split at h2
    · rename_i e; subst e; omega
    · have := hb q hq h2 p hp'
      split <;> omega
  | @leave r hr hi ha =>
    have hp : s.pc r = 1 := (at_iff _).1 hi
    refine ⟨fun q hq h2 p hp' => ?_, w, holds_low hr (by omega) hw⟩
    rw [advance_pc]
    have := ha p hp'
    split <;> omega
  | @start r hr hi =>
    have := start_before hr hw hi
    subst this
    have hp := (at_iff _).1 hi
    dsimp only at hp
    obtain ⟨a, b, c, d, e, f⟩ := hw
    refine ⟨barrier_high hb hr (by omega) rfl, .during r, a, others_self b, fun h => ?_, fun h => ?_, e, ?_⟩
    · show (s.advance r).pc r = 3
      rw [advance_pc, if_pos rfl]; omega
    · show (s.advance r).pc r = 4
      rw [advance_pc, if_pos rfl]; omega
    · show s.trace ++ _ = _
      rw [f]
  | @finish r hr hi =>
    have := finish_during hr hw hi
    subst this
    have hp := (at_iff _).1 hi
    dsimp only at hp
    obtain ⟨a, b, c, d, e, f⟩ := hw
    refine ⟨barrier_high hb hr (by omega) rfl, .after r, a, others_self b, fun h => ?_, fun h => ?_, e, ?_⟩
    · show (s.advance r).pc r = 4
      rw [advance_pc, if_pos rfl]; omega
    · show (s.advance r).pc r = 5
      rw [advance_pc, if_pos rfl]; omega
    · show s.trace ++ _ = _
      rw [f, full_succ]
  | @buffered r t hr hi hbuf =>
    have := send_after hr hw hi
    subst this
    obtain ⟨hp, ht⟩ := (at_iff _).1 hi
    obtain ⟨a, b, c, d, e, f⟩ := hw
    refine ⟨barrier_high hb hr (by omega) rfl, .sent r, a, others_move b c d, fun h => ?_, fun x y => ?_, f⟩
    · show (s.advance r).pc (r + 1) ≤ 2
      rw [advance_pc, if_neg (by omega)]
      exact (b (r + 1) h).1 (by omega)
    · show (if x = r ∧ y = t then s.chan x y + 1 else s.chan x y) = _
      rw [e, ht]
  | @receive r q hr hi hc =>
    obtain ⟨ew, er⟩ := receive_sent hw hc
    subst ew
    obtain ⟨a, b, c, d, e⟩ := hw
    have hp := (at_iff _).1 hi
    dsimp only at hp
    refine ⟨barrier_high hb hr (by omega) rfl, ?_⟩
    have := arrive (s := { s with chan := fun x y => if x = q ∧ y = r then s.chan x y - 1 else s.chan x y }) a b
      (by rw [← er]; exact hi) (fun x y => by
        show (if x = q ∧ y = r then s.chan x y - 1 else s.chan x y) = 0
        rw [d, ← er]
        split <;> rfl) e
    rw [← er] at this
    exact this
  | @rendezvous r t hr ht hi hbuf hj =>
    have := send_after hr hw hi
    subst this
    obtain ⟨hp, et⟩ := (at_iff _).1 hi
    have hp' := (at_iff _).1 hj
    dsimp only at hp'
    obtain ⟨a, b, c, d, e, f⟩ := hw
    have hne : t ≠ r := by
      rintro rfl
      rcases hp with hp | hp <;> rcases hp' with hp' | hp' <;> omega
    have hpc : (s.advance r).pc t = s.pc t := by rw [advance_pc, if_neg hne]
    refine ⟨barrier_high (barrier_high hb hr (by omega) rfl) ht (by rw [hpc]; omega) rfl, ?_⟩
    have := arrive (s := s.advance r) a (others_move b c d) (by
      rw [← et]
      show (prog n t)[(s.advance r).pc t]? = _
      rw [hpc]
      exact hj) e f
    rw [← et] at this
    exact this

/-- The invariant holds in every reachable state. -/
theorem inv_steps {n : ℕ} {buf : ℕ → Bool} (hn : 0 < n) {k : ℕ} {s : State} (h : Steps n buf k s) : Inv n s := by
  induction h with
  | zero => exact inv_init hn
  | succ _ st ih => exact inv_step ih st

/-- **Order.**  At any moment of any execution the actions of ranks 0 to `k - 1` have run, each once, one after the other without overlapping, and at most the action of rank `k` has begun. -/
theorem in_order {n : ℕ} {buf : ℕ → Bool} (hn : 0 < n) {j : ℕ} {s : State} (h : Steps n buf j s) :
    ∃ k ≤ n, s.trace = full k ∨ (k < n ∧ s.trace = full k ++ [.started k]) := by
  obtain ⟨-, w, hw⟩ := inv_steps hn h
  cases w with
  | before k => exact ⟨k, hw.1.le, .inl hw.2.2.2.2.2⟩
  | during k => exact ⟨k, hw.1.le, .inr ⟨hw.1, hw.2.2.2.2.2⟩⟩
  | after k => exact ⟨k + 1, hw.1, .inl hw.2.2.2.2.2⟩
  | sent k => exact ⟨k + 1, hw.1, .inl hw.2.2.2.2⟩
  | home => exact ⟨n, le_rfl, .inl hw.2.2⟩

/-- No action begins before all ranks have made the call. -/
theorem starts_after_barrier {n : ℕ} {buf : ℕ → Bool} (hn : 0 < n) {j : ℕ} {s : State} (h : Steps n buf j s) (ht : s.trace ≠ []) :
    ∀ q < n, 1 ≤ s.pc q := by
  obtain ⟨hb, w, hw⟩ := inv_steps hn h
  have hz : ∃ r < n, 2 ≤ s.pc r := by
    cases w with
    | before k =>
      have : 0 < k := by
        rcases Nat.eq_zero_or_pos k with h | h
        · subst h; exact absurd hw.2.2.2.2.2 ht
        · exact h
      exact ⟨k, hw.1, by have := hw.2.2.2.1 this; omega⟩
    | during k =>
      refine ⟨k, hw.1, ?_⟩
      rcases Nat.eq_zero_or_pos k with h | h
      · have := hw.2.2.1 h; omega
      · have := hw.2.2.2.1 h; omega
    | after k =>
      refine ⟨k, hw.1, ?_⟩
      rcases Nat.eq_zero_or_pos k with h | h
      · have := hw.2.2.1 h; omega
      · have := hw.2.2.2.1 h; omega
    | sent k => exact ⟨0, hn, by have := (hw.2.1 0 hn).2.2 (by omega) rfl; omega⟩
    | home => exact ⟨0, hn, by have := hw.1 0 hn; omega⟩
  obtain ⟨r, hr, h2⟩ := hz
  exact hb r hr h2

/-- When rank 0 returns, the actions of all ranks have run. -/
theorem zero_last {n : ℕ} {buf : ℕ → Bool} (hn : 0 < n) {j : ℕ} {s : State} (h : Steps n buf j s) (h0 : s.at n 0 = none) :
    s.trace = full n := by
  obtain ⟨-, w, hw⟩ := inv_steps hn h
  have h6 : 6 ≤ s.pc 0 := by simpa [State.at, prog] using h0
  cases w with
  | before k =>
    rcases Nat.eq_zero_or_pos k with h | h
    · subst h; have := hw.2.2.1 rfl; omega
    · have := (hw.2.1 0 hn).2.2 h rfl; omega
  | during k =>
    rcases Nat.eq_zero_or_pos k with h | h
    · subst h; have := hw.2.2.1 rfl; omega
    · have := (hw.2.1 0 hn).2.2 h rfl; omega
  | after k =>
    rcases Nat.eq_zero_or_pos k with h | h
    · subst h; have := hw.2.2.1 rfl; omega
    · have := (hw.2.1 0 hn).2.2 h rfl; omega
  | sent k => have := (hw.2.1 0 hn).2.2 (by omega) rfl; omega
  | home => exact hw.2.2

/-- Some rank still before or in the barrier can go on. -/
theorem low_step {n : ℕ} {buf : ℕ → Bool} {s : State} (h : ∃ r < n, s.pc r ≤ 1) : ∃ s', Step n buf s s' := by
  by_cases h0 : ∃ r < n, s.pc r = 0
  · obtain ⟨r, hr, h0⟩ := h0
    exact ⟨_, .enter hr ((at_iff .enter).2 h0)⟩
  · obtain ⟨r, hr, h1⟩ := h
    have ha : ∀ q < n, 1 ≤ s.pc q := fun q hq => Nat.one_le_iff_ne_zero.2 fun e => h0 ⟨q, hq, e⟩
    exact ⟨_, .leave hr ((at_iff .leave).2 (by have := ha r hr; show s.pc r = 1; omega)) ha⟩

/-- **No deadlock.**  With at least two ranks, or a library that buffers the message of rank 0 to itself, an execution that cannot go on has returned on all ranks, has run all actions in order, and leaves no message behind. -/
theorem no_deadlock {n : ℕ} {buf : ℕ → Bool} (hn : 0 < n) (h1 : n = 1 → buf 0 = true) {j : ℕ} {s : State} (h : Steps n buf j s)
    (hs : ¬ ∃ s', Step n buf s s') : (∀ r < n, s.at n r = none) ∧ s.trace = full n ∧ ∀ a b, s.chan a b = 0 := by
  have hlow : ∀ r < n, 2 ≤ s.pc r := fun r hr => by
    by_contra hl
    exact hs (low_step ⟨r, hr, by omega⟩)
  obtain ⟨-, w, hw⟩ := inv_steps hn h
  cases w with
  | before k =>
    obtain ⟨a, b, c, d, -, -⟩ := hw
    refine absurd ⟨_, .start a ((at_iff .start).2 ?_)⟩ hs
    have := hlow k a
    rcases Nat.eq_zero_or_pos k with h | h
    · have := c h; exact .inl ⟨h, by omega⟩
    · exact .inr ⟨h, d h⟩
  | during k =>
    obtain ⟨a, b, c, d, -, -⟩ := hw
    refine absurd ⟨_, .finish a ((at_iff .finish).2 ?_)⟩ hs
    rcases Nat.eq_zero_or_pos k with h | h
    · exact .inl ⟨h, c h⟩
    · exact .inr ⟨h, d h⟩
  | after k =>
    obtain ⟨a, b, c, d, -, -⟩ := hw
    have hi : s.at n k = some (.send ((k + 1) % n)) := by
      refine (at_iff (.send _)).2 ⟨?_, rfl⟩
      rcases Nat.eq_zero_or_pos k with h | h
      · exact .inl ⟨h, c h⟩
      · exact .inr ⟨h, d h⟩
    cases hbuf : buf k with
    | true => exact absurd ⟨_, .buffered a hi hbuf⟩ hs
    | false =>
      refine absurd ⟨_, .rendezvous a (Nat.mod_lt _ hn) hi hbuf ((at_iff (.recv k)).2 ?_)⟩ hs
      show (_ = 0 ∧ _ ∧ _) ∨ _
      rw [mod_last a]
      by_cases e : k + 1 < n
      · rw [if_pos e]
        have := (b (k + 1) e).1 (by omega)
        have := hlow (k + 1) e
        exact .inr ⟨by omega, by omega, by omega⟩
      · rw [if_neg e]
        have hk : 0 < k := by
          rcases Nat.eq_zero_or_pos k with h | h
          · subst h
            have : n = 1 := by omega
            rw [h1 this] at hbuf
            cases hbuf
          · exact h
        exact .inl ⟨rfl, (b 0 hn).2.2 hk rfl, by omega⟩
  | sent k =>
    obtain ⟨a, b, c, d, -⟩ := hw
    refine absurd ⟨_, .receive (r := (k + 1) % n) (q := k) (Nat.mod_lt _ hn) ((at_iff (.recv k)).2 ?_) (by rw [d]; simp)⟩ hs
    show (_ = 0 ∧ _ ∧ _) ∨ _
    rw [mod_last a]
    by_cases e : k + 1 < n
    · rw [if_pos e]
      have := c e
      have := hlow (k + 1) e
      exact .inr ⟨by omega, by omega, by omega⟩
    · rw [if_neg e]
      exact .inl ⟨rfl, (b 0 hn).2.2 (by omega) rfl, by omega⟩
  | home =>
    refine ⟨fun r hr => ?_, hw.2.2, hw.2.1⟩
    unfold State.at prog
    rw [hw.1 r hr]
    split <;> rfl

theorem pc_le {n : ℕ} {s : State} {w : Where} (h : Holds n s w) {r : ℕ} (hr : r < n) : s.pc r ≤ 6 := by
  have key : ∀ k, Others n k s.pc → r ≠ k → s.pc r ≤ 6 := by
    intro k ho hne
    obtain ⟨h1, h2, h3⟩ := ho r hr
    rcases Nat.lt_or_gt_of_ne hne with h | h
    · rcases Nat.eq_zero_or_pos r with h0 | h0
      · have := h3 h h0; omega
      · have := h2 h h0; omega
    · have := h1 h; omega
  cases w with
  | before k =>
    by_cases e : r = k
    · subst e
      rcases Nat.eq_zero_or_pos r with h0 | h0
      · have := h.2.2.1 h0; omega
      · have := h.2.2.2.1 h0; omega
    · exact key k h.2.1 e
  | during k =>
    by_cases e : r = k
    · subst e
      rcases Nat.eq_zero_or_pos r with h0 | h0
      · have := h.2.2.1 h0; omega
      · have := h.2.2.2.1 h0; omega
    · exact key k h.2.1 e
  | after k =>
    by_cases e : r = k
    · subst e
      rcases Nat.eq_zero_or_pos r with h0 | h0
      · have := h.2.2.1 h0; omega
      · have := h.2.2.2.1 h0; omega
    · exact key k h.2.1 e
  | sent k =>
    by_cases e : r = k + 1
    · subst e
      have := h.2.2.1 hr; omega
    · exact key (k + 1) h.2.1 e
  | home => have := h.1 r hr; omega

theorem step_sum {n : ℕ} {buf : ℕ → Bool} {s s' : State} (st : Step n buf s s') : ∑ r ∈ range n, s.pc r < ∑ r ∈ range n, s'.pc r := by
  have key : ∀ (t : State) (r : ℕ), r < n → ∑ q ∈ range n, t.pc q < ∑ q ∈ range n, (t.advance r).pc q := by
    intro t r hr
    refine sum_lt_sum (fun q _ => ?_) ⟨r, mem_range.2 hr, ?_⟩
    · rw [advance_pc]; split <;> omega
    · rw [advance_pc, if_pos rfl]; omega
  cases st with
  | enter hr _ => exact key s _ hr
  | leave hr _ _ => exact key s _ hr
  | start hr _ => exact key s _ hr
  | finish hr _ => exact key s _ hr
  | buffered hr _ _ => exact key s _ hr
  | receive hr _ _ => exact key s _ hr
  | rendezvous hr ht _ _ _ => exact (key s _ hr).trans (key _ _ ht)

/-- **Termination.**  No execution has more than six steps per rank. -/
theorem bounded {n : ℕ} {buf : ℕ → Bool} (hn : 0 < n) {k : ℕ} {s : State} (h : Steps n buf k s) : k ≤ 6 * n := by
  have h1 : k ≤ ∑ r ∈ range n, s.pc r := by
    induction h with
    | zero => exact Nat.zero_le _
    | succ _ st ih => exact Nat.succ_le_of_lt (lt_of_le_of_lt ih (step_sum st))
  obtain ⟨-, w, hw⟩ := inv_steps hn h
  refine h1.trans ((sum_le_sum (g := fun _ => 6) fun r hr => pc_le hw (mem_range.1 hr)).trans ?_)
  simp [mul_comm]

/-- Every execution can be continued to one that has returned on all ranks with all actions run in order. -/
theorem completes {n : ℕ} {buf : ℕ → Bool} (hn : 0 < n) (h1 : n = 1 → buf 0 = true) {k : ℕ} {s : State} (h : Steps n buf k s) :
    ∃ j s', k ≤ j ∧ Steps n buf j s' ∧ (∀ r < n, s'.at n r = none) ∧ s'.trace = full n := by
  obtain ⟨m, hm⟩ : ∃ m, m = 6 * n - k := ⟨_, rfl⟩
  induction m generalizing k s with
  | zero =>
    have hs : ¬ ∃ s', Step n buf s s' := fun ⟨s', st⟩ => by
      have := bounded hn (h.succ st)
      omega
    obtain ⟨a, b, -⟩ := no_deadlock hn h1 h hs
    exact ⟨k, s, le_rfl, h, a, b⟩
  | succ m ih =>
    by_cases hs : ∃ s', Step n buf s s'
    · obtain ⟨s', st⟩ := hs
      obtain ⟨j, t, hj, ht⟩ := ih (h.succ st) (by omega)
      exact ⟨j, t, by omega, ht⟩
    · obtain ⟨a, b, -⟩ := no_deadlock hn h1 h hs
      exact ⟨k, s, le_rfl, h, a, b⟩

/-- Three ranks, the second of which has a library that does not buffer: the whole execution exists. -/
example : ∃ j s', 0 ≤ j ∧ Steps 3 (fun r => r != 1) j s' ∧ (∀ r < 3, s'.at 3 r = none) ∧
    s'.trace = [.started 0, .finished 0, .started 1, .finished 1, .started 2, .finished 2] :=
  completes (by decide) (fun h => absurd h (by decide)) .zero

/-- A single rank whose library does not buffer waits for itself for ever: it has run its action, has not returned, and cannot go on. -/
theorem single_deadlock (buf : ℕ → Bool) (hb : buf 0 = false) :
    ∃ s, Steps 1 buf 4 s ∧ s.at 1 0 = some (.send 0) ∧ ¬ ∃ s', Step 1 buf s s' := by
  have s1 : Steps 1 buf 1 (init.advance 0) := Steps.zero.succ (.enter (by decide) rfl)
  have hl : ∀ q < 1, 1 ≤ (init.advance 0).pc q := by
    intro q hq
    obtain rfl : q = 0 := by omega
    decide
  have s2 := s1.succ (.leave (r := 0) (by decide) rfl hl)
  have s3 := s2.succ (.start (r := 0) (by decide) rfl)
  have s4 := s3.succ (.finish (r := 0) (by decide) rfl)
  refine ⟨_, s4, rfl, ?_⟩
  rintro ⟨s', st⟩
  have no : ∀ r < 1, r = 0 := by omega
  cases st with
  | enter hr hi => cases no _ hr; cases hi
  | leave hr hi _ => cases no _ hr; cases hi
  | start hr hi => cases no _ hr; cases hi
  | finish hr hi => cases no _ hr; cases hi
  | buffered hr hi hbuf => cases no _ hr; rw [hb] at hbuf; cases hbuf
  | receive hr hi _ => cases no _ hr; cases hi
  | rendezvous hr ht hi _ hj => cases no _ hr; cases no _ ht; cases hj

end Xolotl.Util.InOrder
