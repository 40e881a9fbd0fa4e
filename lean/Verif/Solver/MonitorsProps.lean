import Verif.Solver.Monitors
import Verif.Flux.ProfileProps
import Mathlib.Tactic.Ring
import Mathlib.Tactic.Linarith
import Mathlib.Tactic.FinCases

/-!
# Properties of the monitors of a run (C84)
-/

set_option linter.unusedSectionVars false

namespace Xolotl.Solver.Monitors

variable {K : Type*} [Field K] [LinearOrder K] [IsStrictOrderedRing K] [FloorRing K]

/-! ## Which monitors run, and in which order -/

theorem mem_when (b : Bool) (l : List Mon) (m : Mon) : m ∈ when' b l ↔ b = true ∧ m ∈ l := by
  cases b <;> simp [when']

theorem count_when (b : Bool) (l : List Mon) (m : Mon) : (when' b l).count m = if b then l.count m else 0 := by
  cases b <;> simp [when']

/-- **C84, the time is set last.** In every dimension and for all options the monitor that sets the time of the previous step runs exactly once, after all others. -/
theorem time_last (dim : Fin 4) (f : Flags) : ∃ l, registered dim f = l ++ [.time] ∧ .time ∉ l := by
  fin_cases dim <;> exact ⟨_, rfl, by simp [mem_when]⟩

/-- **C84, checkpoints come last but one.** The monitor that writes checkpoints runs after all others but the one that sets the time. -/
theorem status_late (dim : Fin 4) (f : Flags) (h : f.status = true) : ∃ l, registered dim f = l ++ [.startStop, .time] ∧ .startStop ∉ l := by
  fin_cases dim <;> simp only [registered, h, show when' true [Mon.startStop] = [Mon.startStop] from rfl] <;>
    exact ⟨_, (List.append_assoc _ [Mon.startStop] [Mon.time]), by simp [mem_when]⟩

/-- **C84, how often a step is charged.** The fluence is increased once for each kind of retention asked for, and never in zero dimensions. -/
theorem charges (dim : Fin 4) (f : Flags) :
    (registered dim f).count .fluence = if dim = 0 then 0 else (if f.he then 1 else 0) + if f.xe then 1 else 0 := by
  fin_cases dim <;> simp [registered, List.count_append, count_when]

/-- **C84, a restart takes over what is read.** Whatever monitor reads the time of the previous step is registered only by options with which a restart takes that time over; the same for the fluence. -/
theorem restored (dim : Fin 4) (f : Flags) (move : Bool) (m : Mon) (h : m ∈ registered dim f) :
    (reads dim m = true → takesTime dim f move = true) ∧ (m = .fluence → takesFluence dim f = true) := by
  constructor
  · intro hr
    fin_cases dim <;> cases m <;> simp [registered, mem_when, reads, takesTime] at h hr ⊢ <;> tauto
  · rintro rfl
    fin_cases dim <;> simp [registered, mem_when, takesFluence] at h ⊢ <;> tauto

/-! ## One step -/

/-- A step is skipped if the run was restarted and this is its first step: the checkpoint holds it already. -/
def skipped (r : Run K) (k : ℕ) : Prop := k = 0 ∧ r.stored = true

instance (r : Run K) (k : ℕ) : Decidable (skipped r k) := inferInstanceAs (Decidable (_ ∧ _))

/-- The monitors that change something or read the time. -/
def active : Mon → Bool
  | .fluence | .heRetention | .xeRetention | .largest | .startStop | .time => true
  | _ => false

theorem call_idle (r : Run K) (k : ℕ) (x : Step K) (s : St K) (m : Mon) (h : active m = false) : call r k x s m = .ok s := by
  cases m <;> first | rfl | simp [active] at h

theorem foldlM_filter (r : Run K) (k : ℕ) (x : Step K) : ∀ (l : List Mon) (s : St K),
    l.foldlM (call r k x) s = (l.filter active).foldlM (call r k x) s := by
  intro l
  induction l with
  | nil => intro s; rfl
  | cons m l ih =>
    intro s
    by_cases h : active m = true
    · rw [List.filter_cons_of_pos h, List.foldlM_cons, List.foldlM_cons]
      exact congrArg _ (funext fun s' => ih s')
    · rw [List.filter_cons_of_neg h, List.foldlM_cons, call_idle r k x s m (by simpa using h)]
      exact ih s

/-- What is left of the registered monitors. -/
theorem registered_active (dim : Fin 4) (f : Flags) : (registered dim f).filter active =
    when' (decide (dim ≠ 0) && f.he) [.fluence, .heRetention] ++ (when' f.xe (when' (decide (dim ≠ 0)) [.fluence] ++ [.xeRetention]) ++
      (when' f.largest [.largest] ++ (when' f.status [.startStop] ++ [.time]))) := by
  have hw : ∀ (b : Bool) (l : List Mon), (when' b l).filter active = when' b (l.filter active) := by
    intro b l; cases b <;> rfl
  have he : ∀ b : Bool, when' b [] = [] := by intro b; cases b <;> rfl
  fin_cases dim <;> simp [registered, hw, active, he, List.filter_append, List.filter_cons] <;> simp [when']

/-- The step adds to the fluence what it should, or leaves it. -/
def Charged (r : Run K) (k n : ℕ) (x : Step K) (s s' : St K) : Prop :=
  if n = 0 ∨ skipped r k then s'.fluence = s.fluence
  else Flux.Holds r.factors s'.fluence s.fluence (n * (x.amp * (x.time - s.previous)))

/-- The vector of fluences has one entry, or one more than there are species. -/
def Fits (r : Run K) (s : St K) : Prop := s.fluence.length = 1 ∨ s.fluence.length = r.factors.length + 1

/-- Whether a checkpoint is due. -/
def due (r : Run K) (s : St K) (x : Step K) : Prop :=
  r.flags.status = true ∧ ¬(Stride.reached r.stride s.previous x.time ≤ s.count ∧ 0 < x.time)

/-- Nothing but the fluence and the log has changed. -/
structure Mid (r : Run K) (k n : ℕ) (x : Step K) (s s' : St K) : Prop where
  previous : s'.previous = s.previous
  count : s'.count = s.count
  written : s'.written = s.written
  fits : Fits r s'
  charged : Charged r k n x s s'

theorem holds_add {factors l base m : List K} {d e : K} (h1 : Flux.Holds factors l base d) (h2 : Flux.Holds factors m l e) :
    Flux.Holds factors m base (d + e) := by
  obtain ⟨_, a1, a2⟩ := h1
  obtain ⟨b0, b1, b2⟩ := h2
  exact ⟨b0, by rw [b1, a1]; ring, fun i h => by rw [b2 i h, a2 i h]; ring⟩

theorem Mid.trans {r : Run K} {k n m : ℕ} {x : Step K} {s s1 s2 : St K} (h1 : Mid r k n x s s1) (h2 : Mid r k m x s1 s2) :
    Mid r k (n + m) x s s2 := by
  refine ⟨h2.previous.trans h1.previous, h2.count.trans h1.count, h2.written.trans h1.written, h2.fits, ?_⟩
  have c1 := h1.charged
  have c2 := h2.charged
  unfold Charged at c1 c2 ⊢
  rw [h1.previous] at c2
  by_cases hk : skipped r k
  · rw [if_pos (Or.inr hk)] at c1 c2 ⊢; exact c2.trans c1
  · simp only [hk, or_false] at c1 c2 ⊢
    by_cases hn : n = 0
    · rw [if_pos hn] at c1
      rw [c1] at c2
      simpa [hn] using c2
    · rw [if_neg hn] at c1
      rw [if_neg (by omega)]
      by_cases hm : m = 0
      · rw [if_pos hm] at c2
        rw [c2, hm]; simpa using c1
      · rw [if_neg hm] at c2
        have := holds_add c1 c2
        rw [← add_mul] at this
        push_cast
        exact this

theorem call_fluence (r : Run K) (k : ℕ) (x : Step K) (s : St K) (hf : Fits r s) :
    ∃ s', call r k x s .fluence = .ok s' ∧ Mid r k 1 x s s' := by
  by_cases hk : skipped r k
  · refine ⟨{ s with log := (.fluence, x.time - s.previous) :: s.log }, ?_, rfl, rfl, rfl, hf, ?_⟩
    · simp only [call, effect]
      rw [if_pos (show k = 0 ∧ r.stored = true from hk)]; rfl
    · rw [Charged, if_pos (Or.inr hk)]
  · obtain ⟨f, e, _, hd⟩ := Flux.increment_spec r.factors ⟨s.fluence, x.amp⟩ (x.time - s.previous) hf
    refine ⟨{ s with fluence := f.fluence, log := (.fluence, x.time - s.previous) :: s.log }, ?_, rfl, rfl, rfl, Or.inr hd.1, ?_⟩
    · simp only [call, effect]
      rw [if_neg (show ¬(k = 0 ∧ r.stored = true) from hk), e]; rfl
    · rw [Charged, if_neg (by simpa using hk)]
      simpa using hd

theorem call_reader (r : Run K) (k : ℕ) (x : Step K) (s : St K) (hf : Fits r s) (m : Mon) (hm : m = .heRetention ∨ m = .xeRetention) :
    ∃ s', call r k x s m = .ok s' ∧ Mid r k 0 x s s' := by
  rcases hm with rfl | rfl
  all_goals
    refine ⟨_, rfl, ?_⟩
    dsimp only
    split_ifs
    · exact ⟨rfl, rfl, rfl, hf, by rw [Charged, if_pos (Or.inl rfl)]⟩
    · exact ⟨rfl, rfl, rfl, hf, by rw [Charged, if_pos (Or.inl rfl)]⟩

/-- The monitors before those that can stop the run. -/
theorem fold_mid (r : Run K) (k : ℕ) (x : Step K) : ∀ (l : List Mon) (s : St K), Fits r s →
    (∀ m ∈ l, m = .fluence ∨ m = .heRetention ∨ m = .xeRetention) →
    ∃ s', l.foldlM (call r k x) s = .ok s' ∧ Mid r k (l.count .fluence) x s s' := by
  intro l
  induction l with
  | nil => intro s hf _; exact ⟨s, rfl, rfl, rfl, rfl, hf, by simp [Charged]⟩
  | cons m l ih =>
    intro s hf hl
    have hm : ∃ s1, call r k x s m = .ok s1 ∧ Mid r k ([m].count .fluence) x s s1 := by
      rcases hl m List.mem_cons_self with rfl | rfl | rfl
      · exact call_fluence r k x s hf
      · exact call_reader r k x s hf _ (Or.inl rfl)
      · exact call_reader r k x s hf _ (Or.inr rfl)
    obtain ⟨s1, e1, h1⟩ := hm
    obtain ⟨s2, e2, h2⟩ := ih s1 h1.fits fun m' h' => hl m' (List.mem_cons_of_mem _ h')
    refine ⟨s2, ?_, ?_⟩
    · rw [List.foldlM_cons, e1]; exact e2
    · have := h1.trans h2
      rwa [← List.count_append] at this

/-- The monitors up to the retention. -/
def early (dim : Fin 4) (f : Flags) : List Mon :=
  when' (decide (dim ≠ 0) && f.he) [.fluence, .heRetention] ++ when' f.xe (when' (decide (dim ≠ 0)) [.fluence] ++ [.xeRetention])

theorem early_mem (dim : Fin 4) (f : Flags) (m : Mon) (h : m ∈ early dim f) : m = .fluence ∨ m = .heRetention ∨ m = .xeRetention := by
  simp only [early, List.mem_append, mem_when, List.mem_cons, List.not_mem_nil, or_false] at h
  tauto

theorem early_count (dim : Fin 4) (f : Flags) : (early dim f).count .fluence = (registered dim f).count .fluence := by
  rw [charges]
  fin_cases dim <;> simp [early, List.count_append, count_when]

theorem step_eq (r : Run K) (k : ℕ) (s : St K) (x : Step K) : step r k s x =
    ((early r.dim r.flags).foldlM (call r k x) s).bind fun s1 =>
      ((when' r.flags.largest [.largest]).foldlM (call r k x) s1).bind fun s2 =>
        ((when' r.flags.status [.startStop]).foldlM (call r k x) s2).bind fun s3 => .ok { s3 with previous := x.time } := by
  rw [step, foldlM_filter, registered_active, ← List.append_assoc, List.foldlM_append, ← early]
  refine congrArg _ (funext fun s1 => ?_)
  rw [List.foldlM_append]
  refine congrArg _ (funext fun s2 => ?_)
  rw [List.foldlM_append]
  refine congrArg _ (funext fun s3 => ?_)
  rfl

theorem one_when (r : Run K) (k : ℕ) (x : Step K) (s : St K) (m : Mon) : (when' true [m]).foldlM (call r k x) s = call r k x s m := by
  show ([m].foldlM (call r k x) s) = _
  rw [List.foldlM_cons]
  show (call r k x s m).bind (fun s => Except.ok s) = _
  cases call r k x s m <;> rfl

open Classical in
/-- **C84, one step.** If the stride is not 0 and the concentrations of the largest cluster are not too high, the monitors of a step finish; the time of the previous step is then the time of this step, the fluence has grown by the number of charges times amplitude times step, except in the first step after a restart, and a checkpoint, if due, holds the time of this step, that of the one before, and the fluence up to and with this step. -/
theorem step_ok (r : Run K) (k : ℕ) (s : St K) (x : Step K) (hf : Fits r s) (hs : r.flags.status = true → r.stride ≠ 0)
    (hl : r.flags.largest = true → ∀ c ∈ x.largest, c ≤ r.threshold) :
    ∃ s', step r k s x = .ok s' ∧ s'.previous = x.time ∧ Fits r s' ∧
      Charged r k ((registered r.dim r.flags).count .fluence) x s s' ∧
      s'.written = s.written ++ if due r s x then [⟨x.time, s.previous, s'.fluence⟩] else [] := by
  obtain ⟨s1, e1, h1⟩ := fold_mid r k x _ s hf (early_mem r.dim r.flags)
  rw [early_count] at h1
  have e2 : (when' r.flags.largest [.largest]).foldlM (call r k x) s1 = .ok s1 := by
    cases hb : r.flags.largest
    · rfl
    · have : x.largest.any (fun c => decide (r.threshold < c)) = false := by
        simpa using hl hb
      rw [one_when]
      simp only [call, effect, this]
      rfl
  rw [step_eq, e1]
  show ∃ s', (((when' r.flags.largest [.largest]).foldlM (call r k x) s1).bind _) = _ ∧ _
  rw [e2]
  show ∃ s', (((when' r.flags.status [.startStop]).foldlM (call r k x) s1).bind _) = _ ∧ _
  cases hb : r.flags.status
  · refine ⟨{ s1 with previous := x.time }, rfl, rfl, h1.fits, h1.charged, ?_⟩
    rw [if_neg (by simp [due, hb]), List.append_nil]
    exact h1.written
  · have hs0 := hs hb
    by_cases hd : Stride.reached r.stride s.previous x.time ≤ s.count ∧ 0 < x.time
    · refine ⟨{ s1 with previous := x.time, log := (.startStop, x.time - s1.previous) :: s1.log }, ?_, rfl, h1.fits, h1.charged, ?_⟩
      · rw [one_when]
        simp only [call, effect]
        rw [if_neg hs0, if_pos (by rw [h1.previous, h1.count]; exact hd)]
        rfl
      · rw [if_neg (by simp only [due, hb, true_and, not_not]; exact hd), List.append_nil]
        exact h1.written
    · refine ⟨{ s1 with
          previous := x.time
          count := if s1.count < Stride.reached r.stride s1.previous x.time then s1.count + 1 else s1.count
          written := s1.written ++ [⟨x.time, s1.previous, s1.fluence⟩]
          log := (.startStop, x.time - s1.previous) :: s1.log }, ?_, rfl, h1.fits, h1.charged, ?_⟩
      · rw [one_when]
        simp only [call, effect]
        rw [if_neg hs0, if_neg (by rw [h1.previous, h1.count]; exact hd)]
        rfl
      · rw [if_pos (show due r s x from ⟨hb, hd⟩)]
        show s1.written ++ _ = _
        rw [h1.written, h1.previous]

/-- **C84, the largest cluster.** A step stops the run with an error exactly if the option is given and the concentration of the largest cluster is above the threshold at some point. -/
theorem too_high (r : Run K) (k : ℕ) (s : St K) (x : Step K) (hf : Fits r s) (hs : r.flags.status = true → r.stride ≠ 0) :
    step r k s x = .error .tooHigh ↔ r.flags.largest = true ∧ ∃ c ∈ x.largest, r.threshold < c := by
  constructor
  · intro h
    by_contra hc
    obtain ⟨s', e, _⟩ := step_ok r k s x hf hs (by
      intro hb c hcm
      by_contra hlt
      exact hc ⟨hb, c, hcm, not_le.1 hlt⟩)
    rw [e] at h; cases h
  · rintro ⟨hb, c, hc, hlt⟩
    obtain ⟨s1, e1, h1⟩ := fold_mid r k x _ s hf (early_mem r.dim r.flags)
    have e2 : (when' r.flags.largest [.largest]).foldlM (call r k x) s1 = .error .tooHigh := by
      have : x.largest.any (fun c => decide (r.threshold < c)) = true := by
        simpa using ⟨c, hc, hlt⟩
      rw [hb, one_when]
      simp only [call, effect, this]
      rfl
    rw [step_eq, e1]
    show (((when' r.flags.largest [.largest]).foldlM (call r k x) s1).bind _) = _
    rw [e2]
    rfl

theorem call_log (r : Run K) (k : ℕ) (x : Step K) (s s' : St K) (m : Mon) (hm : m ≠ .time) (h : call r k x s m = .ok s') :
    s'.previous = s.previous ∧ s'.log = (if reads r.dim m then [(m, x.time - s.previous)] else []) ++ s.log := by
  have key : ∀ s1, effect r k x m s = .ok s1 → s1.previous = s.previous ∧ s1.log = s.log := by
    intro s1 e
    cases m
    case time => exact absurd rfl hm
    case fluence =>
      simp only [effect] at e
      split_ifs at e
      · cases e; exact ⟨rfl, rfl⟩
      · split at e
        · cases e; exact ⟨rfl, rfl⟩
        · cases e
    case largest =>
      simp only [effect] at e
      split_ifs at e
      cases e; exact ⟨rfl, rfl⟩
    case startStop =>
      simp only [effect] at e
      split_ifs at e <;> (cases e; exact ⟨rfl, rfl⟩)
    all_goals (cases e; exact ⟨rfl, rfl⟩)
  unfold call at h
  cases he : effect r k x m s with
  | error a => rw [he] at h; cases h
  | ok s1 =>
    rw [he] at h
    obtain ⟨k1, k2⟩ := key s1 he
    have := Except.ok.inj h
    rw [← this]
    split_ifs
    · exact ⟨k1, by rw [← k2]; rfl⟩
    · exact ⟨k1, by rw [← k2]; rfl⟩

theorem fold_log (r : Run K) (k : ℕ) (x : Step K) : ∀ (l : List Mon) (s s' : St K), .time ∉ l → l.foldlM (call r k x) s = .ok s' →
    s'.previous = s.previous ∧ s'.log = ((l.filter (reads r.dim)).map fun m => (m, x.time - s.previous)).reverse ++ s.log := by
  intro l
  induction l with
  | nil => intro s s' _ h; cases h; exact ⟨rfl, rfl⟩
  | cons m l ih =>
    intro s s' hm h
    rw [List.foldlM_cons] at h
    cases hc : call r k x s m with
    | error a => rw [hc] at h; cases h
    | ok s1 =>
      rw [hc] at h
      obtain ⟨a1, a2⟩ := call_log r k x s s1 m (fun e => hm (by simp [e])) hc
      obtain ⟨b1, b2⟩ := ih s1 s' (fun e => hm (List.mem_cons_of_mem _ e)) h
      refine ⟨b1.trans a1, ?_⟩
      rw [b2, a2, a1]
      by_cases hr : reads r.dim m = true
      · rw [if_pos hr, List.filter_cons_of_pos hr]; simp
      · rw [if_neg hr, List.filter_cons_of_neg hr]; simp

/-- **C84, all see the same step.** Every monitor that reads the time of the previous step sees, in every step, the time since that of the step before: none of them runs after it has been overwritten. -/
theorem seen (r : Run K) (k : ℕ) (s s' : St K) (x : Step K) (h : step r k s x = .ok s') :
    s'.log = (((registered r.dim r.flags).filter (reads r.dim)).map fun m => (m, x.time - s.previous)).reverse ++ s.log := by
  obtain ⟨l, e, hl⟩ := time_last r.dim r.flags
  rw [step, e, List.foldlM_append] at h
  cases hc : l.foldlM (call r k x) s with
  | error a => rw [hc] at h; cases h
  | ok s1 =>
    rw [hc] at h
    have hs : s' = { s1 with previous := x.time } := (Except.ok.inj h).symm
    rw [hs, e, List.filter_append, show [Mon.time].filter (reads r.dim) = [] from rfl, List.append_nil]
    exact (fold_log r k x l s s1 hl hc).2

/-! ## All steps -/

/-- Amplitude times length of the step, over all steps from time `p`. -/
def dose : K → List (Step K) → K
  | _, [] => 0
  | p, x :: xs => x.amp * (x.time - p) + dose x.time xs

/-- The time after the steps. -/
def lastTime (p : K) (xs : List (Step K)) : K := (xs.map (·.time)).getLastD p

theorem lastTime_cons (p : K) (x : Step K) (xs : List (Step K)) : lastTime p (x :: xs) = lastTime x.time xs := by
  rw [lastTime, List.map_cons, List.getLastD_cons]; rfl

/-- Whether steps can be monitored. -/
def Fine (r : Run K) (xs : List (Step K)) : Prop :=
  (r.flags.status = true → r.stride ≠ 0) ∧ (r.flags.largest = true → ∀ x ∈ xs, ∀ c ∈ x.largest, c ≤ r.threshold)

theorem Fine.tail {r : Run K} {x : Step K} {xs : List (Step K)} (h : Fine r (x :: xs)) : Fine r xs :=
  ⟨h.1, fun hb y hy => h.2 hb y (List.mem_cons_of_mem _ hy)⟩

theorem Fine.head {r : Run K} {x : Step K} {xs : List (Step K)} (h : Fine r (x :: xs)) :
    r.flags.largest = true → ∀ c ∈ x.largest, c ≤ r.threshold := fun hb => h.2 hb x List.mem_cons_self

/-- **C84, the fluence of a run.** Over any steps, the first of them not the first after a restart, the fluence grows by the sum of amplitude times length of the step, times the number of kinds of retention asked for: entry 0 by that sum, the entry of every species by its share. -/
theorem run_fluence (r : Run K) : ∀ (xs : List (Step K)) (k : ℕ) (s : St K), Fits r s → Fine r xs → ¬ skipped r k →
    ∃ s', run r k s xs = .ok s' ∧ Fits r s' ∧ s'.previous = lastTime s.previous xs ∧
      (if (registered r.dim r.flags).count .fluence = 0 ∨ xs = [] then s'.fluence = s.fluence
        else Flux.Holds r.factors s'.fluence s.fluence ((registered r.dim r.flags).count .fluence * dose s.previous xs)) := by
  intro xs
  induction xs with
  | nil => intro k s hf _ _; exact ⟨s, rfl, hf, rfl, by simp⟩
  | cons x xs ih =>
    intro k s hf hx hk
    obtain ⟨s1, e1, p1, f1, c1, _⟩ := step_ok r k s x hf hx.1 hx.head
    obtain ⟨s2, e2, f2, p2, c2⟩ := ih (k + 1) s1 f1 hx.tail (by rintro ⟨h, _⟩; omega)
    refine ⟨s2, ?_, f2, ?_, ?_⟩
    · show (step r k s x).bind _ = _
      rw [e1]; exact e2
    · rw [p2, p1, lastTime_cons]
    · unfold Charged at c1
      simp only [hk, or_false] at c1
      by_cases hn : (registered r.dim r.flags).count .fluence = 0
      · rw [if_pos (Or.inl hn)] at c2 ⊢
        rw [if_pos hn] at c1
        exact c2.trans c1
      · rw [if_neg hn] at c1
        rw [if_neg (by simp [hn])]
        simp only [hn, false_or] at c2
        rw [p1] at c2
        by_cases hxs : xs = []
        · rw [if_pos hxs] at c2
          rw [c2, hxs, dose, dose, add_zero]
          exact c1
        · rw [if_neg hxs] at c2
          have := holds_add c1 c2
          rw [← mul_add] at this
          exact this

/-- **C84, the checkpoints of a run.** Every checkpoint written during steps holds the time of one of them, the time of the step before it, and the fluence of all steps up to and with it. -/
theorem run_checkpoints (r : Run K) : ∀ (xs : List (Step K)) (k : ℕ) (s s' : St K), Fits r s → Fine r xs → ¬ skipped r k →
    run r k s xs = .ok s' → ∀ c ∈ s'.written, c ∈ s.written ∨ ∃ pre x post, xs = pre ++ x :: post ∧ c.time = x.time ∧
      c.previous = lastTime s.previous pre ∧
      (if (registered r.dim r.flags).count .fluence = 0 then c.fluence = s.fluence
        else Flux.Holds r.factors c.fluence s.fluence ((registered r.dim r.flags).count .fluence * dose s.previous (pre ++ [x]))) := by
  intro xs
  induction xs with
  | nil => intro k s s' _ _ _ h c hc; cases h; exact Or.inl hc
  | cons x xs ih =>
    intro k s s' hf hx hk h c hc
    obtain ⟨s1, e1, p1, f1, c1, w1⟩ := step_ok r k s x hf hx.1 hx.head
    have h' : run r (k + 1) s1 xs = .ok s' := by
      have : (step r k s x).bind (fun s' => run r (k + 1) s' xs) = .ok s' := h
      rwa [e1] at this
    unfold Charged at c1
    simp only [hk, or_false] at c1
    rcases ih (k + 1) s1 s' f1 hx.tail (by rintro ⟨h, _⟩; omega) h' c hc with hc1 | ⟨pre, y, post, hxs, ht, hp, hfl⟩
    · rw [w1, List.mem_append] at hc1
      rcases hc1 with hc1 | hc1
      · exact Or.inl hc1
      · right
        split_ifs at hc1 with hd
        · rw [List.mem_singleton] at hc1
          refine ⟨[], x, xs, rfl, by rw [hc1], by rw [hc1]; rfl, ?_⟩
          rw [hc1]
          by_cases hn : (registered r.dim r.flags).count .fluence = 0
          · rw [if_pos hn] at c1 ⊢; exact c1
          · rw [if_neg hn] at c1 ⊢
            simpa [dose] using c1
        · simp at hc1
    · right
      refine ⟨x :: pre, y, post, by rw [hxs]; rfl, ht, by rw [hp, p1, lastTime_cons], ?_⟩
      by_cases hn : (registered r.dim r.flags).count .fluence = 0
      · rw [if_pos hn] at c1 hfl ⊢; exact hfl.trans c1
      · rw [if_neg hn] at c1 hfl ⊢
        rw [p1] at hfl
        have := holds_add c1 hfl
        rw [← mul_add] at this
        exact this

/-! ## Restarts -/

/-- Two states that agree in what the fluence depends on. -/
def Same (s t : St K) : Prop := s.previous = t.previous ∧ s.fluence = t.fluence

theorem call_same (r r' : Run K) (hr : r' = { r with stored := r'.stored }) (k k' : ℕ) (x : Step K) (hk : ¬ skipped r k) (hk' : ¬ skipped r' k')
    (m : Mon) (s t s' t' : St K) (h : Same s t) (e : call r k x s m = .ok s') (e' : call r' k' x t m = .ok t') : Same s' t' := by
  have lift : ∀ (q : Run K) (i : ℕ) (u u' : St K), call q i x u m = .ok u' → ∃ u1, effect q i x m u = .ok u1 ∧ Same u' u1 := by
    intro q i u u' hu
    unfold call at hu
    cases he : effect q i x m u with
    | error a => rw [he] at hu; cases hu
    | ok u1 =>
      rw [he] at hu
      refine ⟨u1, rfl, ?_⟩
      have := Except.ok.inj hu
      rw [← this]
      split_ifs <;> exact ⟨rfl, rfl⟩
  obtain ⟨s1, e1, q1⟩ := lift _ _ _ _ e
  obtain ⟨t1, e2, q2⟩ := lift _ _ _ _ e'
  suffices hst : Same s1 t1 from ⟨q1.1.trans (hst.1.trans q2.1.symm), q1.2.trans (hst.2.trans q2.2.symm)⟩
  cases m
  case time => cases e1; cases e2; exact ⟨rfl, h.2⟩
  case fluence =>
    simp only [effect] at e1 e2
    rw [if_neg (show ¬(k = 0 ∧ r.stored = true) from hk)] at e1
    rw [if_neg (show ¬(k' = 0 ∧ r'.stored = true) from hk'), show r'.factors = r.factors by rw [hr], ← h.1, ← h.2] at e2
    cases hi : Flux.increment r.factors ⟨s.fluence, x.amp⟩ (x.time - s.previous) with
    | none => rw [hi] at e1; cases e1
    | some f => rw [hi] at e1 e2; cases e1; cases e2; exact ⟨rfl, rfl⟩
  case largest =>
    simp only [effect] at e1 e2
    split_ifs at e1 e2
    cases e1; cases e2; exact h
  case startStop =>
    simp only [effect] at e1 e2
    split_ifs at e1 e2 <;> (cases e1; cases e2; exact h)
  all_goals (cases e1; cases e2; exact h)

theorem fold_same (r r' : Run K) (hr : r' = { r with stored := r'.stored }) (k k' : ℕ) (x : Step K) (hk : ¬ skipped r k) (hk' : ¬ skipped r' k') :
    ∀ (l : List Mon) (s t s' t' : St K), Same s t → l.foldlM (call r k x) s = .ok s' → l.foldlM (call r' k' x) t = .ok t' → Same s' t' := by
  intro l
  induction l with
  | nil => intro s t s' t' h e e'; cases e; cases e'; exact h
  | cons m l ih =>
    intro s t s' t' h e e'
    rw [List.foldlM_cons] at e e'
    cases hc : call r k x s m with
    | error a => rw [hc] at e; cases e
    | ok s1 =>
      cases hc' : call r' k' x t m with
      | error a => rw [hc'] at e'; cases e'
      | ok t1 =>
        rw [hc] at e; rw [hc'] at e'
        exact ih s1 t1 s' t' (call_same r r' hr k k' x hk hk' m s t s1 t1 h hc hc') e e'

theorem run_same (r r' : Run K) (hr : r' = { r with stored := r'.stored }) : ∀ (xs : List (Step K)) (k k' : ℕ) (s t s' t' : St K),
    ¬ skipped r k → ¬ skipped r' k' → Same s t → run r k s xs = .ok s' → run r' k' t xs = .ok t' → Same s' t' := by
  intro xs
  induction xs with
  | nil => intro k k' s t s' t' _ _ h e e'; cases e; cases e'; exact h
  | cons x xs ih =>
    intro k k' s t s' t' hk hk' h e e'
    have e1 : (step r k s x).bind (fun s' => run r (k + 1) s' xs) = .ok s' := e
    have e1' : (step r' k' t x).bind (fun s' => run r' (k' + 1) s' xs) = .ok t' := e'
    cases hc : step r k s x with
    | error a => rw [hc] at e1; cases e1
    | ok s1 =>
      cases hc' : step r' k' t x with
      | error a => rw [hc'] at e1'; cases e1'
      | ok t1 =>
        rw [hc] at e1; rw [hc'] at e1'
        refine ih (k + 1) (k' + 1) s1 t1 s' t' (by rintro ⟨h, _⟩; omega) (by rintro ⟨h, _⟩; omega) ?_ e1 e1'
        have hd : r'.dim = r.dim := by rw [hr]
        have hfl : r'.flags = r.flags := by rw [hr]
        rw [step, hd, hfl] at hc'
        exact fold_same r r' hr k k' x hk hk' _ s t s1 t1 h hc hc'

open Classical in
/-- **C84, a restart changes nothing.** Take the checkpoint `c` written in some step of a run with a kind of retention asked for, and any further steps.  A run that restarts from `c` with the same options, goes through the step of the checkpoint again as its first and then through the same further steps, ends with the fluence and the time the uninterrupted run ends with: no step is lost and none is charged twice. -/
theorem restart_same (r : Run K) (move : Bool) (k : ℕ) (s0 : St K) (x : Step K) (ys : List (Step K)) (a : K) (hf : Fits r s0)
    (hx : Fine r (x :: ys)) (hret : takesFluence r.dim r.flags = true) (hd : due r s0 x) :
    ∃ s1 c s2 t2, step r k s0 x = .ok s1 ∧ s1.written = s0.written ++ [c] ∧ run r (k + 1) s1 ys = .ok s2 ∧
      run { r with stored := true } 0 (restart { r with stored := true } move c) (⟨c.time, a, x.largest⟩ :: ys) = .ok t2 ∧
      t2.previous = s2.previous ∧ t2.fluence = s2.fluence := by
  obtain ⟨s1, e1, p1, f1, c1, w1⟩ := step_ok r k s0 x hf hx.1 hx.head
  rw [if_pos hd] at w1
  obtain ⟨s2, e2, f2, p2, c2⟩ := run_fluence r ys (k + 1) s1 f1 hx.tail (by rintro ⟨h, _⟩; omega)
  set r' : Run K := { r with stored := true } with hr'
  set c : Checkpoint K := ⟨x.time, s0.previous, s1.fluence⟩ with hc
  have hfr : (restart r' move c).fluence = s1.fluence := if_pos hret
  have f0 : Fits r' (restart r' move c) := by
    show (restart r' move c).fluence.length = 1 ∨ _
    rw [hfr]; exact f1
  obtain ⟨t1, d1, q1, g1, u1, _⟩ := step_ok r' 0 (restart r' move c) ⟨c.time, a, x.largest⟩ f0 hx.1 hx.head
  rw [Charged, if_pos (Or.inr ⟨rfl, rfl⟩), hfr] at u1
  obtain ⟨t2, d2, _⟩ := run_fluence r' ys 1 t1 g1 hx.tail (by rintro ⟨h, _⟩; omega)
  have hsame : Same s1 t1 := ⟨p1.trans q1.symm, u1.symm⟩
  have := run_same r r' rfl ys (k + 1) 1 s1 t1 s2 t2 (by rintro ⟨h, _⟩; omega) (by rintro ⟨h, _⟩; omega) hsame e2 d2
  refine ⟨s1, c, s2, t2, e1, w1, e2, ?_, this.1.symm, this.2.symm⟩
  show (step r' 0 (restart r' move c) ⟨c.time, a, x.largest⟩).bind _ = _
  rw [d1]; exact d2

/-! ## Where it fails -/

/-- **C84 fails with both kinds of retention:** every step is charged twice. -/
theorem doubled (dim : Fin 4) (f : Flags) (hd : dim ≠ 0) (h1 : f.he = true) (h2 : f.xe = true) :
    (registered dim f).count .fluence = 2 := by rw [charges]; simp [hd, h1, h2]

/-- The same for the vector that is written: two steps of length 1 with amplitude 5. -/
theorem doubled_value :
    (run (⟨1, { he := true, xe := true, status := true }, (1 : ℚ), [], 1, false⟩) 0 fresh [⟨0, 5, []⟩, ⟨1, 5, []⟩, ⟨2, 5, []⟩]).toOption.map
      (fun s => s.written.map (·.fluence)) = some [[0], [10], [20]] := by decide +kernel

/-- **C84 fails without retention and in zero dimensions:** every checkpoint holds the fluence the run began with, whatever the flux. -/
theorem never (r : Run K) (h : r.dim = 0 ∨ (r.flags.he = false ∧ r.flags.xe = false)) (xs : List (Step K)) (hx : Fine r xs) (hs : r.stored = false)
    (s' : St K) (e : run r 0 fresh xs = .ok s') : s'.fluence = [0] ∧ ∀ c ∈ s'.written, c.fluence = [0] := by
  have hn : (registered r.dim r.flags).count .fluence = 0 := by
    rw [charges]
    rcases h with h | ⟨h1, h2⟩
    · rw [if_pos h]
    · simp [h1, h2]
  have hk : ¬ skipped r 0 := by rintro ⟨_, h⟩; rw [hs] at h; cases h
  have hf : Fits r fresh := Or.inl rfl
  constructor
  · obtain ⟨s2, e2, _, _, c2⟩ := run_fluence r xs 0 fresh hf hx hk
    rw [e] at e2
    cases e2
    rwa [if_pos (Or.inl hn)] at c2
  · intro c hc
    rcases run_checkpoints r xs 0 fresh s' hf hx hk e c hc with h0 | ⟨_, _, _, _, _, _, hfl⟩
    · simp [fresh] at h0
    · rwa [if_pos hn] at hfl

/-- **C84 fails for a restart without retention:** the fluence is not taken over, and the checkpoints of the restarted run hold 0. -/
theorem forgotten (r : Run K) (move : Bool) (c : Checkpoint K) (h : r.flags.he = false) (h' : r.flags.xe = false) :
    (restart r move c).fluence = [0] := by
  simp [restart, takesFluence, h, h']

/-! ## Concrete cases -/

/-- The setup of a restart: which values come from the checkpoint, and that all others are those of a new run. -/
theorem restart_values (r : Run K) (move : Bool) (c : Checkpoint K) :
    ((r.flags.xe = true ∨ r.flags.status = true ∨ (r.dim ≠ 0 ∧ (r.flags.he = true ∨ move = true))) → (restart r move c).previous = c.previous) ∧
    (¬(r.flags.xe = true ∨ r.flags.status = true ∨ (r.dim ≠ 0 ∧ (r.flags.he = true ∨ move = true))) → (restart r move c).previous = 0) ∧
    (r.flags.status = true → (restart r move c).count = Stride.trunc (c.previous / r.stride)) ∧
    (r.flags.status = false → (restart r move c).count = 0) ∧ (restart r move c).written = [] ∧ (restart r move c).log = [] := by
  have key : takesTime r.dim r.flags move = true ↔ (r.flags.xe = true ∨ r.flags.status = true ∨ (r.dim ≠ 0 ∧ (r.flags.he = true ∨ move = true))) := by
    simp [takesTime, or_assoc]
  refine ⟨fun h => if_pos (key.2 h), fun h => if_neg fun q => h (key.1 q), fun h => if_pos h, fun h => if_neg (by simp [h]), rfl, rfl⟩

/-- Without grid the monitor of the xenon does not use the length of the step; on a grid it does. -/
example : ((run (⟨0, { xe := true }, (1 : ℚ), [], 1, false⟩) 0 fresh [⟨1, 5, []⟩]).toOption.map (·.log) = some [(.fluence, 1)] ∨
    (run (⟨0, { xe := true }, (1 : ℚ), [], 1, false⟩) 0 fresh [⟨1, 5, []⟩]).toOption.map (·.log) = some []) ∧
    ∀ d : Fin 3, (run (⟨d.succ, { xe := true }, (1 : ℚ), [], 1, false⟩) 0 fresh [⟨1, 5, []⟩]).toOption.map (fun s => s.log.map Prod.fst) = some [.xeRetention, .fluence] := by decide +kernel

example : registered 1 { he := true, status := true, largest := true, neg := true } =
    [.negative, .fluence, .heRetention, .largest, .startStop, .time] := rfl

example : (run (⟨1, { he := true, status := true }, (1 : ℚ), [1 / 2], 1, false⟩) 0 fresh [⟨0, 5, []⟩, ⟨1, 5, []⟩, ⟨3, 4, []⟩]).toOption.map
      (fun s => (s.previous, s.fluence, s.written)) =
    some (3, [13, 13 / 2], [⟨0, 0, [0, 0]⟩, ⟨1, 0, [5, 5 / 2]⟩, ⟨3, 1, [13, 13 / 2]⟩]) := by decide +kernel

example : let r : Run ℚ := ⟨1, { he := true, status := true }, 1, [1 / 2], 1, true⟩
    (run r 0 (restart r false ⟨1, 0, [5, 5 / 2]⟩) [⟨1, 9, []⟩, ⟨3, 4, []⟩]).toOption.map (fun s => (s.previous, s.fluence)) =
      some (3, [13, 13 / 2]) := by decide +kernel

example : (step (⟨2, { largest := true, xe := true }, (1 : ℚ), [], 1 / 10, false⟩) 0 fresh ⟨0, 5, [0, 1 / 5]⟩).toOption = none := by decide +kernel

end Xolotl.Solver.Monitors
