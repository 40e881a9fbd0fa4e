import Verif.IO.Steps
import Mathlib.Data.List.Basic
import Mathlib.Data.Int.Order.Basic

/-!
# Time-step groups of the checkpoint file: properties (C36)
-/

set_option linter.unusedSectionVars false

namespace Xolotl.IO.Steps

theorem digit_inj : ∀ a < 10, ∀ b < 10, digit a = digit b → a = b := by decide
theorem digit_ne : ∀ a < 10, digit a ≠ '_' ∧ digit a ≠ '-' := by decide

theorem renderNat_ne_nil (n : ℕ) : renderNat n ≠ [] := by
  rw [renderNat]; split_ifs <;> simp

theorem renderNat_inj (n m : ℕ) (h : renderNat n = renderNat m) : n = m := by
  induction n using Nat.strongRecOn generalizing m with
  | _ n ih =>
    rw [renderNat, renderNat.eq_1 m] at h
    split_ifs at h with hn hm hm
    · rw [List.cons.injEq] at h
      exact digit_inj n hn m hm h.1
    · have := congrArg List.length h
      have h2 := List.length_pos_iff.mpr (renderNat_ne_nil (m / 10))
      simp at this; exact absurd this (renderNat_ne_nil _)
    · have := congrArg List.length h
      simp at this; exact absurd this (renderNat_ne_nil _)
    · obtain ⟨h1, h2⟩ := List.append_inj' h rfl
      rw [List.cons.injEq] at h2
      have := ih (n / 10) (by omega) (m / 10) h1
      have := digit_inj _ (Nat.mod_lt n (by decide)) _ (Nat.mod_lt m (by decide)) h2.1
      omega

theorem renderNat_chars (n : ℕ) : ∀ x ∈ renderNat n, x ≠ '_' ∧ x ≠ '-' := by
  induction n using Nat.strongRecOn with
  | _ n ih =>
    rw [renderNat]
    split_ifs with hn
    · intro x hx
      rw [List.mem_singleton] at hx
      subst hx; exact digit_ne n hn
    · intro x hx
      rcases List.mem_append.mp hx with hx | hx
      · exact ih (n / 10) (by omega) x hx
      · rw [List.mem_singleton] at hx
        subst hx; exact digit_ne _ (Nat.mod_lt n (by decide))

theorem render_chars (i : ℤ) : '_' ∉ render i := by
  cases i with
  | ofNat n => intro h; exact (renderNat_chars n _ h).1 rfl
  | negSucc n =>
    intro h
    rcases List.mem_cons.mp h with h | h
    · cases h
    · exact (renderNat_chars _ _ h).1 rfl

theorem render_inj (i j : ℤ) (h : render i = render j) : i = j := by
  have key : ∀ n m : ℕ, renderNat n ≠ '-' :: renderNat m := by
    intro n m e
    exact (renderNat_chars n '-' (by rw [e]; simp)).2 rfl
  cases i with
  | ofNat n =>
    cases j with
    | ofNat m => rw [renderNat_inj n m h]
    | negSucc m => exact absurd h (key n (m + 1))
  | negSucc n =>
    cases j with
    | ofNat m => exact absurd h.symm (key m (n + 1))
    | negSucc m =>
      rw [render, render, List.cons.injEq] at h
      have := renderNat_inj _ _ h.2
      rw [Nat.add_right_cancel this]

theorem split_inj (a b c d : List Char) (ha : '_' ∉ a) (hc : '_' ∉ c) (h : a ++ '_' :: b = c ++ '_' :: d) : a = c ∧ b = d := by
  induction a generalizing c with
  | nil =>
    cases c with
    | nil => simpa using h
    | cons y c => simp at h hc; exact absurd h.1 hc.1
  | cons x a ih =>
    cases c with
    | nil => simp at h ha; exact absurd h.1.symm ha.1
    | cons y c =>
      simp only [List.cons_append, List.cons.injEq, List.mem_cons, not_or] at h ha hc
      obtain ⟨h1, h2⟩ := ih c ha.2 hc.2 h.2
      exact ⟨by rw [h.1, h1], h2⟩

/-- Different time steps have different group names. -/
theorem name_inj (c l t c' l' t' : ℤ) : name c l t = name c' l' t' ↔ c = c' ∧ l = l' ∧ t = t' := by
  constructor
  · intro h
    obtain ⟨h1, h2⟩ := split_inj _ _ _ _ (render_chars c) (render_chars c') h
    obtain ⟨h3, h4⟩ := split_inj _ _ _ _ (render_chars l) (render_chars l') h2
    exact ⟨render_inj _ _ h1, render_inj _ _ h3, render_inj _ _ h4⟩
  · rintro ⟨rfl, rfl, rfl⟩; rfl

variable {K : Type*}

theorem times_update (c : Conc K) (n m : List Char) (t : Times K) : times (update c n t) m = if n = m ∧ (times c n).isSome then some t else times c m := by
  unfold times update
  dsimp only
  induction c.groups with
  | nil => simp
  | cons g gs ih =>
    rw [List.map_cons, List.find?_cons, List.find?_cons, List.find?_cons]
    by_cases hgn : g.1 = n
    · by_cases hm : n = m
      · simp [hgn, hm]
      · have : ¬ g.1 = m := fun e => hm (hgn.symm.trans e)
        have hb : (g.1 == m) = false := by simpa using this
        have hb2 : (n == m) = false := by simpa using hm
        simp only [hgn, if_true, hb2, hm, false_and, if_false]
        simp only [hm, false_and, if_false] at ih
        exact ih
    · have hb : (g.1 == n) = false := by simpa using hgn
      simp only [hgn, if_false, hb]
      by_cases hm : g.1 = m
      · have : ¬ n = m := fun e => hgn (hm.trans e.symm)
        simp [hm, this]
      · have hb2 : (g.1 == m) = false := by simpa using hm
        simp only [hb2]
        exact ih

theorem times_append (c : Conc K) (n m : List Char) (t : Times K) (h : times c n = none) :
    times { c with groups := c.groups ++ [(n, t)] } m = if n = m then some t else times c m := by
  unfold times at h ⊢
  dsimp only
  rw [List.find?_append]
  by_cases hm : n = m
  · subst hm
    have : c.groups.find? (fun g => g.1 == n) = none := by simpa using h
    rw [this]; simp
  · cases hf : c.groups.find? (fun g => g.1 == m) with
    | none => simp [hm]
    | some g => simp [hm]

/-- What an addition does to the stored times. -/
theorem add_times (c c' : Conc K) (ctrl loop ts : ℤ) (t : Times K) (h : List Char) (ha : add c ctrl loop ts t = some (c', h)) (n : List Char) :
    times c' n = if h = n then some t else times c n := by
  unfold add at ha
  split_ifs at ha with he
  · unfold getTimestep at ha
    split_ifs at ha with h0
    · simp only [Option.map_some, Option.some.injEq, Prod.mk.injEq] at ha
      obtain ⟨rfl, rfl⟩ := ha
      have := times_update c (name 0 loop ts) n t
      simp only [h0, and_true] at this
      exact this
    · cases ha
  · simp only [Option.map_some, Option.some.injEq, Prod.mk.injEq] at ha
    obtain ⟨rfl, rfl⟩ := ha
    exact times_append c _ n t (by simpa using he)

/-- The handle returned refers to the requested group if the group is new or its control step is 0. -/
theorem add_handle (c c' : Conc K) (ctrl loop ts : ℤ) (t : Times K) (h : List Char) (ha : add c ctrl loop ts t = some (c', h))
    (hok : ctrl = 0 ∨ times c (name ctrl loop ts) = none) : h = name ctrl loop ts := by
  unfold add at ha
  split_ifs at ha with he
  · rcases hok with rfl | hok
    · unfold getTimestep at ha
      rw [if_pos he] at ha
      simp only [Option.map_some, Option.some.injEq, Prod.mk.injEq] at ha
      exact ha.2.symm
    · rw [hok] at he; cases he
  · simp only [Option.map_some, Option.some.injEq, Prod.mk.injEq] at ha
    exact ha.2.symm

/-- An addition is defined if the group is new or its control step is 0. -/
theorem add_defined (c : Conc K) (ctrl loop ts : ℤ) (t : Times K) (hok : ctrl = 0 ∨ times c (name ctrl loop ts) = none) : ∃ r, add c ctrl loop ts t = some r := by
  unfold add
  split_ifs with he
  · rcases hok with rfl | hok
    · unfold getTimestep; rw [if_pos he]; exact ⟨_, rfl⟩
    · rw [hok] at he; cases he
  · exact ⟨_, rfl⟩

/-- The group of the step added exists afterwards, whichever was updated. -/
theorem add_present (c c' : Conc K) (ctrl loop ts : ℤ) (t : Times K) (h : List Char) (ha : add c ctrl loop ts t = some (c', h)) : (times c' (name ctrl loop ts)).isSome := by
  rw [add_times c c' ctrl loop ts t h ha]
  split_ifs with e
  · rfl
  · by_contra hn
    exact e (add_handle c c' ctrl loop ts t h ha (Or.inr (by simpa using hn)))

theorem add_last (c c' : Conc K) (ctrl loop ts : ℤ) (t : Times K) (h : List Char) (ha : add c ctrl loop ts t = some (c', h)) :
    c'.lastTs = ts ∧ c'.lastLoop = loop ∧ c'.lastCtrl = ctrl := by
  unfold add at ha
  obtain ⟨r, _, hr⟩ := Option.map_eq_some_iff.mp ha
  rw [Prod.mk.injEq] at hr
  rw [← hr.1]
  exact ⟨rfl, rfl, rfl⟩

/-- The last group is the one most recently added. -/
theorem last_added (c c' : Conc K) (ctrl loop ts : ℤ) (t : Times K) (h : List Char) (ha : add c ctrl loop ts t = some (c', h)) (h0 : 0 ≤ ctrl) (h1 : 0 ≤ loop) (h2 : 0 ≤ ts) :
    getLast c' = some (name ctrl loop ts) := by
  obtain ⟨e1, e2, e3⟩ := add_last c c' ctrl loop ts t h ha
  unfold getLast
  rw [e1, e2, e3, if_pos ⟨h2, h1, h0⟩, if_pos (add_present c c' ctrl loop ts t h ha)]

/-- Before anything is added there is no last group. -/
theorem last_none : getLast (create : Conc K) = none := rfl

/-- Whether a request can be served as intended after the history `h`. -/
def Servable (h : List (Req K)) (r : Req K) : Prop := r.ctrl = 0 ∨ ∀ q ∈ h, ¬ (q.ctrl = r.ctrl ∧ q.loop = r.loop ∧ q.ts = r.ts)

/-- A history in which no step of a later control step is added twice. -/
def Good : List (Req K) → Prop
  | [] => True
  | r :: h => Good h ∧ Servable h r

/-- The request that last wrote a step; the newest comes first in the history. -/
def lastWrite (h : List (Req K)) (c l t : ℤ) : Option (Times K) := (h.find? fun r => r.ctrl == c && r.loop == l && r.ts == t).map Req.t

/-- Looking up any step of any good history gives what was last written for it, and nothing if nothing was. -/
theorem history_times_partial (h : List (Req K)) (hg : Good h) : ∃ c, run h.reverse = some c ∧ ∀ k l t, times c (name k l t) = lastWrite h k l t := by
  induction h with
  | nil => exact ⟨create, rfl, fun k l t => rfl⟩
  | cons r h ih =>
    obtain ⟨c, hc, ht⟩ := ih hg.1
    have hok : r.ctrl = 0 ∨ times c (name r.ctrl r.loop r.ts) = none := by
      rcases hg.2 with h0 | h0
      · exact Or.inl h0
      · right
        rw [ht, lastWrite, Option.map_eq_none_iff, List.find?_eq_none]
        intro q hq
        have := h0 q hq
        simpa [and_assoc] using this
    obtain ⟨⟨c', n⟩, ha⟩ := add_defined c r.ctrl r.loop r.ts r.t hok
    have hn := add_handle c c' _ _ _ _ n ha hok
    refine ⟨c', ?_, ?_⟩
    · unfold run at hc ⊢
      rw [List.reverse_cons, List.foldlM_append, hc]
      have e : List.foldlM (fun c r => (add c r.ctrl r.loop r.ts r.t).map Prod.fst) c [r] = some c' := by
        rw [List.foldlM_cons, ha]; rfl
      exact e
    · intro k l t
      rw [add_times c c' _ _ _ _ n ha, hn, ht]
      unfold lastWrite
      rw [List.find?_cons]
      by_cases e : r.ctrl = k ∧ r.loop = l ∧ r.ts = t
      · obtain ⟨rfl, rfl, rfl⟩ := e
        simp
      · rw [if_neg (fun h => e ((name_inj _ _ _ _ _ _).mp h))]
        have : (r.ctrl == k && r.loop == l && r.ts == t) = false := by
          rw [Bool.eq_false_iff]; intro hb
          simp only [Bool.and_eq_true, beq_iff_eq, and_assoc] at hb
          exact e hb
        rw [this]

/-- The lookup by loop and time step finds a step of control step 0 exactly if it was added. -/
theorem lookup_partial (h : List (Req K)) (hg : Good h) : ∃ c, run h.reverse = some c ∧
    ∀ l t, getTimestep c l t = if ∃ r ∈ h, r.ctrl = 0 ∧ r.loop = l ∧ r.ts = t then some (name 0 l t) else none := by
  obtain ⟨c, hc, ht⟩ := history_times_partial h hg
  refine ⟨c, hc, fun l t => ?_⟩
  unfold getTimestep
  rw [ht]
  congr 1
  rw [lastWrite, Option.isSome_map, List.find?_isSome]
  simp [and_assoc]

/-- The lookup fails for a stored step of a later control step. -/
theorem lookup_ignores_control (t : Times K) : ∃ c, run [⟨1, 0, 0, t⟩] = some c ∧ times c (name 1 0 0) = some t ∧ getTimestep c 0 0 = none := by
  obtain ⟨c, hc, ht⟩ := history_times_partial [⟨1, 0, 0, t⟩] (by simp [Good, Servable])
  refine ⟨c, hc, by rw [ht]; rfl, ?_⟩
  unfold getTimestep
  rw [ht]; rfl

/-- Adding a step of a later control step twice uses a null pointer. -/
theorem repeat_undefined (t t' : Times K) : run [⟨1, 0, 0, t⟩, ⟨1, 0, 0, t'⟩] = none := by
  obtain ⟨c, hc, h1, h2⟩ := lookup_ignores_control t
  have hadd : add c 1 0 0 t' = none := by unfold add; rw [h1, h2]; rfl
  unfold run at hc ⊢
  rw [show [(⟨1, 0, 0, t⟩ : Req K), ⟨1, 0, 0, t'⟩] = [⟨1, 0, 0, t⟩] ++ [⟨1, 0, 0, t'⟩] from rfl, List.foldlM_append, hc]
  have e : List.foldlM (fun c r => (add c r.ctrl r.loop r.ts r.t).map Prod.fst) c [(⟨1, 0, 0, t'⟩ : Req K)] = none := by
    rw [List.foldlM_cons, hadd]; rfl
  exact e

/-- If control step 0 has the same step, its times are overwritten instead. -/
theorem wrong_group_updated (t0 t t' : Times K) : ∃ c, run [⟨0, 0, 0, t0⟩, ⟨1, 0, 0, t⟩, ⟨1, 0, 0, t'⟩] = some c ∧
    times c (name 0 0 0) = some t' ∧ times c (name 1 0 0) = some t := by
  obtain ⟨c, hc, ht⟩ := history_times_partial [⟨1, 0, 0, t⟩, ⟨0, 0, 0, t0⟩] (by simp [Good, Servable])
  have h1 : times c (name 1 0 0) = some t := by rw [ht]; rfl
  have h0 : times c (name 0 0 0) = some t0 := by rw [ht]; rfl
  have hget : getTimestep c 0 0 = some (name 0 0 0) := by unfold getTimestep; rw [h0]; rfl
  have hadd : ∃ c', add c 1 0 0 t' = some (c', name 0 0 0) := by
    unfold add
    rw [h1, hget]
    exact ⟨_, rfl⟩
  obtain ⟨c', ha⟩ := hadd
  have ht' := add_times c c' 1 0 0 t' _ ha
  refine ⟨c', ?_, by rw [ht', if_pos rfl], ?_⟩
  · unfold run at hc ⊢
    rw [show [(⟨0, 0, 0, t0⟩ : Req K), ⟨1, 0, 0, t⟩, ⟨1, 0, 0, t'⟩] = [⟨1, 0, 0, t⟩, ⟨0, 0, 0, t0⟩].reverse ++ [⟨1, 0, 0, t'⟩] from rfl, List.foldlM_append, hc]
    have e : List.foldlM (fun c r => (add c r.ctrl r.loop r.ts r.t).map Prod.fst) c [(⟨1, 0, 0, t'⟩ : Req K)] = some c' := by
      rw [List.foldlM_cons, ha]; rfl
    exact e
  · rw [ht', if_neg (by rw [name_inj]; simp), h1]

example : Good ([⟨0, 0, 2, ⟨3, 2, 1⟩⟩, ⟨1, 0, 0, ⟨2, 1, 1⟩⟩, ⟨0, 0, 2, ⟨1, 0, 1⟩⟩] : List (Req ℕ)) := by simp [Good, Servable]
example : name 0 1 (-12) = "0_1_-12".toList := by decide +kernel

end Xolotl.IO.Steps
