import Verif.Solver.Messages
import Mathlib.Tactic.Convert
import Mathlib.Tactic.IntervalCases
import Mathlib.Data.List.FinRange
import Mathlib.Algebra.BigOperators.Group.Finset.Piecewise

/-!
# Properties of the messages between the ranks
-/

set_option linter.unusedSectionVars false

namespace Xolotl.Solver.Messages

open Function (update)

variable {ι V R K : Type} [DecidableEq ι]

/-! ### Executions -/

theorem Runs.trans {α : Type} {S : α → α → Prop} {a b c : α} {m n : ℕ} (h : Runs S m a b) (g : Runs S n b c) : Runs S (m + n) a c := by
  induction h with
  | nil a => simpa using g
  | cons h t ih => rw [Nat.add_right_comm]; exact .cons h (ih g)

theorem Runs.one {α : Type} {S : α → α → Prop} {a b : α} (h : S a b) : Runs S 1 a b := .cons h (.nil _)

/-- If any two steps from a state can be brought together by one more step each, a complete execution bounds all executions and all of them can be continued to its end. -/
theorem diamond {α : Type} {S : α → α → Prop} (I : α → Prop) (hI : ∀ a b, I a → S a b → I b) (hd : ∀ a b c, I a → S a b → S a c → b = c ∨ ∃ d, S b d ∧ S c d) {z : α}
    (hz : ∀ y, ¬S z y) : ∀ (n : ℕ) (a : α), I a → Runs S n a z → ∀ (m : ℕ) (b : α), Runs S m a b → m ≤ n ∧ Runs S (n - m) b z := by
  intro n
  induction n using Nat.strong_induction_on with
  | _ n ih =>
    intro a ha hr m b hb
    cases hb with
    | nil => exact ⟨Nat.zero_le _, by simpa using hr⟩
    | @cons _ b' _ m h t =>
      cases hr with
      | nil => exact absurd h (hz _)
      | @cons _ a' _ k h' t' =>
        have key : Runs S k b' z := by
          rcases hd a b' a' ha h h' with e | ⟨d, h1, h2⟩
          · rw [e]; exact t'
          · obtain ⟨hk, hd'⟩ := ih k (Nat.lt_succ_self k) a' (hI _ _ ha h') t' 1 d (.one h2)
            obtain ⟨j, rfl⟩ : ∃ j, k = j + 1 := ⟨k - 1, by omega⟩
            exact .cons h1 (by simpa using hd')
        obtain ⟨hm, hb'⟩ := ih k (Nat.lt_succ_self k) b' (hI _ _ ha h) key m b t
        refine ⟨by omega, ?_⟩
        rw [Nat.add_sub_add_right]; exact hb'

/-! ### Named sources -/

/-- All ranks name their sources. -/
def AllNamed (p : ι → Prog ι V R) : Prop := ∀ r, (p r).named

theorem named_update {p : ι → Prog ι V R} (h : AllNamed p) (r : ι) {k : Prog ι V R} (hk : k.named) : AllNamed (update p r k) := by
  intro x
  by_cases hx : x = r
  · subst hx; simpa using hk
  · simpa [hx] using h x

theorem named_send {p : ι → Prog ι V R} (h : AllNamed p) {r d : ι} {t : ℕ} {v : V} {k : Prog ι V R} (e : p r = .send d t v k) : k.named := by
  have := h r; rw [e] at this; exact this

theorem named_recv {p : ι → Prog ι V R} (h : AllNamed p) {r : ι} {s : Option ι} {t : ℕ} {k : V → Prog ι V R} (e : p r = .recv s t k) (v : V) : (k v).named := by
  have := h r; rw [e] at this; exact this.2 v

theorem named_src {p : ι → Prog ι V R} (h : AllNamed p) {r : ι} {s : Option ι} {t : ℕ} {k : V → Prog ι V R} (e : p r = .recv s t k) : s ≠ none := by
  have := h r; rw [e] at this
  intro hs; subst hs; simpa using this.1

theorem step_named (c d : Conf ι V R) (h : AllNamed c.procs) (s : Step c d) : AllNamed d.procs := by
  cases s with
  | send r dst tag v k e => exact named_update h r (named_send h e)
  | recv r s src tag k v q e _ _ => exact named_update h r (named_recv h e v)
  | coll v k e => intro r; have := h r; rw [e r] at this; exact this v

theorem sync_named (p q : ι → Prog ι V R) (h : AllNamed p) (s : Sync p q) : AllNamed q := by
  cases s with
  | pass s r src tag v k k' hs hr _ => exact named_update (named_update h s (named_send h hs)) r (named_recv h hr v)
  | coll v k e => intro r; have := h r; rw [e r] at this; exact this v

theorem step_diamond (c a b : Conf ι V R) (hn : AllNamed c.procs) (ha : Step c a) (hb : Step c b) : a = b ∨ ∃ d, Step a d ∧ Step b d := by
  cases ha with
  | send r dst tag v k e =>
    cases hb with
    | send r' dst' tag' v' k' e' =>
      by_cases hr : r = r'
      · subst hr; rw [e] at e'; cases e'; exact .inl rfl
      · refine .inr ⟨_, .send _ r' dst' tag' v' k' (by simpa [Ne.symm hr] using e'), ?_⟩
        have := Step.send ⟨update c.procs r' k', update c.chan (r', dst', tag') (c.chan (r', dst', tag') ++ [v'])⟩ r dst tag v k (by simpa [hr] using e)
        convert this using 2
        · exact Function.update_comm hr _ _ _ |>.symm ▸ rfl
        · have hk : ((r, dst, tag) : ι × ι × ℕ) ≠ (r', dst', tag') := fun h => hr (Prod.mk.inj h).1
          simp only [Function.update_of_ne hk, Function.update_of_ne hk.symm]
          exact Function.update_comm hk _ _ _
    | recv r' s' src' tag' k' v' q' e' hs' hq' =>
      have hr : r ≠ r' := fun h => by subst h; rw [e] at e'; cases e'
      by_cases hk : ((r, dst, tag) : ι × ι × ℕ) = (s', r', tag')
      · cases hk
        refine .inr ⟨_, .recv _ dst r src' tag k' v' (q' ++ [v]) (by simpa [Ne.symm hr] using e') hs' (by simp [hq']), ?_⟩
        have := Step.send ⟨update c.procs dst (k' v'), update c.chan (r, dst, tag) q'⟩ r dst tag v k (by simpa [hr] using e)
        convert this using 2
        · exact Function.update_comm hr _ _ _ |>.symm ▸ rfl
        · simp
      · refine .inr ⟨_, .recv _ r' s' src' tag' k' v' q' (by simpa [Ne.symm hr] using e') hs' (by simpa [Function.update_of_ne (Ne.symm hk)] using hq'), ?_⟩
        have := Step.send ⟨update c.procs r' (k' v'), update c.chan (s', r', tag') q'⟩ r dst tag v k (by simpa [hr] using e)
        convert this using 2
        · exact Function.update_comm hr _ _ _ |>.symm ▸ rfl
        · simp only [Function.update_of_ne hk]
          exact Function.update_comm hk _ _ _
    | coll v' k' e' => rw [e' r] at e; cases e
  | recv r s src tag k v q e hs hq =>
    cases hb with
    | send r' dst' tag' v' k' e' =>
      have hr : r' ≠ r := fun h => by subst h; rw [e] at e'; cases e'
      by_cases hk : ((r', dst', tag') : ι × ι × ℕ) = (s, r, tag)
      · cases hk
        refine .inr ⟨_, ?_, .recv _ r s src tag k v (q ++ [v']) (by simpa [Ne.symm hr] using e) hs (by simp [hq])⟩
        have := Step.send ⟨update c.procs r (k v), update c.chan (s, r, tag) q⟩ s r tag v' k' (by simpa [hr] using e')
        convert this using 2
        · exact Function.update_comm hr _ _ _ |>.symm ▸ rfl
        · simp
      · refine .inr ⟨_, ?_, .recv _ r s src tag k v q (by simpa [Ne.symm hr] using e) hs (by simpa [Function.update_of_ne (Ne.symm hk)] using hq)⟩
        have := Step.send ⟨update c.procs r (k v), update c.chan (s, r, tag) q⟩ r' dst' tag' v' k' (by simpa [hr] using e')
        convert this using 2
        · exact Function.update_comm hr _ _ _ |>.symm ▸ rfl
        · simp only [Function.update_of_ne hk]
          exact Function.update_comm hk _ _ _
    | recv r' s' src' tag' k' v' q' e' hs' hq' =>
      by_cases hr : r = r'
      · subst hr
        rw [e] at e'; cases e'
        have h0 := named_src hn e
        have hss : s = s' := by
          rcases hs with h | h
          · exact absurd h h0
          · rcases hs' with h' | h'
            · exact absurd h' h0
            · rw [h] at h'; cases h'; rfl
        subst hss
        rw [hq] at hq'; cases hq'; exact .inl rfl
      · have hk : ((s, r, tag) : ι × ι × ℕ) ≠ (s', r', tag') := fun h => hr (Prod.mk.inj (Prod.mk.inj h).2).1
        refine .inr ⟨_, .recv _ r' s' src' tag' k' v' q' (by simpa [Ne.symm hr] using e') hs' (by simpa [Function.update_of_ne hk.symm] using hq'), ?_⟩
        have := Step.recv ⟨update c.procs r' (k' v'), update c.chan (s', r', tag') q'⟩ r s src tag k v q (by simpa [hr] using e) hs (by simpa [Function.update_of_ne hk] using hq)
        convert this using 2
        · exact Function.update_comm hr _ _ _ |>.symm ▸ rfl
        · exact Function.update_comm hk _ _ _
    | coll v' k' e' => rw [e' r] at e; cases e
  | coll v k e =>
    cases hb with
    | send r' dst' tag' v' k' e' => rw [e r'] at e'; cases e'
    | recv r' s' src' tag' k' v' q' e' hs' hq' => rw [e r'] at e'; cases e'
    | coll v' k' e' =>
      have h1 : v = v' := funext fun r => by have := (e r).symm.trans (e' r); injection this
      have h2 : k = k' := funext fun r => by have := (e r).symm.trans (e' r); injection this
      subst h1; subst h2; exact .inl rfl

theorem sync_diamond (p a b : ι → Prog ι V R) (hn : AllNamed p) (ha : Sync p a) (hb : Sync p b) : a = b ∨ ∃ d, Sync a d ∧ Sync b d := by
  cases ha with
  | pass s r src tag v k k' hs hr hm =>
    cases hb with
    | pass s2 r2 src2 tag2 v2 k2 k2' hs2 hr2 hm2 =>
      have hsr : s ≠ r2 := fun h => by subst h; rw [hs] at hr2; cases hr2
      have hsr' : s2 ≠ r := fun h => by subst h; rw [hs2] at hr; cases hr
      have hself : s ≠ r := fun h => by subst h; rw [hs] at hr; cases hr
      have hself2 : s2 ≠ r2 := fun h => by subst h; rw [hs2] at hr2; cases hr2
      by_cases hss : s = s2
      · subst hss
        rw [hs] at hs2; cases hs2
        rw [hr] at hr2; cases hr2
        exact .inl rfl
      · by_cases hrr : r = r2
        · subst hrr
          rw [hr] at hr2; cases hr2
          have h0 := named_src hn hr
          rcases hm with h | h
          · exact absurd h h0
          · rcases hm2 with h' | h'
            · exact absurd h' h0
            · rw [h] at h'; cases h'; exact absurd rfl hss
        · refine .inr ⟨_, .pass _ s2 r2 src2 tag2 v2 k2 k2' (by simpa [Ne.symm hss, hsr'] using hs2) (by simpa [Ne.symm hrr, Ne.symm hsr] using hr2) hm2, ?_⟩
          have := Sync.pass (update (update p s2 k2) r2 (k2' v2)) s r src tag v k k' (by simpa [hss, hsr] using hs) (by simpa [hrr, Ne.symm hsr'] using hr) hm
          convert this using 1
          funext x
          simp only [Function.update_apply]
          split_ifs <;> simp_all
    | coll v' k' e' => rw [e' s] at hs; cases hs
  | coll v k e =>
    cases hb with
    | pass s2 r2 src2 tag2 v2 k2 k2' hs2 hr2 hm2 => rw [e s2] at hs2; cases hs2
    | coll v' k' e' =>
      have h1 : v = v' := funext fun r => by have := (e r).symm.trans (e' r); injection this
      have h2 : k = k' := funext fun r => by have := (e r).symm.trans (e' r); injection this
      subst h1; subst h2; exact .inl rfl

/-- A step in which the sender waits is two steps with a message in flight. -/
theorem sync_step {p q : ι → Prog ι V R} (h : Sync p q) : ∃ m, Runs Step m (quiet p) (quiet q) := by
  cases h with
  | pass s r src tag v k k' hs hr hm =>
    have hself : r ≠ s := fun h => by subst h; rw [hs] at hr; cases hr
    refine ⟨2, .cons (.send _ s r tag v k hs) (.cons (b := quiet (update (update p s k) r (k' v))) ?_ (.nil _))⟩
    have := Step.recv ⟨update p s k, update (quiet p).chan (s, r, tag) ((quiet p).chan (s, r, tag) ++ [v])⟩ r s src tag k' v [] (by simpa [hself] using hr) hm (by simp [quiet])
    have e : (⟨update (update p s k) r (k' v), update (update (quiet p).chan (s, r, tag) ((quiet p).chan (s, r, tag) ++ [v])) (s, r, tag) []⟩ : Conf ι V R) = quiet (update (update p s k) r (k' v)) := by
      unfold quiet
      congr 1
      funext x
      simp only [Function.update_apply]
      split_ifs <;> rfl
    rw [← e]; exact this
  | coll v k e => exact ⟨1, .one (.coll (quiet p) v k e)⟩

theorem sync_steps {p q : ι → Prog ι V R} {n : ℕ} (h : Runs Sync n p q) : ∃ m, Runs Step m (quiet p) (quiet q) := by
  induction h with
  | nil a => exact ⟨0, .nil _⟩
  | cons h t ih =>
    obtain ⟨m, hm⟩ := sync_step h
    obtain ⟨m', hm'⟩ := ih
    exact ⟨_, hm.trans hm'⟩

/-- All ranks are done. -/
def Done (p : ι → Prog ι V R) : Prop := ∀ r, ∃ x, p r = .ret x

theorem done_step [Inhabited ι] {c : Conf ι V R} (h : Done c.procs) (d : Conf ι V R) : ¬Step c d := by
  intro s
  cases s with
  | send r dst tag v k e => obtain ⟨x, hx⟩ := h r; rw [e] at hx; cases hx
  | recv r s src tag k v q e _ _ => obtain ⟨x, hx⟩ := h r; rw [e] at hx; cases hx
  | coll v k e => obtain ⟨x, hx⟩ := h default; rw [e] at hx; cases hx

theorem done_sync [Inhabited ι] {p : ι → Prog ι V R} (h : Done p) (q : ι → Prog ι V R) : ¬Sync p q := by
  intro s
  cases s with
  | pass s r src tag v k k' hs _ _ => obtain ⟨x, hx⟩ := h s; rw [hs] at hx; cases hx
  | coll v k e => obtain ⟨x, hx⟩ := h default; rw [e] at hx; cases hx

/-- **One execution speaks for all.**  If every receive names its source and one execution with waiting sends brings all ranks to their end, then every execution, with messages in flight or waiting sends, is bounded and can be continued to the same end with nothing left in flight: no order of the steps leads to a deadlock, an endless execution or another result. -/
theorem one_for_all [Inhabited ι] {p z : ι → Prog ι V R} (hn : AllNamed p) {n : ℕ} (hr : Runs Sync n p z) (hz : Done z) :
    (∃ N, ∀ m c, Runs Step m (quiet p) c → m ≤ N ∧ Runs Step (N - m) c (quiet z)) ∧ ∀ m q, Runs Sync m p q → m ≤ n ∧ Runs Sync (n - m) q z := by
  constructor
  · obtain ⟨N, hN⟩ := sync_steps hr
    exact ⟨N, fun m c h => diamond (fun c => AllNamed c.procs) step_named step_diamond (z := quiet z) (done_step hz) N (quiet p) hn hN m c h⟩
  · exact fun m q h => diamond AllNamed sync_named sync_diamond (done_sync hz) n p hn hr m q h

/-- An execution that cannot go on has ended as every other. -/
theorem same_end [Inhabited ι] {p z : ι → Prog ι V R} (hn : AllNamed p) {n : ℕ} (hr : Runs Sync n p z) (hz : Done z) {m : ℕ} {c : Conf ι V R} (h : Runs Step m (quiet p) c) (hc : ∀ d, ¬Step c d) : c = quiet z := by
  obtain ⟨⟨N, hN⟩, _⟩ := one_for_all hn hr hz
  obtain ⟨_, h'⟩ := hN m c h
  generalize N - m = j at h'
  cases h' with
  | nil => rfl
  | cons s _ => exact absurd s (hc _)


/-! ### Carrying concentrations over to a new grid -/

section carry
variable {n : ℕ}

theorem fetch_named {R : Type} (me : Fin n) (src dst tag : ℕ) (mine : Option (List K)) (k : Option (List K) → Prog (Fin n) (Word K) (Option R)) (hk : ∀ o, (k o).named) : (fetch me src dst tag mine k).named := by
  unfold fetch
  split_ifs
  · cases mine
    · trivial
    · exact hk _
  · exact hk _
  · cases mine
    · trivial
    · exact hk none
  · trivial
  · refine ⟨rfl, fun w => ?_⟩
    cases w <;> first | trivial | exact hk _
  · trivial
  · exact hk _

theorem carry_named (old new : Fin n → ℕ → Bool) (data : ℕ → List K) (me : Fin n) (ps : List (ℕ × ℕ)) (acc : List (ℕ × List K × List K)) : (carry old new data me ps acc).named := by
  induction ps generalizing acc with
  | nil => trivial
  | cons p ps ih =>
    intro f
    refine fetch_named _ _ _ _ _ _ fun l => fetch_named _ _ _ _ _ _ fun r => ?_
    split_ifs
    · cases l <;> cases r <;> first | trivial | exact ih _
    · exact ih _

/-- One transfer: the data of one rank are known to another, whatever else the ranks do. -/
theorem fetch_run {R : Type} (a c : Fin n) (tag : ℕ) (d : List K) (k : Fin n → Option (List K) → Prog (Fin n) (Word K) (Option R)) :
    ∃ m, Runs Sync m (fun r => fetch r a.val c.val tag (if r = a then some d else none) (k r)) (fun r => k r (if r = c then some d else none)) := by
  by_cases hac : a = c
  · subst hac
    refine ⟨0, ?_⟩
    have : (fun r => fetch r a.val a.val tag (if r = a then some d else none) (k r)) = fun r => k r (if r = a then some d else none) := by
      funext r
      by_cases hr : r = a
      · subst hr; simp [fetch]
      · have : r.val ≠ a.val := fun h => hr (Fin.ext h)
        simp [fetch, hr, this]
    rw [this]; exact .nil _
  · have hv : a.val ≠ c.val := fun h => hac (Fin.ext h)
    refine ⟨1, .one ?_⟩
    have := Sync.pass (fun r => fetch r a.val c.val tag (if r = a then some d else none) (k r)) a c (some a) tag (.vec d) (k a none) (fun w => w.arrived fun l => k c (some l)) (by simp [fetch, hv]) (by simp [fetch, hv, Ne.symm hv]) (.inr rfl)
    convert this using 1
    funext r
    by_cases hc : r = c
    · subst hc; simp [Word.arrived]
    · by_cases ha : r = a
      · subst ha; simp [hac]
      · have h1 : r.val ≠ a.val := fun h => ha (Fin.ext h)
        have h2 : r.val ≠ c.val := fun h => hc (Fin.ext h)
        simp [fetch, hv, hc, ha, h1, h2]

theorem total_owner (f : Fin n → Word K) (sel : ℕ → ℕ → ℕ → ℕ) (o : Fin n) (h : ∀ r, (f r).pick sel = if r = o then r.val else 0) : total f sel = o.val := by
  unfold total
  rw [Finset.sum_congr rfl fun r _ => h r, Finset.sum_ite_eq' Finset.univ o fun r => r.val]
  simp

/-- What a rank has to compute: its new grid points, each with the two old arrays. -/
def carried (owner : ℕ → Fin n) (data : ℕ → List K) (r : Fin n) (ps : List (ℕ × ℕ)) : List (ℕ × List K × List K) :=
  (ps.filter fun p => owner p.1 = r).map fun p => (p.1, data (p.2 - 1), data p.2)

theorem carry_run (old new : Fin n → ℕ → Bool) (data : ℕ → List K) (was now : ℕ → Fin n) (ps : List (ℕ × ℕ))
    (hold : ∀ p ∈ ps, ∀ r, (old r (p.2 - 1) = true ↔ r = was (p.2 - 1)) ∧ (old r p.2 = true ↔ r = was p.2)) (hnew : ∀ p ∈ ps, ∀ r, new r p.1 = true ↔ r = now p.1) (acc : Fin n → List (ℕ × List K × List K)) :
    ∃ m, Runs Sync m (fun r => carry old new data r ps (acc r)) fun r => .ret (some (acc r ++ carried now data r ps)) := by
  induction ps generalizing acc with
  | nil => exact ⟨0, by simpa [carry, carried] using Runs.nil _⟩
  | cons p ps ih =>
    obtain ⟨xi, i⟩ := p
    have h1 : ∀ r, old r (i - 1) = decide (r = was (i - 1)) := fun r => by
      have := (hold (xi, i) (by simp) r).1
      cases h : old r (i - 1) <;> simp_all
    have h2 : ∀ r, old r i = decide (r = was i) := fun r => by
      have := (hold (xi, i) (by simp) r).2
      cases h : old r i <;> simp_all
    have h3 : ∀ r, new r xi = decide (r = now xi) := fun r => by
      have := hnew (xi, i) (by simp) r
      cases h : new r xi <;> simp_all
    obtain ⟨m, hm⟩ := ih (fun p hp => hold p (by simp [hp])) (fun p hp => hnew p (by simp [hp])) (fun r => if now xi = r then acc r ++ [(xi, data (i - 1), data i)] else acc r)
    have s1 := Sync.coll (fun r => carry old new data r ((xi, i) :: ps) (acc r)) _ _ (fun r => rfl)
    simp only [h1, h2, h3, decide_eq_true_eq] at s1
    rw [total_owner _ (fun a _ _ => a) (was (i - 1)) (fun r => rfl), total_owner _ (fun _ b _ => b) (was i) (fun r => rfl), total_owner _ (fun _ _ c => c) (now xi) (fun r => rfl)] at s1
    obtain ⟨m2, s2⟩ := fetch_run (was (i - 1)) (now xi) 2 (data (i - 1)) fun (r : Fin n) l =>
      fetch r (was i).val (now xi).val 1 (if r = was i then some (data i) else none) fun r' =>
        if r.val = (now xi).val then match l, r' with
          | some l, some r' => carry old new data r ps (acc r ++ [(xi, l, r')])
          | _, _ => .ret none
        else carry old new data r ps (acc r)
    obtain ⟨m3, s3⟩ := fetch_run (was i) (now xi) 1 (data i) fun (r : Fin n) r' =>
        if r.val = (now xi).val then match (if r = now xi then some (data (i - 1)) else none : Option (List K)), r' with
          | some l, some r' => carry old new data r ps (acc r ++ [(xi, l, r')])
          | _, _ => .ret none
        else carry old new data r ps (acc r)
    refine ⟨1 + (m2 + (m3 + m)), (Runs.one s1).trans (s2.trans (s3.trans ?_))⟩
    convert hm using 1
    · funext r
      by_cases hr : r = now xi
      · subst hr; simp
      · have : r.val ≠ (now xi).val := fun h => hr (Fin.ext h)
        simp [Ne.symm hr, this]
    · funext r
      by_cases hr : now xi = r
      · simp [carried, hr]
      · simp [carried, hr]

/-- **The messages of a change of the grid.**  If every grid point has one owner, then every execution of the loop is bounded and can be continued to the end where every rank has, for each of its new grid points and in order, the arrays of the two old grid points; nothing is left in flight, and no order of the steps and no buffering by MPI matters. -/
theorem carry_all [NeZero n] (old new : Fin n → ℕ → Bool) (data : ℕ → List K) (was now : ℕ → Fin n) (ps : List (ℕ × ℕ))
    (hold : ∀ p ∈ ps, ∀ r, (old r (p.2 - 1) = true ↔ r = was (p.2 - 1)) ∧ (old r p.2 = true ↔ r = was p.2)) (hnew : ∀ p ∈ ps, ∀ r, new r p.1 = true ↔ r = now p.1) :
    (∃ N, ∀ m c, Runs Step m (quiet fun r => carry old new data r ps []) c → m ≤ N ∧ Runs Step (N - m) c (quiet fun r => .ret (some (carried now data r ps)))) ∧
      ∃ N, ∀ m q, Runs Sync m (fun r => carry old new data r ps []) q → m ≤ N ∧ Runs Sync (N - m) q fun r => .ret (some (carried now data r ps)) := by
  obtain ⟨m, hm⟩ := carry_run old new data was now ps hold hnew fun _ => []
  have : Inhabited (Fin n) := ⟨0⟩
  obtain ⟨h1, h2⟩ := one_for_all (fun r => carry_named _ _ _ _ _ _) hm (fun r => ⟨_, rfl⟩)
  exact ⟨by simpa using h1, m, by simpa using h2⟩

/-- Every new grid point is computed by its owner and by no other. -/
theorem carried_mem (owner : ℕ → Fin n) (data : ℕ → List K) (r : Fin n) (ps : List (ℕ × ℕ)) (x : ℕ × List K × List K) :
    x ∈ carried owner data r ps ↔ ∃ p ∈ ps, owner p.1 = r ∧ x = (p.1, data (p.2 - 1), data p.2) := by
  simp [carried, eq_comm, and_assoc]

/-- The collective calls of the loop are made on all processes of the run.  If some of them are not part of this simulation, the others wait for ever at the first grid point: no step can be taken. -/
theorem carry_world (old new : Fin n → ℕ → Bool) (data : ℕ → List K) (p : ℕ × ℕ) (ps : List (ℕ × ℕ)) (part : Fin n → Bool) (x : Fin n) (hx : part x = false) (d : Conf (Fin n) (Word K) (Option (List (ℕ × List K × List K)))) :
    ¬Step (quiet fun r => if part r then carry old new data r (p :: ps) [] else .ret none) d := by
  intro s
  cases s with
  | send r dst tag v k e =>
    simp only [quiet] at e
    cases h : part r <;> simp [h, carry] at e
  | recv r s src tag k v q e _ hq => simp [quiet] at hq
  | coll v k e =>
    have := e x
    simp [quiet, hx] at this

end carry

/-! ### The series -/

section series

/-- A rank that receives a list of messages from another and goes on. -/
inductive Eats (i : ι) : Prog ι V R → List (ℕ × V) → Prog ι V R → Prop where
  | nil (P : Prog ι V R) : Eats i P [] P
  | cons {tag : ℕ} {k : V → Prog ι V R} {v : V} {l : List (ℕ × V)} {Q : Prog ι V R} (h : Eats i (k v) l Q) : Eats i (.recv (some i) tag k) ((tag, v) :: l) Q

theorem Eats.trans {i : ι} {P Q S : Prog ι V R} {l l' : List (ℕ × V)} (h : Eats i P l Q) (g : Eats i Q l' S) : Eats i P (l ++ l') S := by
  induction h with
  | nil P => exact g
  | cons h ih => exact .cons (ih g)

theorem eats_run {i root : ι} (hi : i ≠ root) {P Q k : Prog ι V R} {l : List (ℕ × V)} (h : Eats i P l Q) : ∀ p : ι → Prog ι V R, p root = P → p i = sends (l.map fun m => (root, m.1, m.2)) k →
    Runs Sync l.length p (update (update p i k) root Q) := by
  induction h with
  | nil P =>
    intro p h1 h2
    have : update (update p i k) root P = p := by
      funext x
      by_cases hx : x = root
      · subst hx; simp [h1]
      · by_cases hx' : x = i
        · subst hx'; simpa [hx, sends] using h2.symm
        · simp [hx, hx']
    rw [this]; exact .nil _
  | @cons tag kk v l Q h ih =>
    intro p h1 h2
    have s := Sync.pass p i root (some i) tag v (sends (l.map fun (m : ℕ × V) => (root, m.1, m.2)) k) kk h2 h1 (.inr rfl)
    refine .cons s ?_
    convert ih (update (update p i (sends (l.map fun m => (root, m.1, m.2)) k)) root (kk v)) (by simp) (by simp [hi]) using 1
    funext x
    by_cases hx : x = root
    · subst hx; simp
    · by_cases hx' : x = i
      · subst hx'; simp [hx]
      · simp [hx, hx']

theorem eats_concs (i : ι) (x : K) (cs : List K) (j : ℕ) (acc : Points K) (k : Points K → Prog ι (Word K) (Option (Points K))) :
    Eats i (recvConcs i x cs.length j acc k) (cs.map fun c => (22, .dbl c)) (k (acc ++ (cs.zipIdx j).map fun y => (y.2, x, y.1))) := by
  induction cs generalizing j acc with
  | nil => simpa [recvConcs] using Eats.nil _
  | cons c cs ih =>
    refine .cons ?_
    simpa [asDbl] using ih (j + 1) (acc ++ [(j, x, c)])

theorem eats_grid (i : ι) (loop : ℕ) (pts : List (K × List K)) (hl : ∀ p ∈ pts, p.2.length = loop) (acc : Points K) (k : Points K → Prog ι (Word K) (Option (Points K))) :
    Eats i (recvGrid loop i pts.length acc k) (pts.flatMap fun p => (21, .dbl p.1) :: p.2.map fun c => (22, .dbl c)) (k (acc ++ pts.flatMap ofGrid)) := by
  induction pts generalizing acc with
  | nil => simpa [recvGrid] using Eats.nil _
  | cons p pts ih =>
    rw [List.flatMap_cons]
    refine .cons ?_
    have h1 := eats_concs i p.1 p.2 0 acc fun acc => recvGrid loop i pts.length acc k
    rw [hl p (by simp)] at h1
    have h2 := ih (fun p hp => hl p (by simp [hp])) (acc ++ ofGrid p)
    simpa [asDbl, ofGrid] using h1.trans h2

theorem eats_rank (i : ι) (loop : ℕ) (pts : List (K × List K)) (hl : ∀ p ∈ pts, p.2.length = loop) (l : List ι) (acc : Points K) :
    Eats i (recvRanks loop (i :: l) acc) ((20, .int pts.length) :: pts.flatMap fun p => (21, .dbl p.1) :: p.2.map fun c => (22, .dbl c)) (recvRanks loop l (acc ++ pts.flatMap ofGrid)) :=
  .cons (by simpa [asInt] using eats_grid i loop pts hl acc fun acc => recvRanks loop l acc)

theorem sendRank_eq (root : ι) (size : ℕ → Word K) (pts : List (K × List K)) :
    sendRank root size pts = sends (((20, size pts.length) :: pts.flatMap fun p => (21, .dbl p.1) :: p.2.map fun c => (22, .dbl c)).map fun m => (root, m.1, m.2)) (.ret (some [])) := by
  have : (gridMsgs root : K × List K → List (ι × ℕ × Word K)) = fun p => (root, 21, .dbl p.1) :: p.2.map fun c => (root, 22, .dbl c) := rfl
  simp [sendRank, this, List.map_flatMap, Function.comp_def]

theorem ranks_run (root : ι) (loop : ℕ) (pts : ι → List (K × List K)) (hl : ∀ i, ∀ p ∈ pts i, p.2.length = loop) (l : List ι) (hn : l.Nodup) (hr : root ∉ l) (acc : Points K) :
    ∀ p : ι → Prog ι (Word K) (Option (Points K)), p root = recvRanks loop l acc → (∀ i ∈ l, p i = sendRank root .int (pts i)) →
      ∃ m, Runs Sync m p fun r => if r = root then .ret (some (acc ++ l.flatMap fun i => (pts i).flatMap ofGrid)) else if r ∈ l then .ret (some []) else p r := by
  induction l generalizing acc with
  | nil =>
    intro p h1 _
    refine ⟨0, ?_⟩
    have : (fun r => if r = root then .ret (some (acc ++ [].flatMap fun i => (pts i).flatMap ofGrid)) else if r ∈ [] then .ret (some []) else p r) = p := by
      funext r
      by_cases h : r = root
      · subst h; simp [h1, recvRanks]
      · simp [h]
    rw [this]; exact .nil _
  | cons i l ih =>
    intro p h1 h2
    have hi : i ≠ root := fun h => hr (by simp [h])
    have hil : i ∉ l := (List.nodup_cons.1 hn).1
    have s1 := eats_run hi (eats_rank i loop (pts i) (hl i) l acc) p h1 (by rw [h2 i (by simp), sendRank_eq])
    obtain ⟨m, s2⟩ := ih (List.nodup_cons.1 hn).2 (fun h => hr (by simp [h])) (acc ++ (pts i).flatMap ofGrid)
      (update (update p i (.ret (some []))) root (recvRanks loop l (acc ++ (pts i).flatMap ofGrid))) (by simp) (fun j hj => by
        have hj1 : j ≠ root := fun h => hr (by simp [← h, hj])
        have hj2 : j ≠ i := fun h => hil (h ▸ hj)
        simpa [hj1, hj2] using h2 j (by simp [hj]))
    refine ⟨_ + m, s1.trans ?_⟩
    · convert s2 using 1
      funext r
      by_cases h : r = root
      · simp [h]
      · by_cases h' : r = i
        · subst h'; simp [h, hil]
        · simp [h, h']

theorem recvConcs_named (i : ι) (x : K) (m j : ℕ) (acc : Points K) (k : Points K → Prog ι (Word K) (Option (Points K))) (hk : ∀ a, (k a).named) : (recvConcs i x m j acc k).named := by
  induction m generalizing j acc with
  | zero => exact hk _
  | succ m ih =>
    refine ⟨rfl, fun w => ?_⟩
    cases h : asDbl w
    · simp only [h, Prog.named]
    · simp only [h]; exact ih _ _

theorem recvGrid_named (loop : ℕ) (i : ι) (m : ℕ) (acc : Points K) (k : Points K → Prog ι (Word K) (Option (Points K))) (hk : ∀ a, (k a).named) : (recvGrid loop i m acc k).named := by
  induction m generalizing acc with
  | zero => exact hk _
  | succ m ih =>
    refine ⟨rfl, fun w => ?_⟩
    cases h : asDbl w
    · simp only [h, Prog.named]
    · simp only [h]; exact recvConcs_named _ _ _ _ _ _ fun a => ih a

theorem recvRanks_named (loop : ℕ) (l : List ι) (acc : Points K) : (recvRanks loop l acc).named := by
  induction l generalizing acc with
  | nil => trivial
  | cons i l ih =>
    refine ⟨rfl, fun w => ?_⟩
    cases h : asInt w
    · simp only [h, Prog.named]
    · simp only [h]; exact recvGrid_named _ _ _ _ _ fun a => ih a

theorem sends_named (l : List (ι × ℕ × V)) (k : Prog ι V R) (hk : k.named) : (sends l k).named := by
  induction l with
  | nil => exact hk
  | cons m l ih => exact ih

theorem series_named (n loop : ℕ) (size : ℕ → Word K) (pts : Fin (n + 1) → List (K × List K)) : AllNamed (series n loop size pts) := by
  intro r
  unfold series
  split_ifs
  · exact recvRanks_named _ _ _
  · exact sends_named _ _ trivial

/-- What the series should show: the points of all ranks, in the order of the ranks and of their grid points. -/
def wanted (n : ℕ) (pts : Fin (n + 1) → List (K × List K)) : Points K := (List.finRange (n + 1)).flatMap fun r => (pts r).flatMap ofGrid

theorem wanted_eq (n : ℕ) (pts : Fin (n + 1) → List (K × List K)) : wanted n pts = (pts 0).flatMap ofGrid ++ ((List.finRange n).map Fin.succ).flatMap fun i => (pts i).flatMap ofGrid := by
  rw [wanted, List.finRange_succ]; simp

/-- If the number of grid points were sent as the integer that is received, every execution would end with all points at the first rank. -/
theorem series_if_int (n loop : ℕ) (pts : Fin (n + 1) → List (K × List K)) (hl : ∀ i, ∀ p ∈ pts i, p.2.length = loop) :
    ∃ z : Fin (n + 1) → Prog (Fin (n + 1)) (Word K) (Option (Points K)), z 0 = .ret (some (wanted n pts)) ∧
      (∃ N, ∀ m c, Runs Step m (quiet (series n loop .int pts)) c → m ≤ N ∧ Runs Step (N - m) c (quiet z)) ∧ ∃ N, ∀ m q, Runs Sync m (series n loop .int pts) q → m ≤ N ∧ Runs Sync (N - m) q z := by
  have hnd : ((List.finRange n).map Fin.succ).Nodup := (List.nodup_finRange n).map (Fin.succ_injective n)
  obtain ⟨m, hm⟩ := ranks_run (0 : Fin (n + 1)) loop pts hl ((List.finRange n).map Fin.succ) hnd (by simp [Fin.succ_ne_zero]) ((pts 0).flatMap ofGrid) (series n loop .int pts) (by simp [series]) (by
    intro i hi
    obtain ⟨j, _, rfl⟩ := List.mem_map.1 hi
    simp [series, Fin.succ_ne_zero])
  have hz : Done (fun r : Fin (n + 1) => if r = 0 then (.ret (some ((pts 0).flatMap ofGrid ++ ((List.finRange n).map Fin.succ).flatMap fun i => (pts i).flatMap ofGrid)) : Prog (Fin (n + 1)) (Word K) (Option (Points K)))
      else if r ∈ (List.finRange n).map Fin.succ then .ret (some []) else series n loop .int pts r) := by
    intro r
    refine Fin.cases ⟨_, if_pos rfl⟩ (fun j => ⟨some [], ?_⟩) r
    simp [Fin.succ_ne_zero]
  obtain ⟨h1, h2⟩ := one_for_all (series_named n loop .int pts) hm hz
  exact ⟨_, by simp [wanted_eq], h1, m, h2⟩

theorem ret_stays {c d : Conf ι V R} {r : ι} {x : R} (h : c.procs r = .ret x) (s : Step c d) : d.procs r = .ret x := by
  cases s with
  | send r' dst tag v k e =>
    have : r ≠ r' := fun h' => by subst h'; rw [h] at e; cases e
    simpa [this] using h
  | recv r' s src tag k v q e _ _ =>
    have : r ≠ r' := fun h' => by subst h'; rw [h] at e; cases e
    simpa [this] using h
  | coll v k e => have := e r; rw [h] at this; cases this

theorem ret_stays_runs {c d : Conf ι V R} {r : ι} {x : R} {m : ℕ} (h : c.procs r = .ret x) (s : Runs Step m c d) : d.procs r = .ret x := by
  induction s with
  | nil a => exact h
  | cons s t ih => exact ih (ret_stays h s)

theorem sends_run (l : List (ι × ℕ × V)) (k : Prog ι V R) (i : ι) : ∀ c : Conf ι V R, c.procs i = sends l k → ∃ m ch, Runs Step m c ⟨update c.procs i k, ch⟩ := by
  induction l with
  | nil =>
    intro c h
    refine ⟨0, c.chan, ?_⟩
    have : update c.procs i k = c.procs := by rw [show k = c.procs i from h.symm]; simp
    rw [this]; exact .nil _
  | cons m l ih =>
    intro c h
    obtain ⟨j, ch, hj⟩ := ih ⟨update c.procs i (sends l k), update c.chan (i, m.1, m.2.1) (c.chan (i, m.1, m.2.1) ++ [m.2.2])⟩ (by simp)
    refine ⟨j + 1, ch, .cons (.send c i m.1 m.2.1 m.2.2 (sends l k) h) ?_⟩
    simpa using hj

theorem all_send (x : R) (l : List ι) : ∀ c : Conf ι V R, (∀ i ∈ l, ∃ ms, c.procs i = sends ms (.ret x)) →
    ∃ m d, Runs Step m c d ∧ (∀ i ∈ l, d.procs i = .ret x) ∧ ∀ i, i ∉ l → d.procs i = c.procs i := by
  induction l with
  | nil => exact fun c _ => ⟨0, c, .nil _, by simp, fun _ _ => rfl⟩
  | cons i l ih =>
    intro c h
    obtain ⟨ms, hms⟩ := h i (by simp)
    obtain ⟨m, ch, hm⟩ := sends_run ms (.ret x) i c hms
    obtain ⟨m', d, hd, h1, h2⟩ := ih ⟨update c.procs i (.ret x), ch⟩ (fun j hj => by
      by_cases hji : j = i
      · exact ⟨[], by simp [hji, sends]⟩
      · simpa [hji] using h j (by simp [hj]))
    refine ⟨m + m', d, hm.trans hd, fun j hj => ?_, fun j hj => ?_⟩
    · by_cases hjl : j ∈ l
      · exact h1 j hjl
      · have : j = i := by simpa [hjl] using hj
        subst this
        rw [h2 j hjl]; simp
    · simp only [List.mem_cons, not_or] at hj
      rw [h2 j hj.2]; simp [hj.1]

/-- **The series needs one process.**  The number of grid points leaves as an `MPI_DOUBLE` and is received as one `MPI_INT`: with two or more processes every execution is bounded and can only be continued to an end where the first rank has stopped at a message that is too long. -/
theorem series_fails (n loop : ℕ) (pts : Fin (n + 2) → List (K × List K)) :
    ∃ z : Conf (Fin (n + 2)) (Word K) (Option (Points K)), z.procs 0 = .ret none ∧ ∃ N, ∀ m c, Runs Step m (quiet (series (n + 1) loop sizeSent pts)) c → m ≤ N ∧ Runs Step (N - m) c z := by
  set p := series (n + 1) loop sizeSent pts with hp
  have h1 : p 1 = sends ((0, 20, .raw) :: (pts 1).flatMap (gridMsgs 0)) (.ret (some [])) := by simp [hp, series, sendRank, sizeSent]
  have h0 : p 0 = .recv (some 1) 20 fun w => match asInt w with
      | some m => recvGrid loop 1 m ((pts 0).flatMap ofGrid) fun acc => recvRanks loop ((List.finRange n).map Fin.succ |>.map Fin.succ) acc
      | none => .ret none := by
    simp only [hp, series, if_true, List.finRange_succ, List.map_cons]
    rfl
  have s := Sync.pass p 1 0 (some 1) 20 .raw (sends ((pts 1).flatMap (gridMsgs 0)) (.ret (some []))) _ h1 h0 (.inr rfl)
  obtain ⟨m1, r1⟩ := sync_step s
  obtain ⟨m2, z, r2, hz1, hz2⟩ := all_send (some []) ((List.finRange (n + 1)).map Fin.succ)
    (quiet (update (update p 1 (sends ((pts 1).flatMap (gridMsgs 0)) (.ret (some [])))) 0 (.ret none))) (by
      intro i hi
      obtain ⟨j, _, rfl⟩ := List.mem_map.1 hi
      by_cases hj : j.succ = 1
      · exact ⟨(pts 1).flatMap (gridMsgs 0), by rw [hj]; simp [quiet]⟩
      · exact ⟨(0, 20, .raw) :: (pts j.succ).flatMap (gridMsgs 0), by simp [quiet, hj, Fin.succ_ne_zero, hp, series, sendRank, sizeSent]⟩)
  have hz0 : z.procs 0 = .ret none := by
    rw [hz2 0 (by simp [Fin.succ_ne_zero])]; simp [quiet]
  have hdone : Done z.procs := by
    intro r
    refine Fin.cases ⟨_, hz0⟩ (fun j => ⟨_, hz1 _ (by simp)⟩) r
  refine ⟨z, hz0, m1 + m2, fun m c h => ?_⟩
  exact diamond (fun c => AllNamed c.procs) step_named step_diamond (done_step hdone) (m1 + m2) (quiet p) (series_named _ _ _ _) (r1.trans r2) m c h

/-- No execution gives the points of a series to more than one process. -/
theorem series_never (n loop : ℕ) (pts : Fin (n + 2) → List (K × List K)) (x : Points K) :
    (∀ m c, Runs Step m (quiet (series (n + 1) loop sizeSent pts)) c → c.procs 0 ≠ .ret (some x)) ∧ ∀ m q, Runs Sync m (series (n + 1) loop sizeSent pts) q → q 0 ≠ .ret (some x) := by
  obtain ⟨z, hz, N, hN⟩ := series_fails n loop pts
  have key : ∀ m c, Runs Step m (quiet (series (n + 1) loop sizeSent pts)) c → c.procs 0 ≠ .ret (some x) := by
    intro m c h hc
    have := ret_stays_runs hc (hN m c h).2
    rw [hz] at this; cases this
  refine ⟨key, fun m q h hq => ?_⟩
  obtain ⟨m', h'⟩ := sync_steps h
  exact key m' _ h' hq

/-- With one process there is nothing to receive. -/
theorem series_one (loop : ℕ) (pts : Fin 1 → List (K × List K)) : series 0 loop sizeSent pts 0 = .ret (some (wanted 0 pts)) := by
  simp [series, wanted_eq, recvRanks]

end series

/-! ### The surface -/

section surface
variable {n : ℕ}

/-- The three messages about a grid point. -/
def part (p : K × K × K) : ℕ → Word K
  | 0 => .dbl p.1
  | 1 => .dbl p.2.1
  | _ => .dbl p.2.2

/-- The points that the first rank should have. -/
def points (l : List (K × K × K)) : List (Word K × Word K × Word K) := l.map fun p => (.dbl p.1, .dbl p.2.1, .dbl p.2.2)

/-- What a rank has collected: the first all points, the others none. -/
def held (l : List (K × K × K)) (r : Fin (n + 1)) : List (Word K × Word K × Word K) := if r = 0 then points l else []

/-- The owner of a grid point after `k` of its three messages. -/
def ownerAt (own : K × K × K → Fin (n + 1)) (p : K × K × K) (ps : List (K × K × K)) : ℕ → Prog (Fin (n + 1)) (Word K) (List (Word K × Word K × Word K))
  | 0 => .send 0 10 (.dbl p.1) (.send 0 11 (.dbl p.2.1) (.send 0 12 (.dbl p.2.2) (.coll (.int 0) fun _ => surface own (own p) ps [])))
  | 1 => .send 0 11 (.dbl p.2.1) (.send 0 12 (.dbl p.2.2) (.coll (.int 0) fun _ => surface own (own p) ps []))
  | 2 => .send 0 12 (.dbl p.2.2) (.coll (.int 0) fun _ => surface own (own p) ps [])
  | _ => .coll (.int 0) fun _ => surface own (own p) ps []

/-- The first rank after `m` of the three messages. -/
def rootAt (own : K × K × K → Fin (n + 1)) (p : K × K × K) (ps : List (K × K × K)) (acc : List (Word K × Word K × Word K)) : ℕ → Prog (Fin (n + 1)) (Word K) (List (Word K × Word K × Word K))
  | 0 => .recv none 10 fun x => .recv none 11 fun y => .recv none 12 fun c => .coll (.int 0) fun _ => surface own 0 ps (acc ++ [(x, y, c)])
  | 1 => .recv none 11 fun y => .recv none 12 fun c => .coll (.int 0) fun _ => surface own 0 ps (acc ++ [(.dbl p.1, y, c)])
  | 2 => .recv none 12 fun c => .coll (.int 0) fun _ => surface own 0 ps (acc ++ [(.dbl p.1, .dbl p.2.1, c)])
  | _ => .coll (.int 0) fun _ => surface own 0 ps (acc ++ [(.dbl p.1, .dbl p.2.1, .dbl p.2.2)])

/-- The ranks at a grid point. -/
def midProcs (own : K × K × K → Fin (n + 1)) (l : List (K × K × K)) (p : K × K × K) (ps : List (K × K × K)) (k m : ℕ) (r : Fin (n + 1)) : Prog (Fin (n + 1)) (Word K) (List (Word K × Word K × Word K)) :=
  if r = 0 then rootAt own p ps (points l) m else if r = own p then ownerAt own p ps k else .coll (.int 0) fun _ => surface own r ps []

/-- A grid point of another rank with `k` messages sent and `m` received. -/
def mid (own : K × K × K → Fin (n + 1)) (l : List (K × K × K)) (p : K × K × K) (ps : List (K × K × K)) (k m : ℕ) : Conf (Fin (n + 1)) (Word K) (List (Word K × Word K × Word K)) :=
  ⟨midProcs own l p ps k m, fun x => if x.1 = own p ∧ x.2.1 = 0 ∧ 10 + m ≤ x.2.2 ∧ x.2.2 < 10 + k then [part p (x.2.2 - 10)] else []⟩

/-- The number of steps for some grid points: one for those of the first rank and seven for the others. -/
def cost (own : K × K × K → Fin (n + 1)) (l : List (K × K × K)) : ℕ := (l.map fun p => if own p = 0 then 1 else 7).sum

/-- Where an execution can be. -/
inductive At (own : K × K × K → Fin (n + 1)) (all : List (K × K × K)) : ℕ → Conf (Fin (n + 1)) (Word K) (List (Word K × Word K × Word K)) → Prop where
  | fin : At own all (cost own all) (quiet fun r => .ret (held all r))
  | own (l : List (K × K × K)) (p : K × K × K) (ps : List (K × K × K)) (e : all = l ++ p :: ps) (h : own p = 0) : At own all (cost own l) (quiet fun r => surface own r (p :: ps) (held l r))
  | mid (l : List (K × K × K)) (p : K × K × K) (ps : List (K × K × K)) (k m : ℕ) (e : all = l ++ p :: ps) (h : own p ≠ 0) (hm : m ≤ k) (hk : k ≤ 3) : At own all (cost own l + k + m) (mid own l p ps k m)

theorem mid_start (own : K × K × K → Fin (n + 1)) (l : List (K × K × K)) (p : K × K × K) (ps : List (K × K × K)) (h : own p ≠ 0) : mid own l p ps 0 0 = quiet fun r => surface own r (p :: ps) (held l r) := by
  unfold mid quiet
  congr 1
  · funext r
    by_cases hr : r = 0
    · subst hr; simp [midProcs, surface, rootAt, h, held]
    · by_cases hp : own p = r
      · subst hp; simp [midProcs, surface, ownerAt, hr, held]
      · simp [midProcs, surface, hr, hp, Ne.symm hp, held]
  · funext x
    rw [if_neg (by omega)]

theorem at_enter (own : K × K × K → Fin (n + 1)) (all l ps : List (K × K × K)) (e : all = l ++ ps) : At own all (cost own l) (quiet fun r => surface own r ps (held l r)) := by
  cases ps with
  | nil =>
    simp only [List.append_nil] at e
    subst e
    exact .fin
  | cons p ps =>
    by_cases h : own p = 0
    · exact .own l p ps e h
    · rw [← mid_start own l p ps h]
      exact .mid l p ps 0 0 e h le_rfl (by omega)

theorem cost_snoc (own : K × K × K → Fin (n + 1)) (l : List (K × K × K)) (p : K × K × K) : cost own (l ++ [p]) = cost own l + if own p = 0 then 1 else 7 := by simp [cost]

theorem points_snoc (l : List (K × K × K)) (p : K × K × K) : points (l ++ [p]) = points l ++ [(.dbl p.1, .dbl p.2.1, .dbl p.2.2)] := by simp [points]

/-- From a grid point of the first rank all ranks go to the next. -/
theorem own_step (own : K × K × K → Fin (n + 1)) (l : List (K × K × K)) (p : K × K × K) (ps : List (K × K × K)) (h : own p = 0) (c : Conf (Fin (n + 1)) (Word K) (List (Word K × Word K × Word K))) :
    Step (quiet fun r => surface own r (p :: ps) (held l r)) c ↔ c = quiet fun r => surface own r ps (held (l ++ [p]) r) := by
  have hp : ∀ r, surface own r (p :: ps) (held l r) = .coll (.int 0) fun _ => surface own r ps (held (l ++ [p]) r) := by
    intro r
    by_cases hr : r = 0
    · subst hr; simp [surface, h, held, points_snoc]
    · simp [surface, h, hr, Ne.symm hr, held]
  constructor
  · intro s
    cases s with
    | send r dst tag v k e => have := (hp r).symm.trans e; cases this
    | recv r s src tag k v q e _ _ => have := (hp r).symm.trans e; cases this
    | coll v k e =>
      have : ∀ r, k r v = surface own r ps (held (l ++ [p]) r) := fun r => by
        have := (hp r).symm.trans (e r)
        injection this with _ h2
        rw [← h2]
      simp only [quiet, this]
  · rintro rfl
    exact Step.coll (quiet fun r => surface own r (p :: ps) (held l r)) (fun _ => .int 0) (fun r _ => surface own r ps (held (l ++ [p]) r)) hp

theorem owner_send (own : K × K × K → Fin (n + 1)) (p : K × K × K) (ps : List (K × K × K)) (k : ℕ) (hk : k < 3) : ownerAt own p ps k = .send 0 (10 + k) (part p k) (ownerAt own p ps (k + 1)) := by
  interval_cases k <;> rfl

theorem root_recv (own : K × K × K → Fin (n + 1)) (p : K × K × K) (ps : List (K × K × K)) (acc : List (Word K × Word K × Word K)) (m : ℕ) (hm : m < 3) :
    ∃ k, rootAt own p ps acc m = .recv none (10 + m) k ∧ k (part p m) = rootAt own p ps acc (m + 1) := by
  interval_cases m <;> exact ⟨_, rfl, rfl⟩

/-- The steps from a grid point of another rank: its owner sends, the first rank receives, or all go on. -/
theorem mid_step (own : K × K × K → Fin (n + 1)) (l : List (K × K × K)) (p : K × K × K) (ps : List (K × K × K)) (k m : ℕ) (h : own p ≠ 0) (hm : m ≤ k) (hk : k ≤ 3) (c : Conf (Fin (n + 1)) (Word K) (List (Word K × Word K × Word K))) :
    Step (mid own l p ps k m) c ↔ (k < 3 ∧ c = mid own l p ps (k + 1) m) ∨ (m < k ∧ c = mid own l p ps k (m + 1)) ∨ (k = 3 ∧ m = 3 ∧ c = quiet fun r => surface own r ps (held (l ++ [p]) r)) := by
  have hsend : k < 3 → (⟨update (midProcs own l p ps k m) (own p) (ownerAt own p ps (k + 1)), update (mid own l p ps k m).chan (own p, 0, 10 + k) ((mid own l p ps k m).chan (own p, 0, 10 + k) ++ [part p k])⟩ :
      Conf (Fin (n + 1)) (Word K) (List (Word K × Word K × Word K))) = mid own l p ps (k + 1) m := by
    intro hk3
    unfold mid
    congr 1
    · funext r
      by_cases hr : r = own p
      · subst hr; simp [midProcs, h]
      · simp [midProcs, hr]
    · funext x
      obtain ⟨a, b, t⟩ := x
      by_cases hx : (a, b, t) = ((own p, 0, 10 + k) : Fin (n + 1) × Fin (n + 1) × ℕ)
      · cases hx
        simp; omega
      · rw [Function.update_of_ne hx]
        by_cases ha : a = own p ∧ b = 0
        · obtain ⟨rfl, rfl⟩ := ha
          have ht : t ≠ 10 + k := fun h => hx (by rw [h])
          have : (10 + m ≤ t ∧ t < 10 + k) ↔ (10 + m ≤ t ∧ t < 10 + (k + 1)) := by omega
          simp [this]
        · simp only [← and_assoc, ha, false_and]
  have hrecv : m < k → (⟨update (midProcs own l p ps k m) 0 (rootAt own p ps (points l) (m + 1)), update (mid own l p ps k m).chan (own p, 0, 10 + m) []⟩ :
      Conf (Fin (n + 1)) (Word K) (List (Word K × Word K × Word K))) = mid own l p ps k (m + 1) := by
    intro hmk
    unfold mid
    congr 1
    · funext r
      by_cases hr : r = 0
      · subst hr; simp [midProcs]
      · simp [midProcs, hr]
    · funext x
      obtain ⟨a, b, t⟩ := x
      by_cases hx : (a, b, t) = ((own p, 0, 10 + m) : Fin (n + 1) × Fin (n + 1) × ℕ)
      · cases hx
        simp
      · rw [Function.update_of_ne hx]
        by_cases ha : a = own p ∧ b = 0
        · obtain ⟨rfl, rfl⟩ := ha
          have ht : t ≠ 10 + m := fun h => hx (by rw [h])
          have : (10 + m ≤ t ∧ t < 10 + k) ↔ (10 + (m + 1) ≤ t ∧ t < 10 + k) := by omega
          simp [this]
        · simp only [← and_assoc, ha, false_and]
  have hcoll : k = 3 → m = 3 → ∀ r, midProcs own l p ps k m r = .coll (.int 0) fun _ => surface own r ps (held (l ++ [p]) r) := by
    rintro rfl rfl r
    by_cases hr : r = 0
    · subst hr; simp [midProcs, rootAt, held, points_snoc]
    · by_cases ho : r = own p
      · subst ho; simp [midProcs, ownerAt, h, held]
      · simp [midProcs, hr, ho, held]
  have hquiet : k = 3 → m = 3 → (mid own l p ps k m).chan = fun _ => [] := by
    rintro rfl rfl
    funext x
    simp only [mid]
    rw [if_neg (by omega)]
  constructor
  · intro s
    cases s with
    | send r dst tag v kk e =>
      simp only [mid, midProcs] at e
      split_ifs at e with h1 h2
      · have hmm : m = 3 ∨ m < 3 := by omega
        rcases hmm with rfl | hm3
        · simp [rootAt] at e
        · obtain ⟨k', hk', _⟩ := root_recv own p ps (points l) m hm3
          rw [hk'] at e; cases e
      · have hkk : k = 3 ∨ k < 3 := by omega
        rcases hkk with rfl | hk3
        · simp [ownerAt] at e
        · rw [owner_send own p ps k hk3] at e
          cases e
          subst h2
          exact .inl ⟨hk3, hsend hk3⟩
    | recv r s src tag kk v q e hs hq =>
      simp only [mid, midProcs] at e
      split_ifs at e with h1 h2
      · have hmm : m = 3 ∨ m < 3 := by omega
        rcases hmm with rfl | hm3
        · simp [rootAt] at e
        · obtain ⟨k', hk', hn'⟩ := root_recv own p ps (points l) m hm3
          rw [hk'] at e; cases e
          subst h1
          simp only [mid] at hq
          split_ifs at hq with hc
          · obtain ⟨rfl, _, _, hlt⟩ := hc
            have hmk : m < k := by omega
            cases hq
            rw [show 10 + m - 10 = m from by omega, hn']
            exact .inr (.inl ⟨hmk, hrecv hmk⟩)
      · have hkk : k = 3 ∨ k < 3 := by omega
        rcases hkk with rfl | hk3
        · simp [ownerAt] at e
        · rw [owner_send own p ps k hk3] at e; cases e
    | coll v kk e =>
      have h3 : m = 3 := by
        by_contra hne
        obtain ⟨k', hk', _⟩ := root_recv own p ps (points l) m (by omega)
        have := e 0
        simp only [mid, midProcs, if_true, hk'] at this
        cases this
      have hk3 : k = 3 := by omega
      refine .inr (.inr ⟨hk3, h3, ?_⟩)
      have : ∀ r, kk r v = surface own r ps (held (l ++ [p]) r) := fun r => by
        have := (hcoll hk3 h3 r).symm.trans (e r)
        injection this with _ h2
        rw [← h2]
      simp only [quiet, this, hquiet hk3 h3]
  · rintro (⟨h1, rfl⟩ | ⟨h1, rfl⟩ | ⟨rfl, rfl, rfl⟩)
    · rw [← hsend h1]
      exact .send _ (own p) 0 (10 + k) (part p k) _ (by simp [mid, midProcs, h, owner_send own p ps k h1])
    · rw [← hrecv h1]
      obtain ⟨k', hk', hn'⟩ := root_recv own p ps (points l) m (by omega)
      rw [← hn']
      exact .recv _ 0 (own p) none (10 + m) k' (part p m) [] (by simp [mid, midProcs, hk']) (.inl rfl) (by simp [mid, h1])
    · have := Step.coll (mid own l p ps 3 3) (fun _ => .int 0) (fun r _ => surface own r ps (held (l ++ [p]) r)) (hcoll rfl rfl)
      rw [hquiet rfl rfl] at this
      exact this

theorem at_le (own : K × K × K → Fin (n + 1)) (all : List (K × K × K)) (j : ℕ) (c : Conf (Fin (n + 1)) (Word K) (List (Word K × Word K × Word K))) (h : At own all j c) : j ≤ cost own all := by
  cases h with
  | fin => exact le_rfl
  | own l p ps e h => subst e; simp [cost]
  | mid l p ps k m e h hm hk => subst e; simp [cost, h]; omega

theorem at_step (own : K × K × K → Fin (n + 1)) (all : List (K × K × K)) (j : ℕ) (c d : Conf (Fin (n + 1)) (Word K) (List (Word K × Word K × Word K))) (h : At own all j c) (s : Step c d) : At own all (j + 1) d := by
  cases h with
  | fin => exact absurd s (done_step (fun r => ⟨_, rfl⟩) d)
  | own l p ps e h =>
    rw [(own_step own l p ps h d).1 s]
    have := at_enter own all (l ++ [p]) ps (by simp [e])
    rwa [cost_snoc, if_pos h] at this
  | mid l p ps k m e h hm hk =>
    rcases (mid_step own l p ps k m h hm hk d).1 s with ⟨h1, rfl⟩ | ⟨h1, rfl⟩ | ⟨rfl, rfl, rfl⟩
    · have := At.mid (own := own) l p ps (k + 1) m e h (by omega) (by omega)
      rwa [show cost own l + k + m + 1 = cost own l + (k + 1) + m from by omega]
    · have := At.mid (own := own) l p ps k (m + 1) e h (by omega) (by omega)
      rwa [show cost own l + k + m + 1 = cost own l + k + (m + 1) from by omega]
    · have := at_enter own all (l ++ [p]) ps (by simp [e])
      rwa [cost_snoc, if_neg h] at this

theorem at_go (own : K × K × K → Fin (n + 1)) (all : List (K × K × K)) (j : ℕ) (c : Conf (Fin (n + 1)) (Word K) (List (Word K × Word K × Word K))) (h : At own all j c) :
    (c = quiet fun r => .ret (held all r)) ∧ j = cost own all ∨ ∃ d, Step c d := by
  cases h with
  | fin => exact .inl ⟨rfl, rfl⟩
  | own l p ps e h => exact .inr ⟨_, (own_step own l p ps h _).2 rfl⟩
  | mid l p ps k m e h hm hk =>
    right
    by_cases h1 : k < 3
    · exact ⟨_, (mid_step own l p ps k m h hm hk _).2 (.inl ⟨h1, rfl⟩)⟩
    · by_cases h2 : m < k
      · exact ⟨_, (mid_step own l p ps k m h hm hk _).2 (.inr (.inl ⟨h2, rfl⟩))⟩
      · exact ⟨_, (mid_step own l p ps k m h hm hk _).2 (.inr (.inr ⟨by omega, by omega, rfl⟩))⟩

theorem at_runs (own : K × K × K → Fin (n + 1)) (all : List (K × K × K)) {i m : ℕ} {c d : Conf (Fin (n + 1)) (Word K) (List (Word K × Word K × Word K))} (h : At own all i c) (r : Runs Step m c d) : At own all (i + m) d := by
  induction r generalizing i with
  | nil a => exact h
  | cons s t ih => have := ih (at_step own all _ _ _ h s); rwa [Nat.add_right_comm, Nat.add_assoc] at this

/-- **The surface.**  Although the first rank receives from any source, every execution of the loop is bounded and can be continued to the end where it has the points of the whole grid in order, each with its own positions and concentration: the barrier at each grid point leaves only messages of the owner. -/
theorem surface_all (own : K × K × K → Fin (n + 1)) (all : List (K × K × K)) (m : ℕ) (c : Conf (Fin (n + 1)) (Word K) (List (Word K × Word K × Word K))) (h : Runs Step m (quiet fun r => surface own r all []) c) :
    m ≤ cost own all ∧ Runs Step (cost own all - m) c (quiet fun r => .ret (held all r)) := by
  have start : At own all 0 (quiet fun r => surface own r all []) := by
    have := at_enter own all [] all (by simp)
    simpa [cost, held, points] using this
  have hc := at_runs own all start h
  rw [Nat.zero_add] at hc
  refine ⟨at_le own all m c hc, ?_⟩
  obtain ⟨d, hd⟩ : ∃ d, cost own all - m = d := ⟨_, rfl⟩
  rw [hd]
  clear h start
  induction d generalizing m c with
  | zero =>
    rcases at_go own all m c hc with ⟨h1, _⟩ | ⟨x, hx⟩
    · rw [h1]; exact .nil _
    · have := at_le own all _ _ (at_step own all m c x hc hx); omega
  | succ d ih =>
    rcases at_go own all m c hc with ⟨_, h2⟩ | ⟨x, hx⟩
    · omega
    · exact .cons hx (ih (m + 1) x (at_step own all m c x hc hx) (by omega))

/-- The same if every send waits: the first rank never has anything else, and no execution stops early. -/
theorem surface_sync (own : K × K × K → Fin (n + 1)) (all : List (K × K × K)) (m : ℕ) (q : Fin (n + 1) → Prog (Fin (n + 1)) (Word K) (List (Word K × Word K × Word K)))
    (h : Runs Sync m (fun r => surface own r all []) q) : (q = fun r => .ret (held all r)) ∨ ∃ q', Sync q q' := by
  obtain ⟨j, hj⟩ := sync_steps h
  have start : At own all 0 (quiet fun r => surface own r all []) := by
    have := at_enter own all [] all (by simp)
    simpa [cost, held, points] using this
  have hc := at_runs own all start hj
  rw [Nat.zero_add] at hc
  generalize hq : quiet q = c at hc
  cases hc with
  | fin => exact .inl (by simpa [quiet] using hq)
  | own l p ps e ho =>
    right
    have hq' : q = fun r => surface own r (p :: ps) (held l r) := by simpa [quiet] using hq
    subst hq'
    have hp : ∀ r, surface own r (p :: ps) (held l r) = .coll (.int 0) fun _ => surface own r ps (held (l ++ [p]) r) := by
      intro r
      by_cases hr : r = 0
      · subst hr; simp [surface, ho, held, points_snoc]
      · simp [surface, ho, hr, Ne.symm hr, held]
    exact ⟨_, Sync.coll _ (fun _ => .int 0) (fun r _ => surface own r ps (held (l ++ [p]) r)) hp⟩
  | mid l p ps k m' e hw hm hk =>
    right
    have h1 : q = midProcs own l p ps k m' := congrArg Conf.procs hq
    have h2 : (mid own l p ps k m').chan = fun _ => [] := (congrArg Conf.chan hq).symm
    have hkm : m' = k := by
      by_contra hne
      have := congrFun h2 (own p, 0, 10 + m')
      simp [mid] at this
      omega
    subst hkm
    subst h1
    by_cases h3 : m' < 3
    · obtain ⟨k', hk', _⟩ := root_recv own p ps (points l) m' h3
      exact ⟨_, Sync.pass _ (own p) 0 none (10 + m') (part p m') (ownerAt own p ps (m' + 1)) k' (by simp [midProcs, hw, owner_send own p ps m' h3]) (by simp [midProcs, hk']) (.inl rfl)⟩
    · have : m' = 3 := by omega
      subst this
      refine ⟨_, Sync.coll _ (fun _ => .int 0) (fun r _ => surface own r ps (held (l ++ [p]) r)) fun r => ?_⟩
      by_cases hr : r = 0
      · subst hr; simp [midProcs, rootAt, held, points_snoc]
      · by_cases ho : r = own p
        · subst ho; simp [midProcs, ownerAt, hw, held]
        · simp [midProcs, hr, ho, held]

/-- Without the barrier the first rank may take the position of one grid point and the concentration of another. -/
theorem surface_free : ∃ m c, Runs Step m (quiet fun r : Fin 3 => surfaceFree (fun p : ℕ × ℕ × ℕ => if p.1 = 1 then 1 else 2) r [(1, 3, 10), (2, 4, 20)] []) c ∧
    c.procs 0 = .ret [(.dbl 2, .dbl 3, .dbl 10), (.dbl 1, .dbl 4, .dbl 20)] := by
  have step : ∃ c, Runs Step 12 (quiet fun r : Fin 3 => surfaceFree (fun p : ℕ × ℕ × ℕ => if p.1 = 1 then 1 else 2) r [(1, 3, 10), (2, 4, 20)] []) c ∧
      c.procs 0 = .ret [(.dbl 2, .dbl 3, .dbl 10), (.dbl 1, .dbl 4, .dbl 20)] :=
    ⟨_, .cons (.send _ 1 0 10 (.dbl 1) _ rfl) (.cons (.send _ 1 0 11 (.dbl 3) _ rfl) (.cons (.send _ 1 0 12 (.dbl 10) _ rfl)
      (.cons (.send _ 2 0 10 (.dbl 2) _ rfl) (.cons (.send _ 2 0 11 (.dbl 4) _ rfl) (.cons (.send _ 2 0 12 (.dbl 20) _ rfl)
      (.cons (.recv _ 0 2 none 10 _ (.dbl 2) [] rfl (.inl rfl) rfl) (.cons (.recv _ 0 1 none 11 _ (.dbl 3) [] rfl (.inl rfl) rfl) (.cons (.recv _ 0 1 none 12 _ (.dbl 10) [] rfl (.inl rfl) rfl)
      (.cons (.recv _ 0 1 none 10 _ (.dbl 1) [] rfl (.inl rfl) rfl) (.cons (.recv _ 0 2 none 11 _ (.dbl 4) [] rfl (.inl rfl) rfl) (.cons (.recv _ 0 2 none 12 _ (.dbl 20) [] rfl (.inl rfl) rfl) (.nil _)))))))))))), rfl⟩
  exact ⟨12, step⟩

end surface

/-! ### Examples -/

/-- Two ranks, an old grid of three points and a new one of four: the second rank needs one array of the first. -/
def exOld (r : Fin 2) (i : ℕ) : Bool := if i = 0 then r = 0 else r = 1

/-- See `exOld`. -/
def exNew (r : Fin 2) (i : ℕ) : Bool := if i < 2 then r = 0 else r = 1

example : (∀ p ∈ [(1, 1), (2, 1), (3, 2)], ∀ r, (exOld r (p.2 - 1) = true ↔ r = if p.2 - 1 = 0 then 0 else 1) ∧ (exOld r p.2 = true ↔ r = if p.2 = 0 then 0 else 1)) ∧
    (∀ p ∈ ([(1, 1), (2, 1), (3, 2)] : List (ℕ × ℕ)), ∀ r, exNew r p.1 = true ↔ r = if p.1 < 2 then 0 else 1) := by decide

example : carried (fun x => if x < 2 then (0 : Fin 2) else 1) (fun i => [i]) 1 [(1, 1), (2, 1), (3, 2)] = [(2, [0], [1]), (3, [1], [2])] := by decide

example : wanted 1 (fun r : Fin 2 => if r = 0 then [(1, [5, 6])] else [(2, [7, 8]), (3, [9, 4])]) = [(0, 1, 5), (1, 1, 6), (0, 2, 7), (1, 2, 8), (0, 3, 9), (1, 3, 4)] := by decide

example : cost (fun p : ℕ × ℕ × ℕ => if p.1 = 1 then (0 : Fin 3) else 2) [(1, 3, 10), (2, 4, 20)] = 8 := by decide

end Xolotl.Solver.Messages
