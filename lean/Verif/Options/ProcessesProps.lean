import Verif.Options.Processes
import Verif.Util.TokenizerProps

/-!
# Properties of the process list
-/

namespace Xolotl.Options.Processes

open Xolotl.Util

/-- The map of options: not set up yet, or with exactly the known processes. -/
def Ok (m : Map) : Prop := m = [] ∨ m.map Prod.fst = names

theorem has_iff (m : Map) (k : List Char) : has m k = true ↔ k ∈ m.map Prod.fst := by
  unfold has
  rw [List.any_eq_true, List.mem_map]
  constructor
  · rintro ⟨e, he, hk⟩
    exact ⟨e, he, by simpa using hk⟩
  · rintro ⟨e, he, hk⟩
    exact ⟨e, he, by simpa using hk⟩

theorem assign_keys {m : Map} {k : List Char} (b : Bool) (h : has m k = true) : (assign m k b).map Prod.fst = m.map Prod.fst := by
  unfold assign
  rw [if_pos h, List.map_map]
  apply List.map_congr_left
  intro e _
  simp only [Function.comp_apply]
  split
  · rename_i h
    exact h.symm
  · rfl

theorem lookup_isSome (m : Map) (k : List Char) : (lookup m k).isSome = true ↔ k ∈ m.map Prod.fst := by
  unfold lookup
  rw [Option.isSome_map, List.find?_isSome, List.mem_map]
  constructor
  · rintro ⟨e, he, hk⟩
    exact ⟨e, he, by simpa using hk⟩
  · rintro ⟨e, he, hk⟩
    exact ⟨e, he, by simpa using hk⟩

theorem lookup_assign {m : Map} {k : List Char} (b : Bool) (h : has m k = true) (k' : List Char) :
    lookup (assign m k b) k' = if k' = k then some b else lookup m k' := by
  unfold assign
  rw [if_pos h]
  rw [has_iff] at h
  unfold lookup
  induction m with
  | nil => simp at h
  | cons e m ih =>
    rw [List.map_cons]
    by_cases he : e.1 = k
    · rw [if_pos he]
      by_cases hk : k' = k
      · rw [if_pos hk, List.find?_cons_of_pos (by simp [hk])]
        rfl
      · rw [if_neg hk, List.find?_cons_of_neg (by simpa using fun h => hk h.symm),
          List.find?_cons_of_neg (by simpa [he] using fun h => hk h.symm)]
        by_cases hm : k ∈ m.map Prod.fst
        · have := ih hm
          rw [if_neg hk] at this
          exact this
        · congr 2
          conv => rhs; rw [← List.map_id m]
          apply List.map_congr_left
          intro x hx
          have : x.1 ≠ k := fun hxk => hm (List.mem_map.mpr ⟨x, hx, hxk⟩)
          simp [this]
    · rw [if_neg he]
      have hm : k ∈ m.map Prod.fst := by
        rcases List.mem_cons.mp h with h | h
        · exact absurd h.symm he
        · exact h
      by_cases hk' : e.1 = k'
      · have : k' ≠ k := fun h => he (hk'.trans h)
        rw [if_neg this, List.find?_cons_of_pos (by simp [hk']), List.find?_cons_of_pos (by simp [hk'])]
      · rw [List.find?_cons_of_neg (by simpa using hk'), List.find?_cons_of_neg (by simpa using hk')]
        exact ih hm

theorem reset_nil : reset [] = names.map fun k => (k, false) := by decide +kernel

theorem reset_ok {m : Map} (h : Ok m) : (reset m).map Prod.fst = names ∧ ∀ k, lookup (reset m) k = if k ∈ names then some false else none := by
  have base : ∀ k, lookup (names.map fun k => (k, false)) k = if k ∈ names then some false else none := by
    intro k
    have gen : ∀ l : List (List Char), lookup (l.map fun k => (k, false)) k = if k ∈ l then some false else none := by
      intro l
      induction l with
      | nil => rfl
      | cons x l ih =>
        unfold lookup at ih ⊢
        rw [List.map_cons]
        by_cases hx : x = k
        · rw [List.find?_cons_of_pos (by simp [hx]), if_pos (by simp [hx])]
          rfl
        · rw [List.find?_cons_of_neg (by simpa using hx), ih]
          have : k ∈ x :: l ↔ k ∈ l := by
            rw [List.mem_cons]
            exact or_iff_right fun h => hx h.symm
          by_cases hl : k ∈ l
          · rw [if_pos hl, if_pos (this.mpr hl)]
          · rw [if_neg hl, if_neg (fun h => hl (this.mp h))]
    exact gen names
  rcases h with rfl | h
  · rw [reset_nil]
    exact ⟨by decide +kernel, base⟩
  · have gen : ∀ (l : List (List Char)) (m : Map), m.map Prod.fst = names → (∀ k ∈ l, k ∈ names) →
        (l.foldl (fun m k => assign m k false) m).map Prod.fst = names ∧
        ∀ k, lookup (l.foldl (fun m k => assign m k false) m) k = if k ∈ l then some false else lookup m k := by
      intro l
      induction l with
      | nil => intro m hm _; exact ⟨hm, fun k => by simp⟩
      | cons x l ih =>
        intro m hm hl
        have hx : has m x = true := by
          rw [has_iff, hm]
          exact hl x (by simp)
        have := ih (assign m x false) ((assign_keys false hx).trans hm) fun k hk => hl k (List.mem_cons_of_mem _ hk)
        refine ⟨this.1, fun k => ?_⟩
        rw [List.foldl_cons, this.2, lookup_assign false hx]
        by_cases h1 : k ∈ l
        · rw [if_pos h1, if_pos (List.mem_cons_of_mem _ h1)]
        · rw [if_neg h1]
          by_cases h2 : k = x
          · rw [if_pos h2, if_pos (by simp [h2])]
          · rw [if_neg h2, if_neg (by simp [h1, h2])]
    obtain ⟨h1, h2⟩ := gen names m h (fun _ h => h)
    refine ⟨h1, fun k => ?_⟩
    have := h2 k
    unfold reset
    rw [this]
    by_cases hk : k ∈ names
    · rw [if_pos hk, if_pos hk]
    · rw [if_neg hk, if_neg hk]
      have hn := (lookup_isSome m k).not.mpr (by rw [h]; exact hk)
      simpa using hn

/-- Whether a process is enabled, as the code that uses the options asks for it. -/
def Enabled (m : Map) (k : List Char) : Prop := lookup m k = some true

theorem add_spec {m : Map} (h : Ok m) (k : List Char) :
    ((add m k).2 = true ↔ k ∈ names) ∧ (add m k).1.map Prod.fst = names ∧
      ∀ k', Enabled (add m k).1 k' ↔ Enabled m k' ∨ (k' = k ∧ k ∈ names) := by
  have hm : ∃ m', (if m.isEmpty then reset m else m) = m' ∧ m'.map Prod.fst = names ∧ ∀ k', Enabled m' k' ↔ Enabled m k' := by
    by_cases he : m.isEmpty = true
    · rw [if_pos he]
      have : m = [] := by simpa using he
      subst this
      obtain ⟨h1, h2⟩ := reset_ok h
      refine ⟨_, rfl, h1, fun k' => ?_⟩
      unfold Enabled
      rw [h2]
      constructor
      · intro h
        split at h <;> simp at h
      · intro h
        simp [lookup] at h
    · rw [if_neg he]
      refine ⟨_, rfl, ?_, fun _ => Iff.rfl⟩
      rcases h with rfl | h
      · simp at he
      · exact h
  obtain ⟨m', h1, h2, h3⟩ := hm
  unfold add
  dsimp only
  rw [h1]
  by_cases hk : has m' k = true
  · rw [if_pos hk]
    have hk' : k ∈ names := by rw [← h2]; exact (has_iff _ _).mp hk
    refine ⟨by simp [hk'], (assign_keys true hk).trans h2, fun k' => ?_⟩
    unfold Enabled
    dsimp only
    rw [lookup_assign true hk]
    by_cases he : k' = k
    · rw [if_pos he]
      simp [he, hk']
    · rw [if_neg he]
      simp only [he, false_and, or_false]
      exact h3 k'
  · rw [if_neg hk]
    have hk' : k ∉ names := by rw [← h2]; exact fun h => hk ((has_iff _ _).mpr h)
    refine ⟨by simp [hk'], h2, fun k' => ?_⟩
    simp only [hk', and_false, or_false]
    exact h3 k'

/-- **One list of names**: accepted exactly when every name is known; then a process is enabled exactly when it was before or its name is in the list. -/
theorem setList_spec {m : Map} (h : Ok m) (l : List (List Char)) :
    ((setList m l).2 = true ↔ ∀ k ∈ l, k ∈ names) ∧ Ok (setList m l).1 ∧
      ((setList m l).2 = true → ∀ k, Enabled (setList m l).1 k ↔ Enabled m k ∨ k ∈ l) := by
  induction l generalizing m with
  | nil => exact ⟨by simp [setList], h, fun _ k => by simp [setList]⟩
  | cons x l ih =>
    obtain ⟨h1, h2, h3⟩ := add_spec h x
    unfold setList
    by_cases hx : (add m x).2 = true
    · rw [if_pos hx]
      have hxn := h1.mp hx
      obtain ⟨i1, i2, i3⟩ := ih (m := (add m x).1) (Or.inr h2)
      refine ⟨?_, i2, fun ht k => ?_⟩
      · rw [i1]
        simp [hxn]
      · rw [i3 ht, h3, List.mem_cons]
        constructor
        · rintro ((h | ⟨h, _⟩) | h)
          · exact Or.inl h
          · exact Or.inr (Or.inl h)
          · exact Or.inr (Or.inr h)
        · rintro (h | h | h)
          · exact Or.inl (Or.inl h)
          · exact Or.inl (Or.inr ⟨h, hxn⟩)
          · exact Or.inr h
    · rw [if_neg hx]
      refine ⟨?_, Or.inr h2, fun h => by simp at h⟩
      have : x ∉ names := fun h => hx (h1.mpr h)
      simp [this]

/-- **One line of names**: accepted exactly when every token is known; then a process is enabled exactly when it is one of the tokens, whatever was enabled before. -/
theorem setString_spec {m : Map} (h : Ok m) (s : List Char) :
    ((setString m s).2 = true ↔ ∀ k ∈ Tokenizer.tokens s, k ∈ names) ∧ Ok (setString m s).1 ∧
      ((setString m s).2 = true → ∀ k, Enabled (setString m s).1 k ↔ k ∈ Tokenizer.tokens s) := by
  obtain ⟨h1, h2⟩ := reset_ok h
  obtain ⟨i1, i2, i3⟩ := setList_spec (m := reset m) (Or.inr h1) (Tokenizer.tokens s)
  refine ⟨i1, i2, fun ht k => ?_⟩
  unfold setString
  rw [i3 ht]
  have : ¬Enabled (reset m) k := by
    unfold Enabled
    rw [h2]
    split <;> simp
  simp [this]

/-- The names that count after a sequence of calls: a line forgets what came before it, a list adds. -/
def effective : List Call → List (List Char)
  | [] => []
  | .list l :: cs => (if cs.any fun c => match c with | .string _ => true | _ => false then [] else l) ++ effective cs
  | .string s :: cs => (if cs.any fun c => match c with | .string _ => true | _ => false then [] else Tokenizer.tokens s) ++ effective cs

/-- All names of a call. -/
def Call.names : Call → List (List Char)
  | .list l => l
  | .string s => Tokenizer.tokens s

theorem call_ok {m : Map} (h : Ok m) (c : Call) : ((call m c).2 = true ↔ ∀ k ∈ c.names, k ∈ names) ∧ Ok (call m c).1 := by
  cases c with
  | list l => exact ⟨(setList_spec h l).1, (setList_spec h l).2.1⟩
  | string s => exact ⟨(setString_spec h s).1, (setString_spec h s).2.1⟩

theorem calls_ok {m : Map} (h : Ok m) (cs : List Call) : ((calls m cs).2 = true ↔ ∀ c ∈ cs, ∀ k ∈ c.names, k ∈ names) ∧ Ok (calls m cs).1 := by
  induction cs generalizing m with
  | nil => exact ⟨by simp [calls], h⟩
  | cons c cs ih =>
    obtain ⟨h1, h2⟩ := call_ok h c
    unfold calls
    by_cases hc : (call m c).2 = true
    · rw [if_pos hc]
      obtain ⟨i1, i2⟩ := ih h2
      refine ⟨?_, i2⟩
      rw [i1]
      simp only [List.mem_cons, forall_eq_or_imp]
      exact ⟨fun h => ⟨h1.mp hc, h⟩, fun h => h.2⟩
    · rw [if_neg hc]
      refine ⟨?_, h2⟩
      simp only [Bool.false_eq_true, List.mem_cons, forall_eq_or_imp, false_iff, not_and]
      exact fun h => absurd (h1.mpr h) hc

/-- **Any sequence of calls** on new options is accepted exactly when every name is known, and then a process is enabled exactly when its name occurred in a call that no later line has forgotten. -/
theorem calls_spec (cs : List Call) :
    ((calls [] cs).2 = true ↔ ∀ c ∈ cs, ∀ k ∈ c.names, k ∈ names) ∧
      ((calls [] cs).2 = true → ∀ k, Enabled (calls [] cs).1 k ↔ k ∈ effective cs) := by
  refine ⟨(calls_ok (Or.inl rfl) cs).1, ?_⟩
  have gen : ∀ (cs : List Call) (m : Map), Ok m → (calls m cs).2 = true → ∀ k, Enabled (calls m cs).1 k ↔
      ((cs.any fun c => match c with | .string _ => true | _ => false) = false ∧ Enabled m k) ∨ k ∈ effective cs := by
    intro cs
    induction cs with
    | nil => intro m _ _ k; simp [calls, effective]
    | cons c cs ih =>
      intro m hm ht k
      have hc : (call m c).2 = true := by
        by_contra hc
        unfold calls at ht
        rw [if_neg hc] at ht
        simp at ht
      have hcs : calls m (c :: cs) = calls (call m c).1 cs := by
        conv => lhs; unfold calls
        rw [if_pos hc]
      rw [hcs] at ht ⊢
      have ih := ih (call m c).1 (call_ok hm c).2 ht k
      rw [ih]
      cases c with
      | list l =>
        have hl := (setList_spec hm l).2.2 hc k
        change Enabled (setList m l).1 k ↔ _ at hl
        simp only [effective, List.any_cons, Bool.false_or, List.mem_append]
        change (_ ∧ Enabled (setList m l).1 k) ∨ _ ↔ _
        rw [hl]
        by_cases ha : (cs.any fun c => match c with | .string _ => true | _ => false) = true
        · simp [ha]
        · simp only [Bool.not_eq_true] at ha
          simp [ha, or_assoc]
      | string s =>
        have hl := (setString_spec hm s).2.2 hc k
        simp only [effective, List.any_cons, Bool.true_or, List.mem_append]
        change (_ ∧ Enabled (setString m s).1 k) ∨ _ ↔ _
        rw [hl]
        by_cases ha : (cs.any fun c => match c with | .string _ => true | _ => false) = true
        · simp [ha]
        · simp only [Bool.not_eq_true] at ha
          simp [ha]
  intro ht k
  rw [gen cs [] (Or.inl rfl) ht k]
  simp [Enabled, lookup]

example : (calls [] [.list ["diff".toList], .string "reaction advec".toList, .list ["sink".toList]]).2 = true ∧
    effective [.list ["diff".toList], .string "reaction advec".toList, .list ["sink".toList]] = ["reaction".toList, "advec".toList, "sink".toList] := by
  constructor <;> decide +kernel

/-- **Finding.** A line forgets the processes enabled earlier. -/
theorem line_forgets : lookup (calls [] [.list ["diff".toList], .string "reaction".toList]).1 "diff".toList = some false := by decide +kernel

/-- **Finding.** An empty list leaves the map without entries: asking for any process then throws. -/
theorem empty_list_unset (k : List Char) : (setList [] []).2 = true ∧ lookup (setList [] []).1 k = none := ⟨rfl, rfl⟩

/-- **Finding.** A rejected list has already enabled the names before the unknown one. -/
theorem rejected_half_done : (setList [] ["diff".toList, "difff".toList]).2 = false ∧
    lookup (setList [] ["diff".toList, "difff".toList]).1 "diff".toList = some true := by
  constructor <;> decide +kernel

end Xolotl.Options.Processes
