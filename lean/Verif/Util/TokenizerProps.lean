import Verif.Util.Tokenizer
import Mathlib.Data.List.Basic

/-!
# Properties of the tokenizer
-/

namespace Xolotl.Util.Tokenizer

/-- A token: not empty, without blanks. -/
def IsToken (t : List Char) : Prop := t ≠ [] ∧ ' ' ∉ t

/-- A run of blanks. -/
def Blanks (s : List Char) : Prop := ∀ c ∈ s, c = ' '

/-- `l` reads: blanks, then tokens separated by at least one blank, then blanks. -/
inductive Reads : List Char → List (List Char) → Prop
  | nil {s} : Blanks s → Reads s []
  | last {s t e} : Blanks s → IsToken t → Blanks e → Reads (s ++ t ++ e) [t]
  | cons {s t r u ts} : Blanks s → IsToken t → Reads r (u :: ts) → (∃ r', r = ' ' :: r') → Reads (s ++ t ++ r) (t :: u :: ts)

theorem mem_takeWhile {p : Char → Bool} {c : Char} {l : List Char} (h : c ∈ l.takeWhile p) : p c = true := by
  induction l with
  | nil => cases h
  | cons x l ih =>
    by_cases hx : p x
    · rw [List.takeWhile_cons_of_pos hx] at h
      rcases List.mem_cons.mp h with rfl | h
      · exact hx
      · exact ih h
    · rw [List.takeWhile_cons_of_neg hx] at h
      cases h

theorem dropWhile_blanks {s r : List Char} (hs : Blanks s) : (s ++ r).dropWhile (· == ' ') = r.dropWhile (· == ' ') := by
  induction s with
  | nil => rfl
  | cons c s ih =>
    have hc : c = ' ' := hs c (by simp)
    subst hc
    rw [List.cons_append, List.dropWhile_cons_of_pos (by decide)]
    exact ih fun x hx => hs x (List.mem_cons_of_mem _ hx)

theorem take_token {t r : List Char} (ht : ' ' ∉ t) (hr : r = [] ∨ ∃ r', r = ' ' :: r') :
    (t ++ r).takeWhile (· != ' ') = t ∧ (t ++ r).dropWhile (· != ' ') = r := by
  induction t with
  | nil =>
    rcases hr with rfl | ⟨r', rfl⟩
    · exact ⟨rfl, rfl⟩
    · constructor
      · rw [List.nil_append, List.takeWhile_cons_of_neg (by decide)]
      · rw [List.nil_append, List.dropWhile_cons_of_neg (by decide)]
  | cons c t ih =>
    have hc : (c != ' ') = true := by
      simp only [List.mem_cons, not_or] at ht
      simp only [bne_iff_ne, ne_eq]
      exact fun h => ht.1 h.symm
    have := ih (fun h => ht (List.mem_cons_of_mem _ h))
    rw [List.cons_append, List.takeWhile_cons_of_pos (p := (· != ' ')) hc, List.dropWhile_cons_of_pos (p := (· != ' ')) hc, this.1, this.2]
    exact ⟨rfl, rfl⟩

theorem reads_nil {l : List Char} (h : Reads l []) : Blanks l := by
  cases h with
  | nil h => exact h

/-- The tokens depend on what follows the leading blanks only. -/
theorem tokens_congr {a b : List Char} (h : a.dropWhile (· == ' ') = b.dropWhile (· == ' ')) : tokens a = tokens b := by
  rw [tokens, tokens]
  split
  · rename_i h1
    rw [h] at h1
    split
    · rfl
    · rename_i h2
      rw [h1] at h2
      cases h2
  · rename_i h1
    rw [h] at h1
    split
    · rename_i h2
      rw [h1] at h2
      cases h2
    · rename_i h2
      rw [h1] at h2
      cases h2
      rfl

theorem tokens_blank {s : List Char} (hs : Blanks s) : tokens s = [] := by
  rw [tokens]
  have : s.dropWhile (· == ' ') = [] := by
    have := dropWhile_blanks (r := []) hs
    simpa using this
  split
  · rfl
  · rename_i h
    rw [this] at h
    cases h

/-- A token after blanks, followed by the end or a blank. -/
theorem tokens_cons {s t r : List Char} (hs : Blanks s) (ht : IsToken t) (hr : r = [] ∨ ∃ r', r = ' ' :: r') :
    tokens (s ++ t ++ r) = t :: tokens r := by
  rw [tokens]
  obtain ⟨hne, hb⟩ := ht
  cases t with
  | nil => exact absurd rfl hne
  | cons c t =>
    have hc : (c == ' ') = false := by
      simp only [List.mem_cons, not_or] at hb
      simp only [beq_eq_false_iff_ne, ne_eq]
      exact fun h => hb.1 h.symm
    have hd : (s ++ (c :: t) ++ r).dropWhile (· == ' ') = c :: (t ++ r) := by
      rw [List.append_assoc, dropWhile_blanks hs, List.cons_append, List.dropWhile_cons_of_neg (by simp [hc])]
    have htk := take_token (t := t) (r := r) (fun h => hb (List.mem_cons_of_mem _ h)) hr
    split
    · rename_i h
      rw [hd] at h
      cases h
    · rename_i c' r' h
      rw [hd] at h
      cases h
      rw [htk.1, htk.2]

/-- **Tokenizing yields exactly the maximal runs of non-blank characters, in order**: any reading of the line as tokens separated by blanks is the one found. -/
theorem tokens_unique {l : List Char} {ts : List (List Char)} (h : Reads l ts) : tokens l = ts := by
  induction h with
  | nil hs => exact tokens_blank hs
  | @last s t e hs ht he =>
    rw [tokens_cons hs ht, tokens_blank he]
    cases e with
    | nil => exact Or.inl rfl
    | cons c e => exact Or.inr ⟨e, by rw [he c (by simp)]⟩
  | cons hs ht _ hr ih => rw [tokens_cons hs ht (Or.inr hr), ih]

/-- Every line can be read. -/
theorem reads_tokens (l : List Char) : Reads l (tokens l) := by
  induction h : l.length using Nat.strongRecOn generalizing l with
  | ind n ih =>
    subst h
    have hsplit : l = l.takeWhile (· == ' ') ++ l.dropWhile (· == ' ') := List.takeWhile_append_dropWhile.symm
    have hs : Blanks (l.takeWhile (· == ' ')) := fun c hc => by simpa using mem_takeWhile hc
    cases hd : l.dropWhile (· == ' ') with
    | nil =>
      rw [hd, List.append_nil] at hsplit
      rw [hsplit, tokens_blank hs]
      exact .nil hs
    | cons c r =>
      have hc : ' ' ≠ c := by
        have := List.head?_dropWhile_not (· == ' ') l
        rw [hd] at this
        simp at this
        exact fun h => this h.symm
      have hr : r = r.takeWhile (· != ' ') ++ r.dropWhile (· != ' ') := List.takeWhile_append_dropWhile.symm
      have ht : IsToken (c :: r.takeWhile (· != ' ')) := by
        refine ⟨by simp, fun h => ?_⟩
        rcases List.mem_cons.mp h with h | h
        · exact hc h
        · have := mem_takeWhile h
          simp at this
      have hr' : r.dropWhile (· != ' ') = [] ∨ ∃ r', r.dropWhile (· != ' ') = ' ' :: r' := by
        cases hx : r.dropWhile (· != ' ') with
        | nil => exact Or.inl rfl
        | cons x y =>
          refine Or.inr ⟨y, ?_⟩
          have := List.head?_dropWhile_not (· != ' ') r
          rw [hx] at this
          simp at this
          rw [this]
      have hlen : (r.dropWhile (· != ' ')).length < l.length := by
        have h1 := congrArg List.length hsplit
        have h2 := (List.dropWhile_sublist (l := r) (· != ' ')).length_le
        rw [hd] at h1
        simp only [List.length_append, List.length_cons] at h1
        omega
      have hl : l = l.takeWhile (· == ' ') ++ (c :: r.takeWhile (· != ' ')) ++ r.dropWhile (· != ' ') := by
        rw [List.append_assoc, List.cons_append, ← hr, ← hd]
        exact hsplit
      have hrec := ih _ hlen _ rfl
      have htok : tokens l = (c :: r.takeWhile (· != ' ')) :: tokens (r.dropWhile (· != ' ')) := by
        exact (congrArg tokens hl).trans (tokens_cons hs ht hr')
      rw [htok]
      conv => arg 1; rw [hl]
      rcases hr' with h | h
      · rw [h, tokens_blank (by intro x hx; simp at hx)]
        exact .last hs ht (by intro x hx; simp at hx)
      · cases hts : tokens (r.dropWhile (· != ' ')) with
        | nil =>
          rw [hts] at hrec
          exact .last hs ht (reads_nil hrec)
        | cons u ts =>
          rw [hts] at hrec
          exact .cons hs ht hrec h

/-- Every token is not empty and has no blank. -/
theorem token_ok (l : List Char) : ∀ t ∈ tokens l, IsToken t := by
  have h := reads_tokens l
  generalize tokens l = ts at h
  induction h with
  | nil _ => intro t ht; cases ht
  | last _ ht _ => intro u hu; rw [List.mem_singleton.mp hu]; exact ht
  | cons _ ht _ _ ih =>
    intro u hu
    rcases List.mem_cons.mp hu with rfl | hu
    · exact ht
    · exact ih u hu

/-- No character but blanks is lost, and none is moved. -/
theorem tokens_flatten (l : List Char) : (tokens l).flatten = l.filter (· != ' ') := by
  have hb : ∀ {s : List Char}, Blanks s → s.filter (· != ' ') = [] := by
    intro s hs
    rw [List.filter_eq_nil_iff]
    intro c hc
    simp [hs c hc]
  have ht : ∀ {t : List Char}, IsToken t → t.filter (· != ' ') = t := by
    intro t ht
    rw [List.filter_eq_self]
    intro c hc
    simp only [bne_iff_ne, ne_eq]
    rintro rfl
    exact ht.2 hc
  have h := reads_tokens l
  generalize tokens l = ts at h
  induction h with
  | nil hs => rw [hb hs]; rfl
  | last hs ht' he => simp [List.filter_append, hb hs, hb he, ht ht']
  | cons hs ht' _ _ ih =>
    rw [List.flatten_cons, ih, List.filter_append, List.filter_append, hb hs, ht ht']
    rfl

/-- Tokens joined with single blanks. -/
def join : List (List Char) → List Char
  | [] => []
  | [t] => t
  | t :: u :: ts => t ++ ' ' :: join (u :: ts)

/-- **Joining tokens with single blanks and tokenizing again is the identity.** -/
theorem tokens_join {ts : List (List Char)} (h : ∀ t ∈ ts, IsToken t) : tokens (join ts) = ts := by
  induction ts with
  | nil => exact tokens_blank (by intro x hx; cases hx)
  | cons t ts ih =>
    have ht := h t (by simp)
    have ih := ih fun u hu => h u (List.mem_cons_of_mem _ hu)
    cases ts with
    | nil =>
      have := tokens_cons (s := []) (r := []) (by intro x hx; cases hx) ht (Or.inl rfl)
      simpa [join, tokens_blank (s := []) (by intro x hx; cases hx)] using this
    | cons u ts =>
      have := tokens_cons (s := []) (r := ' ' :: join (u :: ts)) (by intro x hx; cases hx) ht (Or.inr ⟨_, rfl⟩)
      rw [List.nil_append] at this
      rw [join, this]
      congr 1
      exact (tokens_congr (by rw [List.dropWhile_cons_of_pos (by decide)])).trans ih

/-- Tokenizing a line again after normalising its blanks changes nothing. -/
theorem tokens_normalise (l : List Char) : tokens (join (tokens l)) = tokens l := tokens_join (token_ok l)

/-- Two lines separated by a blank. -/
theorem tokens_append (a b : List Char) : tokens (a ++ ' ' :: b) = tokens a ++ tokens b := by
  have hsp : tokens (' ' :: b) = tokens b := tokens_congr (by rw [List.dropWhile_cons_of_pos (by decide)])
  have h := reads_tokens a
  generalize tokens a = ts at h
  induction h with
  | @nil s hs =>
    rw [List.nil_append, ← hsp]
    exact tokens_congr (dropWhile_blanks hs)
  | @last s t e hs ht he =>
    rw [List.append_assoc (s ++ t)]
    have h1 : tokens (e ++ ' ' :: b) = tokens b := by
      rw [← hsp]
      exact tokens_congr (dropWhile_blanks he)
    rw [tokens_cons hs ht, h1]
    · rfl
    · cases e with
      | nil => exact Or.inr ⟨b, rfl⟩
      | cons c e => exact Or.inr ⟨_, by rw [he c (by simp)]; rfl⟩
  | @cons s t r u ts hs ht _ hr ih =>
    obtain ⟨r', rfl⟩ := hr
    rw [List.append_assoc (s ++ t)]
    exact (tokens_cons hs ht (Or.inr ⟨_, rfl⟩)).trans (congrArg (t :: ·) ih)

example : tokens "  reaction diff   advec ".toList = ["reaction".toList, "diff".toList, "advec".toList] := by decide +kernel

/-- **Finding.** Tabs do not separate tokens: two names separated by a tab are one token. -/
theorem tab_not_separator : tokens "diff\tadvec".toList = ["diff\tadvec".toList] := by decide +kernel

/-! ### Typed tokens -/

/-- One value per token, in order: typed tokenizing never fails. -/
theorem ints_length (l : List Char) : (ints l).length = (tokens l).length := List.length_map ..

/-- Typed tokenizing of joined lines. -/
theorem ints_append (a b : List Char) : ints (a ++ ' ' :: b) = ints a ++ ints b := by
  unfold ints
  rw [tokens_append, List.map_append]

theorem digit_facts {c : Char} (h : isDigit c = true) : space c = false ∧ c ≠ '-' ∧ c ≠ '+' := by
  simp only [isDigit, Bool.and_eq_true, decide_eq_true_eq] at h
  have ne : ∀ d : Char, d.toNat < 48 → c ≠ d := fun d hd he => by subst he; omega
  refine ⟨?_, ne '-' (by decide), ne '+' (by decide)⟩
  simp only [space, Bool.or_eq_false_iff, beq_eq_false_iff_ne, ne_eq]
  exact ⟨⟨⟨⟨⟨ne _ (by decide), ne _ (by decide)⟩, ne _ (by decide)⟩, ne _ (by decide)⟩, by omega⟩, by omega⟩

theorem takeWhile_digits {ds r : List Char} (hd : ∀ c ∈ ds, isDigit c = true) (hr : ∀ c ∈ r.head?, isDigit c = false) :
    (ds ++ r).takeWhile isDigit = ds := by
  induction ds with
  | nil =>
    cases r with
    | nil => rfl
    | cons c r =>
      rw [List.nil_append, List.takeWhile_cons_of_neg]
      simp [hr c (by simp)]
  | cons c ds ih =>
    rw [List.cons_append, List.takeWhile_cons_of_pos (hd c (by simp)), ih fun x hx => hd x (List.mem_cons_of_mem _ hx)]

/-- Digits followed by the end or by anything that is not a digit: the value of the digits, the rest is ignored. -/
theorem extract_digits {ds r : List Char} (hne : ds ≠ []) (hd : ∀ c ∈ ds, isDigit c = true) (hr : ∀ c ∈ r.head?, isDigit c = false)
    (hm : (value ds : ℤ) ≤ intMax) : extract (ds ++ r) = value ds := by
  cases ds with
  | nil => exact absurd rfl hne
  | cons c ds =>
    obtain ⟨h1, h2, h3⟩ := digit_facts (hd c (by simp))
    have ht := takeWhile_digits hd hr
    have hs : (c :: ds ++ r).dropWhile space = c :: ds ++ r := by
      rw [List.cons_append, List.dropWhile_cons_of_neg (by simp [h1])]
    unfold extract
    rw [hs]
    have hp : sign (c :: ds ++ r) = (false, c :: ds ++ r) := by
      unfold sign
      split
      · rename_i h
        cases h
        exact absurd rfl h2
      · rename_i h
        cases h
        exact absurd rfl h3
      · rfl
    simp only [hp, ht, Bool.false_eq_true, if_false]
    have : (0 : ℤ) ≤ value (c :: ds) := Int.natCast_nonneg _
    rw [if_neg (by omega), if_neg (by simp only [intMin]; omega)]

/-- The same with a minus sign. -/
theorem extract_minus {ds r : List Char} (hd : ∀ c ∈ ds, isDigit c = true) (hr : ∀ c ∈ r.head?, isDigit c = false)
    (hm : (value ds : ℤ) ≤ -intMin) : extract ('-' :: ds ++ r) = -(value ds : ℤ) := by
  have ht := takeWhile_digits hd hr
  unfold extract
  have hs : ('-' :: ds ++ r).dropWhile space = '-' :: (ds ++ r) := by
    rw [List.cons_append, List.dropWhile_cons_of_neg (by decide)]
  rw [hs]
  have hp : sign ('-' :: (ds ++ r)) = (true, ds ++ r) := rfl
  simp only [hp, ht, if_true]
  have : (0 : ℤ) ≤ value ds := Int.natCast_nonneg _
  rw [if_neg (by simp only [intMax]; omega), if_neg (by omega)]

/-- A plus sign changes nothing. -/
theorem extract_plus {ds r : List Char} (hd : ∀ c ∈ ds, isDigit c = true) (hr : ∀ c ∈ r.head?, isDigit c = false)
    (hm : (value ds : ℤ) ≤ intMax) : extract ('+' :: ds ++ r) = value ds := by
  have ht := takeWhile_digits hd hr
  unfold extract
  have hs : ('+' :: ds ++ r).dropWhile space = '+' :: (ds ++ r) := by
    rw [List.cons_append, List.dropWhile_cons_of_neg (by decide)]
  rw [hs]
  have hp : sign ('+' :: (ds ++ r)) = (false, ds ++ r) := rfl
  simp only [hp, ht, Bool.false_eq_true, if_false]
  have : (0 : ℤ) ≤ value ds := Int.natCast_nonneg _
  rw [if_neg (by omega), if_neg (by simp only [intMin]; omega)]

/-- **Finding.** A token that does not begin like a number is accepted as 0. -/
theorem extract_word {c : Char} {r : List Char} (h1 : space c = false) (h2 : isDigit c = false) (h3 : c ≠ '-') (h4 : c ≠ '+') :
    extract (c :: r) = 0 := by
  unfold extract
  rw [List.dropWhile_cons_of_neg (by simp [h1])]
  have hp : sign (c :: r) = (false, c :: r) := by
    unfold sign
    split
    · rename_i h
      cases h
      exact absurd rfl h3
    · rename_i h
      cases h
      exact absurd rfl h4
    · rfl
  simp only [hp, List.takeWhile_cons_of_neg (p := isDigit) (a := c) (l := r) (by simp [h2])]
  decide

example : ints "10 0 0 -5 7".toList = [10, 0, 0, -5, 7] := by decide +kernel
/-- **Finding.** Malformed numbers are accepted. -/
theorem malformed_accepted : ints "10 abc 3x 1e3 99999999999".toList = [10, 0, 3, 1, intMax] := by decide +kernel

end Xolotl.Util.Tokenizer
