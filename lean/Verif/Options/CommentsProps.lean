import Verif.Options.Comments
import Mathlib.Data.List.Basic

/-!
# Properties of comment removal
-/

namespace Xolotl.Options.Comments

/-- `text` is a document whose code is `code`: characters that start no comment, line breaks, comments to the end of the line, and block comments, the last of which may be left open. -/
inductive Doc : List Char → List Char → Prop
  | nil : Doc [] []
  | char {c t o} : c ≠ '\n' → c ≠ '#' → (c = '/' → t.head? ≠ some '/' ∧ t.head? ≠ some '*') → Doc t o → Doc (c :: t) (c :: o)
  | newline {t o} : Doc t o → Doc ('\n' :: t) o
  | hash {body t o} : '\n' ∉ body → (t = [] ∨ t.head? = some '\n') → Doc t o → Doc ('#' :: (body ++ t)) o
  | slashes {body t o} : '\n' ∉ body → (t = [] ∨ t.head? = some '\n') → Doc t o → Doc ('/' :: '/' :: (body ++ t)) o
  | block {body t o} : ¬['*', '/'] <:+: body → Doc t o → Doc ('/' :: '*' :: (body ++ '*' :: '/' :: t)) o
  | unclosed {body} : ¬['*', '/'] <:+: body → Doc ('/' :: '*' :: body) []

theorem lines_cons {c : Char} (hc : c ≠ '\n') (t : List Char) :
    (lines t = [] ∧ t = [] ∧ lines (c :: t) = [[c]]) ∨ ∃ h r, lines t = h :: r ∧ lines (c :: t) = (c :: h) :: r ∧
      (h.head? = none ∨ h.head? = t.head?) ∧ (h.head? = none → t.head? = some '\n') := by
  have hl : lines (c :: t) = match lines t with
      | [] => [[c]]
      | h :: r => (c :: h) :: r := by
    conv => lhs; unfold lines
    rw [if_neg hc]
    rfl
  cases ht : lines t with
  | nil =>
    left
    have : t = [] := by
      cases t with
      | nil => rfl
      | cons d t =>
        unfold lines at ht
        split at ht
        · cases ht
        · split at ht <;> cases ht
    refine ⟨rfl, this, ?_⟩
    rw [hl, ht]
  | cons h r =>
    right
    refine ⟨h, r, rfl, by rw [hl, ht], ?_⟩
    cases t with
    | nil => simp [lines] at ht
    | cons d t =>
      unfold lines at ht
      split at ht
      · rename_i hd
        cases ht
        exact ⟨Or.inl rfl, fun _ => by rw [hd]; rfl⟩
      · split at ht
        · cases ht
          exact ⟨Or.inr rfl, fun h => by simp at h⟩
        · cases ht
          exact ⟨Or.inr rfl, fun h => by simp at h⟩

/-- Output for the rest of a document, inside or outside a block comment. -/
def S (b : Bool) (t : List Char) : List Char := strip b (lines t)

theorem S_nil (b : Bool) : S b [] = [] := rfl

theorem S_newline (b : Bool) (t : List Char) : S b ('\n' :: t) = S b t := by
  unfold S
  have : lines ('\n' :: t) = [] :: lines t := by
    conv => lhs; unfold lines
    rw [if_pos rfl]
  rw [this]
  simp [strip, scan]

theorem scan_true_skip {c : Char} {t : List Char} (h : ¬(c = '*' ∧ t.head? = some '/')) : scan true (c :: t) = scan true t := by
  conv => lhs; unfold scan
  split
  · exact absurd ⟨rfl, rfl⟩ h
  · rfl

theorem scan_false_code {c : Char} {t : List Char} (h1 : c ≠ '#') (h2 : c = '/' → t.head? ≠ some '/' ∧ t.head? ≠ some '*') :
    scan false (c :: t) = (c :: (scan false t).1, (scan false t).2) := by
  conv => lhs; unfold scan
  split
  · exact absurd rfl h1
  · exact absurd rfl (h2 rfl).1
  · exact absurd rfl (h2 rfl).2
  · rfl

/-- Inside a block comment every character is skipped, unless it starts the end of the comment. -/
theorem S_true_skip {c : Char} {t : List Char} (h : ¬(c = '*' ∧ t.head? = some '/')) : S true (c :: t) = S true t := by
  by_cases hc : c = '\n'
  · subst hc
    exact S_newline _ _
  · unfold S
    rcases lines_cons hc t with ⟨h1, h2, h3⟩ | ⟨l, r, h1, h2, h3, h4⟩
    · rw [h1, h3]
      have : scan true [c] = scan true [] := scan_true_skip (by simp)
      simp [strip, this, scan]
    · rw [h1, h2]
      have : scan true (c :: l) = scan true l := by
        apply scan_true_skip
        rintro ⟨ha, hb⟩
        rcases h3 with h3 | h3
        · rw [h3] at hb; cases hb
        · exact h ⟨ha, h3 ▸ hb⟩
      simp only [strip, this]

theorem S_true_end (t : List Char) : S true ('*' :: '/' :: t) = S false t := by
  unfold S
  rcases lines_cons (c := '/') (by decide) t with ⟨h1, h2, h3⟩ | ⟨l, r, h1, h2, _⟩
  · subst h2
    decide
  · rcases lines_cons (c := '*') (by decide) ('/' :: t) with ⟨h4, _⟩ | ⟨l', r', h4, h5, _⟩
    · rw [h2] at h4; cases h4
    · rw [h2] at h4
      cases h4
      rw [h5, h1]
      have : scan true ('*' :: '/' :: l) = scan false l := by
        conv => lhs; unfold scan
        rfl
      simp only [strip, this]

theorem S_false_open (t : List Char) : S false ('/' :: '*' :: t) = S true t := by
  unfold S
  rcases lines_cons (c := '*') (by decide) t with ⟨h1, h2, h3⟩ | ⟨l, r, h1, h2, _⟩
  · subst h2
    decide
  · rcases lines_cons (c := '/') (by decide) ('*' :: t) with ⟨h4, _⟩ | ⟨l', r', h4, h5, _⟩
    · rw [h2] at h4; cases h4
    · rw [h2] at h4
      cases h4
      rw [h5, h1]
      have : scan false ('/' :: '*' :: l) = scan true l := by
        conv => lhs; unfold scan
        rfl
      simp only [strip, this]

theorem S_false_code {c : Char} {t : List Char} (h0 : c ≠ '\n') (h1 : c ≠ '#') (h2 : c = '/' → t.head? ≠ some '/' ∧ t.head? ≠ some '*') :
    S false (c :: t) = c :: S false t := by
  unfold S
  rcases lines_cons h0 t with ⟨g1, g2, g3⟩ | ⟨l, r, g1, g2, g3, _⟩
  · rw [g1, g3]
    have := scan_false_code (c := c) (t := []) h1 (by simp)
    simp [strip, this, scan]
  · rw [g1, g2]
    have := scan_false_code (c := c) (t := l) h1 fun hc => by
      rcases g3 with g3 | g3
      · rw [g3]; simp
      · rw [g3]; exact h2 hc
    simp [strip, this]

theorem lines_body {body : List Char} (hb : '\n' ∉ body) (c : Char) (hc : c ≠ '\n') (t : List Char) (ht : t = [] ∨ t.head? = some '\n') :
    ∃ r, lines (c :: (body ++ t)) = (c :: body) :: r ∧ ∀ b, strip b r = S b t := by
  induction body generalizing c with
  | nil =>
    rcases ht with rfl | ht
    · exact ⟨[], by simp [lines, hc], fun _ => rfl⟩
    · cases t with
      | nil => simp at ht
      | cons d t =>
        have : d = '\n' := by simpa using ht
        subst this
        have hl : lines ('\n' :: t) = [] :: lines t := by
          conv => lhs; unfold lines
          rw [if_pos rfl]
        refine ⟨lines t, ?_, fun b => by rw [S_newline]; rfl⟩
        conv => lhs; unfold lines
        rw [if_neg hc, List.nil_append, hl]
  | cons d body ih =>
    have hd : d ≠ '\n' := fun h => hb (by simp [h])
    obtain ⟨r, h1, h2⟩ := ih (fun h => hb (List.mem_cons_of_mem _ h)) d hd
    refine ⟨r, ?_, h2⟩
    conv => lhs; unfold lines
    rw [if_neg hc, List.cons_append, h1]

/-- **Removing comments yields exactly the code of the document**, without its line breaks. -/
theorem strip_doc {text code : List Char} (h : Doc text code) : stripComments text = code := by
  change S false text = code
  have hbody : ∀ body t, ¬['*', '/'] <:+: body → (body.getLast? = some '*' → t.head? ≠ some '/') → S true (body ++ t) = S true t := by
    intro body
    induction body with
    | nil => intro t _ _; rfl
    | cons c body ih =>
      intro t hb hlast
      rw [List.cons_append, S_true_skip, ih]
      · exact fun h => hb (h.trans (List.suffix_cons c body).isInfix)
      · intro hl
        apply hlast
        cases body with
        | nil => simp at hl
        | cons d body => rw [List.getLast?_cons_cons]; exact hl
      · rintro ⟨rfl, hh⟩
        cases body with
        | nil => exact hlast rfl hh
        | cons d body =>
          have : d = '/' := by simpa using hh
          subst this
          exact hb ⟨[], body, rfl⟩
  induction h with
  | nil => rfl
  | char h0 h1 h2 _ ih => rw [S_false_code h0 h1 h2, ih]
  | newline _ ih => rw [S_newline, ih]
  | @hash body t o hb ht _ ih =>
    obtain ⟨r, h1, h2⟩ := lines_body hb '#' (by decide) t ht
    unfold S
    rw [h1]
    have : scan false ('#' :: body) = ([], false) := by
      unfold scan
      rfl
    simp only [strip, this, List.nil_append]
    rw [h2, ih]
  | @slashes body t o hb ht _ ih =>
    obtain ⟨r, h1, h2⟩ := lines_body (body := '/' :: body) (by simp [hb]) '/' (by decide) t ht
    unfold S
    rw [List.cons_append] at h1
    rw [h1]
    have : scan false ('/' :: '/' :: body) = ([], false) := by
      unfold scan
      rfl
    simp only [strip, this, List.nil_append]
    rw [h2, ih]
  | @block body t o hb _ ih =>
    rw [S_false_open, hbody body _ hb (by simp), S_true_end, ih]
  | @unclosed body hb =>
    rw [S_false_open]
    have := hbody body [] hb (by simp)
    rw [List.append_nil] at this
    rw [this, S_nil]

/-- Text without `#` and `/` only loses its line breaks. -/
theorem strip_plain {text : List Char} (h1 : '#' ∉ text) (h2 : '/' ∉ text) : stripComments text = text.filter (· != '\n') := by
  apply strip_doc
  induction text with
  | nil => exact .nil
  | cons c t ih =>
    have ih := ih (fun h => h1 (List.mem_cons_of_mem _ h)) (fun h => h2 (List.mem_cons_of_mem _ h))
    by_cases hc : c = '\n'
    · subst hc
      rw [List.filter_cons_of_neg (by simp)]
      exact .newline ih
    · rw [List.filter_cons_of_pos (by simpa using hc)]
      exact .char hc (fun h => h1 (by simp [h])) (fun h => absurd h fun h => h2 (by simp [h])) ih

example : stripComments "{ # a\n \"x\": 1, /* b\n c */ \"y\": 2 // d\n}".toList = "{  \"x\": 1,  \"y\": 2 }".toList := by decide +kernel

/-- **Finding.** Comment marks inside strings are not recognised as text: the rest of the line is lost. -/
theorem quoted_lost : stripComments "{\"networkFile\": \"dir//net#1.h5\"}".toList = "{\"networkFile\": \"dir".toList := by decide +kernel

/-- **Finding.** Line breaks are removed: what two lines contain is glued together. -/
theorem lines_glued : stripComments "1\n2".toList = "12".toList := by decide +kernel

/-- **Finding.** Removing comments twice can remove more. -/
theorem not_idempotent : stripComments "1 /\n/ 2".toList = "1 // 2".toList ∧ stripComments (stripComments "1 /\n/ 2".toList) = "1 ".toList := by
  constructor <;> decide +kernel

end Xolotl.Options.Comments
