import Verif.Util.LineLoop
import Mathlib.Data.List.Basic
import Mathlib.Data.List.TakeWhile

/-!
# C62: files are read to their end
-/

set_option linter.unusedSectionVars false

namespace Xolotl.Util.LineLoop

open Xolotl.Util.Tokenizer

/-- The lines of a text: what is between two line breaks, before the first and after the last one. -/
def pieces : List Char → List (List Char)
  | [] => [[]]
  | c :: r => if c = '\n' then [] :: pieces r else (pieces r).modifyHead (c :: ·)

/-- A line without anything but blanks. -/
def Blank (l : List Char) : Prop := ∀ c ∈ l, c = ' '

instance (l : List Char) : Decidable (Blank l) := inferInstanceAs (Decidable (∀ c ∈ l, c = ' '))

theorem tokens_nil (l : List Char) : tokens l = [] ↔ Blank l := by
  rw [tokens]
  split
  · rename_i h
    simp only [true_iff]
    intro c hc
    have := List.dropWhile_eq_nil_iff.mp h c hc
    simpa using this
  · rename_i c r h
    simp only [reduceCtorEq, false_iff]
    intro b
    have : l.dropWhile (· == ' ') = [] := List.dropWhile_eq_nil_iff.mpr fun c hc => by simpa using b c hc
    rw [this] at h
    exact absurd h (by simp)

theorem pieces_ne (t : List Char) : pieces t ≠ [] := by
  induction t with
  | nil => simp [pieces]
  | cons c r ih =>
    rw [pieces]
    split
    · simp
    · cases h : pieces r with
      | nil => exact absurd h ih
      | cons a b => simp

theorem pieces_cut (t : List Char) : pieces t = (cut t).1 :: (match (cut t).2 with | some r => pieces r | none => []) := by
  induction t with
  | nil => rfl
  | cons c r ih =>
    rw [pieces, cut]
    split
    · rfl
    · rw [ih]
      rfl

/-- The lines that are still to be seen, the current one first. -/
def seen (s : Stream) (line : List Char) : List (List Char) := line :: if s.good then pieces s.rest else []

/-- A read in a good state moves on by one line. -/
theorem getline_seen (s : Stream) (line : List Char) (h : s.good = true) :
    seen (getline s line).1 (getline s line).2 = pieces s.rest := by
  rw [getline, if_pos h, pieces_cut s.rest]
  cases hc : cut s.rest with
  | mk l o => cases o <;> simp [seen]

theorem start_seen (text : List Char) : seen (getline (.start text) []).1 (getline (.start text) []).2 = pieces text :=
  getline_seen (.start text) [] rfl

theorem getline_bad (s : Stream) (line : List Char) (h : s.good = false) : getline s line = (s, line) := by
  rw [getline, h]; rfl

/-- A loop whose line is not blank and whose stream is at its end never ends. -/
theorem plain_stuck (line : List Char) (hb : ¬ Blank line) : ∀ (acc : List (List Char)) (s : Stream), s.good = false → ¬ Plain s line acc := by
  intro acc
  induction acc with
  | nil =>
    intro s _ h
    cases h with
    | stop _ _ q => exact hb ((tokens_nil _).mp q)
  | cons a acc ih =>
    intro s hs h
    cases h with
    | step _ _ _ q r =>
      rw [getline_bad s line hs] at r
      exact ih s hs r

theorem plain_seen : ∀ (n : ℕ) (s : Stream) (line : List Char), (seen s line).length ≤ n → ∀ acc,
    (Plain s line acc ↔ (∃ l ∈ seen s line, Blank l) ∧ acc = (seen s line).takeWhile (fun l => decide (¬ Blank l))) := by
  intro n
  induction n with
  | zero => intro s line h; simp [seen] at h
  | succ n ih =>
    intro s line h acc
    by_cases b : Blank line
    · constructor
      · intro p
        cases p with
        | stop _ _ q => exact ⟨⟨line, by simp [seen], b⟩, by simp [seen, b]⟩
        | step _ _ _ q _ => exact absurd ((tokens_nil _).mpr b) q
      · rintro ⟨_, rfl⟩
        have : (seen s line).takeWhile (fun l => decide (¬ Blank l)) = [] := by simp [seen, b]
        rw [this]
        exact .stop s line ((tokens_nil _).mpr b)
    · cases g : s.good with
      | false =>
        constructor
        · intro p; exact absurd p (plain_stuck line b acc s g)
        · rintro ⟨⟨l, hl, q⟩, _⟩
          simp only [seen, g, Bool.false_eq_true, if_false, List.mem_singleton] at hl
          exact absurd (hl ▸ q) b
      | true =>
        have e := getline_seen s line g
        have hs : seen s line = line :: pieces s.rest := by simp [seen, g]
        have hl : (seen (getline s line).1 (getline s line).2).length ≤ n := by
          rw [e]; rw [hs] at h; simpa using h
        have key := ih (getline s line).1 (getline s line).2 hl
        rw [e] at key
        constructor
        · intro p
          cases p with
          | stop _ _ q => exact absurd ((tokens_nil _).mp q) b
          | step _ _ acc' q r =>
            obtain ⟨⟨l, m, hb⟩, rfl⟩ := (key acc').mp r
            rw [hs]
            exact ⟨⟨l, List.mem_cons_of_mem _ m, hb⟩, by simp [b]⟩
        · rintro ⟨⟨l, m, hb⟩, rfl⟩
          rw [hs] at m ⊢
          rw [List.takeWhile_cons, if_pos (by simpa using b)]
          refine .step s line _ (fun q => b ((tokens_nil _).mp q)) ((key _).mpr ⟨⟨l, ?_, hb⟩, rfl⟩)
          rcases List.mem_cons.mp m with rfl | m
          · exact absurd hb b
          · exact m

/-- **C62, plain loop.** The loop ends exactly when some line of the text is blank (the text after the last line break counts as a line), and then runs its body for the lines before the first blank one. -/
theorem plain_iff (text : List Char) (acc : List (List Char)) :
    Plain (getline (.start text) []).1 (getline (.start text) []).2 acc ↔
      (∃ l ∈ pieces text, Blank l) ∧ acc = (pieces text).takeWhile (fun l => decide (¬ Blank l)) := by
  rw [plain_seen _ _ _ le_rfl acc, start_seen]

/-! ## The loop up to the word -/

/-- A line at which the second loop ends. -/
def Ends (l : List Char) : Prop := Blank l ∨ l = word

instance (l : List Char) : Decidable (Ends l) := inferInstanceAs (Decidable (_ ∨ _))

theorem upto_stuck (line : List Char) (hb : ¬ Ends line) : ∀ (acc : List (List Char)) (s s' : Stream) (line' : List Char),
    s.good = false → ¬ Upto s line acc s' line' := by
  intro acc
  have hb' : ¬ Blank line := fun q => hb (.inl q)
  induction acc with
  | nil =>
    intro s s' line' _ h
    cases h with
    | stop _ _ q => exact hb' ((tokens_nil _).mp q)
  | cons a acc ih =>
    intro s s' line' hs h
    cases h with
    | found _ _ q r => rw [getline_bad s line hs] at r; exact hb (.inr r)
    | step _ _ _ _ _ q _ r =>
      rw [getline_bad s line hs] at r
      exact ih s s' line' hs r

/-- The lines after the current one, in the second loop: the body runs for the current line and the following ones before the first blank line or word. -/
theorem upto_seen : ∀ (n : ℕ) (s : Stream) (line : List Char), (seen s line).length ≤ n → ¬ Blank line → s.good = true → ∀ acc s' line',
    (Upto s line acc s' line' → ((∃ l ∈ pieces s.rest, Ends l) ∧ acc = line :: (pieces s.rest).takeWhile (fun l => decide (¬ Ends l)) ∧
      seen s' line' = (pieces s.rest).dropWhile (fun l => decide (¬ Ends l)))) ∧
    ((∃ l ∈ pieces s.rest, Ends l) → ∃ acc s' line', Upto s line acc s' line') := by
  intro n
  induction n with
  | zero => intro s line h; simp [seen] at h
  | succ n ih =>
    intro s line h b g acc s' line'
    have e := getline_seen s line g
    have hs : seen s line = line :: pieces s.rest := by simp [seen, g]
    have hl : (seen (getline s line).1 (getline s line).2).length ≤ n := by
      rw [e]; rw [hs] at h; simpa using h
    have hp : pieces s.rest = (getline s line).2 :: (if (getline s line).1.good then pieces (getline s line).1.rest else []) := e.symm
    have hn : tokens line ≠ [] := fun q => b ((tokens_nil _).mp q)
    by_cases w : (getline s line).2 = word
    · have he : Ends (getline s line).2 := .inr w
      constructor
      · intro u
        cases u with
        | stop _ _ q => exact absurd q hn
        | found _ _ q r =>
          refine ⟨⟨_, by rw [hp]; exact List.mem_cons_self, he⟩, ?_, ?_⟩
          · rw [hp, List.takeWhile_cons, if_neg (by simpa using he)]
          · rw [hp, List.dropWhile_cons, if_neg (by simpa using he)]; rfl
        | step _ _ _ _ _ q r _ => exact absurd w r
      · intro _; exact ⟨_, _, _, .found s line hn w⟩
    · by_cases b' : Blank (getline s line).2
      · have he : Ends (getline s line).2 := .inl b'
        constructor
        · intro u
          cases u with
          | stop _ _ q => exact absurd q hn
          | found _ _ q r => exact absurd r w
          | step _ _ _ _ _ q r u =>
            cases u with
            | stop _ _ q =>
              refine ⟨⟨_, by rw [hp]; exact List.mem_cons_self, he⟩, ?_, ?_⟩
              · rw [hp, List.takeWhile_cons, if_neg (by simpa using he)]
              · rw [hp, List.dropWhile_cons, if_neg (by simpa using he)]; rfl
            | found _ _ q _ => exact absurd ((tokens_nil _).mpr b') q
            | step _ _ _ _ _ q _ _ => exact absurd ((tokens_nil _).mpr b') q
        · intro _; exact ⟨_, _, _, .step s line _ _ _ hn w (.stop _ _ ((tokens_nil _).mpr b'))⟩
      · have he : ¬ Ends (getline s line).2 := fun q => q.elim b' w
        cases g' : (getline s line).1.good with
        | false =>
          have hp' : pieces s.rest = [(getline s line).2] := by rw [hp, g']; rfl
          constructor
          · intro u
            cases u with
            | stop _ _ q => exact absurd q hn
            | found _ _ q r => exact absurd r w
            | step _ _ _ _ _ q r u => exact absurd u (upto_stuck _ he _ _ _ _ g')
          · rintro ⟨l, m, q⟩
            rw [hp'] at m
            exact absurd (List.mem_singleton.mp m ▸ q) he
        | true =>
          have hp' : pieces s.rest = (getline s line).2 :: pieces (getline s line).1.rest := by rw [hp, g']; rfl
          constructor
          · intro u
            cases u with
            | stop _ _ q => exact absurd q hn
            | found _ _ q r => exact absurd r w
            | step _ _ acc' _ _ q r u =>
              obtain ⟨⟨l, m, q⟩, rfl, k⟩ := (ih _ _ hl b' g' acc' s' line').1 u
              refine ⟨⟨l, by rw [hp']; exact List.mem_cons_of_mem _ m, q⟩, ?_, ?_⟩
              · rw [hp', List.takeWhile_cons, if_pos (by simpa using he)]
              · rw [hp', List.dropWhile_cons, if_pos (by simpa using he)]; exact k
          · rintro ⟨l, m, q⟩
            rw [hp'] at m
            rcases List.mem_cons.mp m with rfl | m
            · exact absurd q he
            · obtain ⟨acc, s', line', u⟩ := (ih _ _ hl b' g' acc s' line').2 ⟨l, m, q⟩
              exact ⟨_, _, _, .step s line _ _ _ hn w u⟩

/-- **C62, lines about clusters.** In a text with a line break, reading them ends exactly when the first line is blank or a later line is blank or the word; the lines used are those before. -/
theorem clusters_iff (text first : List Char) (others : List (List Char)) (ht : pieces text = first :: others) (hne : others ≠ []) :
    (∀ ls s line, Clusters text ls s line →
      (Blank first ∧ ls = [] ∧ seen s line = first :: others) ∨
      (¬ Blank first ∧ (∃ l ∈ others, Ends l) ∧ ls = first :: others.takeWhile (fun l => decide (¬ Ends l)) ∧
        seen s line = others.dropWhile (fun l => decide (¬ Ends l)))) ∧
    ((∃ ls s line, Clusters text ls s line) ↔ Blank first ∨ ∃ l ∈ others, Ends l) := by
  have e := start_seen text
  rw [ht] at e
  have h1 : (getline (.start text) []).2 = first := (List.cons.inj e).1
  have h2 := (List.cons.inj e).2
  have g : (getline (.start text) []).1.good = true := by
    cases g : (getline (.start text) []).1.good with
    | true => rfl
    | false => rw [g] at h2; exact absurd h2.symm hne
  rw [g, if_pos rfl] at h2
  unfold Clusters
  by_cases b : Blank first
  · constructor
    · intro ls s line u
      left
      rw [← e]
      rw [← h1] at b
      cases u with
      | stop _ _ q => exact ⟨h1 ▸ b, rfl, rfl⟩
      | found _ _ q _ => exact absurd ((tokens_nil _).mpr b) q
      | step _ _ _ _ _ q _ _ => exact absurd ((tokens_nil _).mpr b) q
    · exact ⟨fun _ => .inl b, fun _ => ⟨[], _, _, .stop _ _ (by rw [h1]; exact (tokens_nil _).mpr b)⟩⟩
  · have key := upto_seen _ _ _ le_rfl (h1 ▸ b) g
    rw [h2, h1] at key
    rw [h1]
    refine ⟨fun ls s line u => .inr ⟨b, (key ls s line).1 u⟩, ?_⟩
    constructor
    · rintro ⟨ls, s, line, u⟩; exact .inr ((key ls s line).1 u).1
    · rintro (q | q)
      · exact absurd q b
      · exact (key [] ⟨[], true⟩ []).2 q

/-! ## Texts made of lines -/

/-- Lines with a line break after each. -/
def text : List (List Char) → List Char
  | [] => []
  | l :: ls => l ++ '\n' :: text ls

theorem pieces_line (l r : List Char) (h : '\n' ∉ l) : pieces (l ++ '\n' :: r) = l :: pieces r := by
  induction l with
  | nil => simp [pieces]
  | cons c l ih =>
    have hc : c ≠ '\n' := fun q => h (by simp [q])
    rw [List.cons_append, pieces, if_neg hc, ih (fun q => h (List.mem_cons_of_mem _ q))]
    rfl

theorem pieces_last (l : List Char) (h : '\n' ∉ l) : pieces l = [l] := by
  induction l with
  | nil => rfl
  | cons c l ih =>
    have hc : c ≠ '\n' := fun q => h (by simp [q])
    rw [pieces, if_neg hc, ih (fun q => h (List.mem_cons_of_mem _ q))]
    rfl

theorem pieces_text (ls : List (List Char)) (r : List Char) (h : ∀ l ∈ ls, '\n' ∉ l) : pieces (text ls ++ r) = ls ++ pieces r := by
  induction ls with
  | nil => rfl
  | cons l ls ih =>
    rw [text, List.append_assoc, List.cons_append, pieces_line l _ (h l List.mem_cons_self), ih fun x hx => h x (List.mem_cons_of_mem _ hx)]
    rfl

/-- Every text is made of its lines. -/
theorem text_pieces (t : List Char) : ∃ ls last, t = text ls ++ last ∧ (∀ l ∈ ls, '\n' ∉ l) ∧ '\n' ∉ last ∧ pieces t = ls ++ [last] := by
  induction t with
  | nil => exact ⟨[], [], rfl, by simp, by simp, rfl⟩
  | cons c t ih =>
    obtain ⟨ls, last, e, h1, h2, h3⟩ := ih
    by_cases hc : c = '\n'
    · refine ⟨[] :: ls, last, by simp [text, hc, e], ?_, h2, by simp [pieces, hc, h3]⟩
      intro l hl
      rcases List.mem_cons.mp hl with rfl | hl
      · simp
      · exact h1 l hl
    · cases ls with
      | nil =>
        refine ⟨[], c :: last, by rw [e]; rfl, by simp, ?_, by rw [pieces, if_neg hc, h3]; rfl⟩
        intro q
        rcases List.mem_cons.mp q with q | q
        · exact hc q.symm
        · exact h2 q
      | cons l ls =>
        refine ⟨(c :: l) :: ls, last, by rw [e]; rfl, ?_, h2, by rw [pieces, if_neg hc, h3]; rfl⟩
        intro x hx
        rcases List.mem_cons.mp hx with rfl | hx
        · intro q
          rcases List.mem_cons.mp q with q | q
          · exact hc q.symm
          · exact h1 l List.mem_cons_self q
        · exact h1 x (List.mem_cons_of_mem _ hx)

theorem word_facts : '\n' ∉ word ∧ ¬ Blank word := by decide +kernel

/-- A line that can stand in a reaction file: one line, not blank, not the word. -/
def Content (l : List Char) : Prop := '\n' ∉ l ∧ ¬ Blank l ∧ l ≠ word

theorem takeWhile_content {p : List Char → Bool} (ls r : List (List Char)) (h : ∀ l ∈ ls, p l = true) (hr : ∀ x ∈ r.head?, p x = false) :
    (ls ++ r).takeWhile p = ls ∧ (ls ++ r).dropWhile p = r := by
  induction ls with
  | nil => cases r with
    | nil => simp
    | cons x r => have := hr x rfl; simp [this]
  | cons l ls ih =>
    have := ih fun x hx => h x (List.mem_cons_of_mem _ hx)
    simp [h l List.mem_cons_self, this]

/-- **C62 fails for a single line without a line break.** -/
theorem single_endless (t : List Char) (h : Content t) (ls : List (List Char)) (s : Stream) (line : List Char) : ¬ Clusters t ls s line := by
  have e := start_seen t
  rw [pieces_last t h.1] at e
  have h1 : (getline (.start t) []).2 = t := (List.cons.inj e).1
  have g : (getline (.start t) []).1.good = false := by
    cases g : (getline (.start t) []).1.good with
    | false => rfl
    | true => have := (List.cons.inj e).2; rw [g, if_pos rfl] at this; exact absurd this (pieces_ne _)
  unfold Clusters
  rw [h1]
  exact upto_stuck t (fun q => q.elim h.2.1 h.2.2) _ _ _ _ g

/-- What follows the lines about clusters in a file that has them, the word, and then `r`. -/
theorem clusters_file (c : List Char) (cl : List (List Char)) (r : List Char) (hc : Content c) (hcl : ∀ l ∈ cl, Content l) :
    (∃ s line, Clusters (text (c :: cl ++ [word]) ++ r) (c :: cl) s line) ∧
    ∀ ls s line, Clusters (text (c :: cl ++ [word]) ++ r) ls s line → ls = c :: cl ∧ seen s line = word :: pieces r := by
  have hnl : ∀ l ∈ c :: cl ++ [word], '\n' ∉ l := by
    intro l hl
    rcases List.mem_append.mp hl with hl | hl
    · rcases List.mem_cons.mp hl with rfl | hl
      · exact hc.1
      · exact (hcl l hl).1
    · rw [List.mem_singleton.mp hl]; exact word_facts.1
  have hp : pieces (text (c :: cl ++ [word]) ++ r) = c :: (cl ++ word :: pieces r) := by
    rw [pieces_text _ _ hnl]; simp
  obtain ⟨h1, h2⟩ := clusters_iff _ c (cl ++ word :: pieces r) hp (by simp)
  have tw := takeWhile_content (p := fun l => decide (¬ Ends l)) cl (word :: pieces r)
    (fun l hl => by simpa using fun q : Ends l => q.elim (hcl l hl).2.1 (hcl l hl).2.2)
    (fun x hx => by simp only [List.head?_cons, Option.mem_some_iff] at hx; subst hx; simp [Ends])
  have uniq : ∀ ls s line, Clusters (text (c :: cl ++ [word]) ++ r) ls s line → ls = c :: cl ∧ seen s line = word :: pieces r := by
    intro ls s line u
    rcases h1 ls s line u with ⟨q, _⟩ | ⟨_, _, q, k⟩
    · exact absurd q hc.2.1
    · rw [tw.1] at q; rw [tw.2] at k; exact ⟨q, k⟩
  refine ⟨?_, uniq⟩
  obtain ⟨ls, s, line, u⟩ := h2.mpr (.inr ⟨word, by simp, .inr rfl⟩)
  obtain ⟨rfl, _⟩ := uniq ls s line u
  exact ⟨s, line, u⟩

/-- **C62, reaction file with a final line break.** All the lines about clusters and all the lines about reactions are used, in order. -/
theorem reactions_read (c : List Char) (cl re : List (List Char)) (hc : Content c) (hcl : ∀ l ∈ cl, Content l)
    (hre : ∀ l ∈ re, '\n' ∉ l ∧ ¬ Blank l) (a b : List (List Char)) :
    Reactions (text (c :: cl ++ [word]) ++ text re) a b ↔ a = c :: cl ∧ b = re := by
  obtain ⟨⟨s, line, u⟩, uniq⟩ := clusters_file c cl (text re) hc hcl
  have hp : pieces (text re) = re ++ [[]] := by
    have := pieces_text re [] fun l hl => (hre l hl).1
    simpa [pieces] using this
  have plain : ∀ s line, seen s line = word :: pieces (text re) → ∀ b, Plain (getline s line).1 (getline s line).2 b ↔ b = re := by
    intro s line h b
    have g : s.good = true := by
      cases g : s.good with
      | true => rfl
      | false =>
        have := (List.cons.inj h).2
        rw [g] at this
        exact absurd this.symm (pieces_ne _)
    have hr : pieces s.rest = pieces (text re) := by
      have := (List.cons.inj h).2
      rwa [g, if_pos rfl] at this
    rw [plain_seen _ _ _ le_rfl, getline_seen s line g, hr, hp]
    have tw := takeWhile_content (p := fun l => decide (¬ Blank l)) re [[]] (fun l hl => by simpa using (hre l hl).2)
      (fun x hx => by simp only [List.head?_cons, Option.mem_some_iff] at hx; subst hx; simp [Blank])
    rw [tw.1]
    constructor
    · exact fun q => q.2
    · exact fun q => ⟨⟨[], by simp, by simp [Blank]⟩, q⟩
  constructor
  · rintro ⟨s', line', u', p⟩
    obtain ⟨rfl, k⟩ := uniq a s' line' u'
    exact ⟨rfl, (plain s' line' k b).mp p⟩
  · rintro ⟨rfl, rfl⟩
    exact ⟨s, line, u, (plain s line (uniq _ s line u).2 _).mpr rfl⟩

/-- **C62 fails without a final line break.** Reading the same file without the line break at its end never ends. -/
theorem reactions_endless (c : List Char) (cl re : List (List Char)) (last : List Char) (hc : Content c) (hcl : ∀ l ∈ cl, Content l)
    (hre : ∀ l ∈ re ++ [last], '\n' ∉ l ∧ ¬ Blank l) (a b : List (List Char)) :
    ¬ Reactions (text (c :: cl ++ [word]) ++ (text re ++ last)) a b := by
  rintro ⟨s, line, u, p⟩
  obtain ⟨_, uniq⟩ := clusters_file c cl (text re ++ last) hc hcl
  obtain ⟨_, k⟩ := uniq a s line u
  have hp : pieces (text re ++ last) = re ++ [last] := by
    rw [pieces_text re last fun l hl => (hre l (by simp [hl])).1, pieces_last last (hre last (by simp)).1]
  have h := (List.cons.inj k).2
  have g : s.good = true := by
    cases g : s.good with
    | true => rfl
    | false => rw [g] at h; exact absurd h.symm (pieces_ne _)
  rw [g, if_pos rfl] at h
  rw [plain_seen _ _ _ le_rfl, getline_seen s line g, h, hp] at p
  obtain ⟨⟨l, m, q⟩, _⟩ := p
  exact (hre l m).2 q

theorem carriage_lines (ls : List (List Char)) (h : ∀ l ∈ ls, '\n' ∉ l) :
    (∀ l ∈ ls.map (· ++ ['\r']), ¬ Ends l) ∧ pieces (text (ls.map (· ++ ['\r']))) = ls.map (· ++ ['\r']) ++ [[]] := by
  constructor
  · intro l hl
    obtain ⟨x, _, rfl⟩ := List.mem_map.mp hl
    rintro (q | q)
    · exact absurd (q '\r' (by simp)) (by decide)
    · have : '\r' ∈ word := by rw [← q]; simp
      exact absurd this (by decide +kernel)
  · have := pieces_text (ls.map (· ++ ['\r'])) [] (by
      intro l hl
      obtain ⟨x, hx, rfl⟩ := List.mem_map.mp hl
      simp [h x hx])
    simpa [pieces] using this

/-- **C62 fails for line breaks of two characters.** With a carriage return before each line break the word is not recognised: every line of the file, that of the word and those of the reactions included, is taken for a cluster, and there are no reactions. -/
theorem carriage_return (l : List Char) (ls : List (List Char)) (h : ∀ x ∈ l :: ls, '\n' ∉ x) (a b : List (List Char)) :
    Reactions (text ((l :: ls).map (· ++ ['\r']))) a b ↔ a = (l :: ls).map (· ++ ['\r']) ∧ b = [] := by
  obtain ⟨h1, h2⟩ := carriage_lines (l :: ls) h
  rw [List.map_cons, List.cons_append] at h2
  obtain ⟨k1, k2⟩ := clusters_iff _ _ _ h2 (by simp)
  have hb : ¬ Blank (l ++ ['\r']) := fun q => h1 _ (by simp) (.inl q)
  have tw := takeWhile_content (p := fun l => decide (¬ Ends l)) (ls.map (· ++ ['\r'])) [[]]
    (fun x hx => by simpa using h1 x (by rw [List.map_cons]; exact List.mem_cons_of_mem _ hx))
    (fun x hx => by simp only [List.head?_cons, Option.mem_some_iff] at hx; subst hx; simp [Ends, Blank])
  have uniq : ∀ a s line, Clusters (text ((l :: ls).map (· ++ ['\r']))) a s line → a = (l :: ls).map (· ++ ['\r']) ∧ seen s line = [[]] := by
    intro a s line u
    rcases k1 a s line u with ⟨q, _⟩ | ⟨_, _, q, k⟩
    · exact absurd q hb
    · rw [tw.1] at q; rw [tw.2] at k; exact ⟨q, k⟩
  have plain : ∀ s line, seen s line = [[]] → ∀ b, Plain (getline s line).1 (getline s line).2 b ↔ b = [] := by
    intro s line k b
    have hl : line = [] := (List.cons.inj k).1
    have g : s.good = false := by
      cases g : s.good with
      | false => rfl
      | true => have := (List.cons.inj k).2; rw [g, if_pos rfl] at this; exact absurd this (pieces_ne _)
    rw [getline_bad s line g, plain_seen _ _ _ le_rfl, k]
    constructor
    · rintro ⟨_, rfl⟩; simp [Blank]
    · rintro rfl; exact ⟨⟨[], by simp, by simp [Blank]⟩, by simp [Blank]⟩
  constructor
  · rintro ⟨s, line, u, p⟩
    obtain ⟨e, k⟩ := uniq a s line u
    exact ⟨e, (plain s line k b).mp p⟩
  · rintro ⟨rfl, rfl⟩
    obtain ⟨a, s, line, u⟩ := k2.mpr (.inr ⟨[], by simp, .inl (by simp [Blank])⟩)
    obtain ⟨rfl, k⟩ := uniq a s line u
    exact ⟨s, line, u, (plain s line k []).mpr rfl⟩

/-! ## Custom flux -/

theorem custom_exists : ∀ (n : ℕ) (s : Stream) (line : List Char), (seen s line).length ≤ n → ∃ r, CustomLoop s line r := by
  intro n
  induction n using Nat.strong_induction_on with
  | _ n ih =>
    intro s line h
    by_cases b : tokens line = []
    · exact ⟨_, .stop s line b⟩
    by_cases c3 : (tokens line).length = 3
    swap
    · exact ⟨_, .badCluster s line b c3⟩
    by_cases c17 : (tokens (getline s line).2).length = 17
    swap
    · exact ⟨_, .badFit s line c3 c17⟩
    cases g : s.good with
    | false => rw [getline_bad s line g] at c17; simp [c3] at c17
    | true =>
      have e := getline_seen s line g
      have hs : seen s line = line :: pieces s.rest := by simp [seen, g]
      cases g' : (getline s line).1.good with
      | false =>
        refine ⟨_, .step s line .badCluster c3 c17 ?_⟩
        rw [getline_bad _ _ g']
        exact .badCluster _ _ (fun q => by rw [q] at c17; simp at c17) (show (tokens (getline s line).2).length ≠ 3 by omega)
      | true =>
        have e' := getline_seen (getline s line).1 (getline s line).2 g'
        have hs' : pieces s.rest = (getline s line).2 :: pieces (getline s line).1.rest := by rw [← e]; simp [seen, g']
        obtain ⟨r, hr⟩ := ih (pieces (getline s line).1.rest).length (by rw [hs, hs'] at h; simp at h; omega) _ _ (le_of_eq (by rw [e']))
        exact ⟨_, .step s line r c3 c17 hr⟩

theorem custom_unique {s : Stream} {line : List Char} {r : Custom} (h : CustomLoop s line r) : ∀ r', CustomLoop s line r' → r = r' := by
  induction h with
  | stop s line q =>
    intro r' h'
    cases h' with
    | stop => rfl
    | badCluster _ _ q' => exact absurd q q'
    | badFit _ _ q' => simp [q] at q'
    | step _ _ _ q' => simp [q] at q'
  | badCluster s line q q3 =>
    intro r' h'
    cases h' with
    | stop _ _ q' => exact absurd q' q
    | badCluster => rfl
    | badFit _ _ q' => exact absurd q' q3
    | step _ _ _ q' => exact absurd q' q3
  | badFit s line q3 q =>
    intro r' h'
    cases h' with
    | stop _ _ q' => simp [q'] at q3
    | badCluster _ _ _ q' => exact absurd q3 q'
    | badFit => rfl
    | step _ _ _ _ q' => exact absurd q' q
  | step s line r q3 q _ ih =>
    intro r' h'
    cases h' with
    | stop _ _ q' => simp [q'] at q3
    | badCluster _ _ _ q' => exact absurd q3 q'
    | badFit _ _ _ q' => exact absurd q q'
    | step _ _ r' _ _ h' => rw [ih r' h']

/-- **C62, custom flux.** Reading the parameters of a custom flux ends for every text, in exactly one way. -/
theorem custom_ends (t : List Char) : ∃ r, CustomFile t r ∧ ∀ r', CustomFile t r' → r' = r := by
  obtain ⟨r, h⟩ := custom_exists _ _ _ le_rfl
  exact ⟨r, h, fun r' h' => (custom_unique h r' h').symm⟩

/-- The lines of a list of clusters with their fits. -/
def pairs : List (List Char × List Char) → List (List Char)
  | [] => []
  | p :: ps => p.1 :: p.2 :: pairs ps

/-- A cluster line and a fit line. -/
def Pair (p : List Char × List Char) : Prop := '\n' ∉ p.1 ∧ '\n' ∉ p.2 ∧ (tokens p.1).length = 3 ∧ (tokens p.2).length = 17

theorem custom_pairs : ∀ (ps : List (List Char × List Char)) (s : Stream) (line : List Char), (∀ p ∈ ps, Pair p) → seen s line = pairs ps ++ [[]] →
    CustomLoop s line (.done ps)
  | [], s, line, _, h => by
    have : line = [] := (List.cons.inj h).1
    exact .stop s line (by rw [this]; exact (tokens_nil _).mpr (by simp [Blank]))
  | p :: ps, s, line, hp, h => by
    obtain ⟨_, _, h3, h17⟩ := hp p List.mem_cons_self
    have hl : line = p.1 := (List.cons.inj h).1
    have hr := (List.cons.inj h).2
    have g : s.good = true := by
      cases g : s.good with
      | true => rfl
      | false => rw [g] at hr; simp at hr
    rw [g, if_pos rfl] at hr
    have e := getline_seen s line g
    rw [hr] at e
    have hl' : (getline s line).2 = p.2 := (List.cons.inj e).1
    have hr' := (List.cons.inj e).2
    have g' : (getline s line).1.good = true := by
      cases g' : (getline s line).1.good with
      | true => rfl
      | false => rw [g'] at hr'; simp at hr'
    rw [g', if_pos rfl] at hr'
    have e' := getline_seen (getline s line).1 (getline s line).2 g'
    rw [hr'] at e'
    have := CustomLoop.step s line _ (by rw [hl]; exact h3) (by rw [hl']; exact h17)
      (custom_pairs ps _ _ (fun q hq => hp q (List.mem_cons_of_mem _ hq)) e')
    rwa [hl', show (line, p.2) = p by rw [hl]] at this

theorem pairs_nl (ps : List (List Char × List Char)) (h : ∀ p ∈ ps, Pair p) : ∀ l ∈ pairs ps, '\n' ∉ l := by
  induction ps with
  | nil => simp [pairs]
  | cons p ps ih =>
    intro l hl
    simp only [pairs, List.mem_cons] at hl
    rcases hl with rfl | rfl | hl
    · exact (h p List.mem_cons_self).1
    · exact (h p List.mem_cons_self).2.1
    · exact ih (fun q hq => h q (List.mem_cons_of_mem _ hq)) l hl

/-- **C62, custom flux with a final line break.** Every cluster is read with its fit. -/
theorem custom_read (ps : List (List Char × List Char)) (h : ∀ p ∈ ps, Pair p) (r : Custom) :
    CustomFile (text (pairs ps)) r ↔ r = .done ps := by
  have hp : pieces (text (pairs ps)) = pairs ps ++ [[]] := by
    have := pieces_text (pairs ps) [] (pairs_nl ps h)
    simpa [pieces] using this
  have d : CustomFile (text (pairs ps)) (.done ps) := custom_pairs ps _ _ h (by rw [start_seen, hp])
  exact ⟨fun q => (custom_unique d r q).symm, fun q => q ▸ d⟩

theorem custom_pairs_bad : ∀ (ps : List (List Char × List Char)) (p : List Char × List Char) (s : Stream) (line : List Char),
    (∀ q ∈ ps, Pair q) → Pair p → seen s line = pairs ps ++ [p.1, p.2] → CustomLoop s line .badCluster
  | [], p, s, line, _, ⟨_, _, h3, h17⟩, h => by
    have hl : line = p.1 := (List.cons.inj h).1
    have hr := (List.cons.inj h).2
    have g : s.good = true := by
      cases g : s.good with
      | true => rfl
      | false => rw [g] at hr; simp at hr
    rw [g, if_pos rfl] at hr
    have e := getline_seen s line g
    rw [hr] at e
    have hl' : (getline s line).2 = p.2 := (List.cons.inj e).1
    have g' : (getline s line).1.good = false := by
      cases g' : (getline s line).1.good with
      | false => rfl
      | true =>
        have hr' := (List.cons.inj e).2
        rw [g', if_pos rfl] at hr'
        exact absurd hr' (pieces_ne _)
    refine CustomLoop.step s line .badCluster (by rw [hl]; exact h3) (by rw [hl']; exact h17) ?_
    rw [getline_bad _ _ g']
    refine .badCluster _ _ ?_ ?_
    · intro q; simp only [] at q; rw [hl'] at q; rw [q] at h17; simp at h17
    · simp only []; rw [hl', h17]; decide
  | q :: ps, p, s, line, hp, hpp, h => by
    obtain ⟨_, _, h3, h17⟩ := hp q List.mem_cons_self
    have hl : line = q.1 := (List.cons.inj h).1
    have hr := (List.cons.inj h).2
    have g : s.good = true := by
      cases g : s.good with
      | true => rfl
      | false => rw [g] at hr; simp at hr
    rw [g, if_pos rfl] at hr
    have e := getline_seen s line g
    rw [hr] at e
    have hl' : (getline s line).2 = q.2 := (List.cons.inj e).1
    have hr' := (List.cons.inj e).2
    have g' : (getline s line).1.good = true := by
      cases g' : (getline s line).1.good with
      | true => rfl
      | false => rw [g'] at hr'; simp at hr'
    rw [g', if_pos rfl] at hr'
    have e' := getline_seen (getline s line).1 (getline s line).2 g'
    rw [hr'] at e'
    exact CustomLoop.step s line .badCluster (by rw [hl]; exact h3) (by rw [hl']; exact h17)
      (custom_pairs_bad ps p _ _ (fun x hx => hp x (List.mem_cons_of_mem _ hx)) hpp e')

/-- **C62 fails without a final line break.** The same file without the line break at its end is rejected: the fit line of the last cluster is taken for a cluster line. -/
theorem custom_rejected (ps : List (List Char × List Char)) (p : List Char × List Char) (h : ∀ q ∈ ps, Pair q) (hp : Pair p) (r : Custom) :
    CustomFile (text (pairs ps ++ [p.1]) ++ p.2) r ↔ r = .badCluster := by
  have hpc : pieces (text (pairs ps ++ [p.1]) ++ p.2) = pairs ps ++ [p.1, p.2] := by
    rw [pieces_text _ _ (by
      intro l hl
      rcases List.mem_append.mp hl with hl | hl
      · exact pairs_nl ps h l hl
      · rw [List.mem_singleton.mp hl]; exact hp.1), pieces_last _ hp.2.1]
    simp
  have d : CustomFile (text (pairs ps ++ [p.1]) ++ p.2) .badCluster := custom_pairs_bad ps p _ _ h hp (by rw [start_seen, hpc])
  exact ⟨fun q => (custom_unique d r q).symm, fun q => q ▸ d⟩

/-! ## Examples -/

example : Content "0 1 0 3.0 0 1.0 2.0".toList ∧ Content "0 2 0 5.0 0 1.0 2.0".toList ∧ ('\n' ∉ "0 1 0 4.5".toList ∧ ¬ Blank "0 1 0 4.5".toList) := by
  unfold Content; decide +kernel

example (a b : List (List Char)) : Reactions "0 1 0 3 0 1 2\n0 2 0 5 0 1 2\nReactions\n0 1 0 4\n".toList a b ↔
    a = ["0 1 0 3 0 1 2".toList, "0 2 0 5 0 1 2".toList] ∧ b = ["0 1 0 4".toList] :=
  reactions_read "0 1 0 3 0 1 2".toList ["0 2 0 5 0 1 2".toList] ["0 1 0 4".toList] (by unfold Content; decide +kernel)
    (by unfold Content; decide +kernel) (by decide +kernel) a b

example (a b : List (List Char)) : ¬ Reactions "0 1 0 3 0 1 2\n0 2 0 5 0 1 2\nReactions\n0 1 0 4".toList a b :=
  reactions_endless "0 1 0 3 0 1 2".toList ["0 2 0 5 0 1 2".toList] [] "0 1 0 4".toList (by unfold Content; decide +kernel)
    (by unfold Content; decide +kernel) (by decide +kernel) a b

/-- A cluster and a fit of a custom flux. -/
def exPair : List Char × List Char := ("He 1 1.0".toList, "0 1 2 3 4 5 6 7 8 9 10 11 12 13 14 15 16".toList)

theorem exPair_ok : Pair exPair := by unfold Pair; decide +kernel

example : CustomFile (text (pairs [exPair, exPair])) (.done [exPair, exPair]) :=
  (custom_read [exPair, exPair] (by intro p hp; simp at hp; subst hp; exact exPair_ok) _).mpr rfl

example : CustomFile (text (pairs [exPair] ++ [exPair.1]) ++ exPair.2) .badCluster :=
  (custom_rejected [exPair] exPair (by intro p hp; simp at hp; subst hp; exact exPair_ok) exPair_ok _).mpr rfl

end Xolotl.Util.LineLoop
