import Verif.Solver.Coo
import Verif.Transport.Advection
import Mathlib.Tactic.Ring
import Mathlib.Tactic.Linarith

/-!
# The layout of the Jacobian values: properties (C53)
-/

namespace Xolotl.Solver.Coo

variable {P Q : Type}

/-- The writes `W` are exactly the entries of the slots `L` when these start at index `v`. -/
def Exact (L : List (Option (Entry P Q))) (v : ℕ) (W : List (ℕ × Entry P Q)) : Prop :=
  ∀ i e, (i, e) ∈ W ↔ ∃ j, i = v + j ∧ L[j]? = some (some e)

theorem exact_nil (v : ℕ) : Exact ([] : List (Option (Entry P Q))) v [] := by intro i e; simp

theorem exact_append {L₁ L₂ : List (Option (Entry P Q))} {v : ℕ} {W₁ W₂ : List (ℕ × Entry P Q)} (h₁ : Exact L₁ v W₁) (h₂ : Exact L₂ (v + L₁.length) W₂) :
    Exact (L₁ ++ L₂) v (W₁ ++ W₂) := by
  intro i e
  rw [List.mem_append, h₁ i e, h₂ i e]
  constructor
  · rintro (⟨j, rfl, hj⟩ | ⟨j, rfl, hj⟩)
    · exact ⟨j, rfl, by rw [List.getElem?_append_left (List.getElem?_eq_some_iff.mp hj).1, hj]⟩
    · exact ⟨L₁.length + j, by omega, by rw [List.getElem?_append_right (by omega)]; simpa using hj⟩
  · rintro ⟨j, rfl, hj⟩
    by_cases h : j < L₁.length
    · left; exact ⟨j, rfl, by rwa [List.getElem?_append_left h] at hj⟩
    · right; exact ⟨j - L₁.length, by omega, by rwa [List.getElem?_append_right (by omega)] at hj⟩

theorem exact_replicate (n v : ℕ) : Exact (List.replicate n (none : Option (Entry P Q))) v [] := by
  intro i e
  constructor
  · intro h; cases h
  · rintro ⟨j, _, hj⟩
    rw [List.getElem?_replicate] at hj
    split_ifs at hj; simp at hj

/-- Slots without entries: the positions of a skipped point. -/
theorem exact_mono {L : List (Option (Entry P Q))} {v : ℕ} {W W' : List (ℕ × Entry P Q)} (h : Exact L v W) (hw : ∀ x, x ∈ W' ↔ x ∈ W) : Exact L v W' := by
  intro i e; rw [hw]; exact h i e

/-- Groups of `s` slots each. -/
theorem exact_groups {α : Type} (s : ℕ) (f : α → List (Entry P Q)) (hf : ∀ a, (f a).length = s) (v : ℕ) (l : List α) :
    Exact (l.flatMap fun a => (f a).map some) v (l.zipIdx.flatMap fun ai => (f ai.1).zipIdx.map fun ek => (v + (ai.2 * s + ek.2), ek.1)) := by
  have key : ∀ (l : List α) (j : ℕ) (e : Entry P Q), (l.flatMap fun a => (f a).map some)[j]? = some (some e) ↔ ∃ a i k, l[i]? = some a ∧ (f a)[k]? = some e ∧ j = i * s + k := by
    intro l
    induction l with
    | nil => intro j e; simp
    | cons a l ih =>
      intro j e
      rw [List.flatMap_cons]
      by_cases h : j < s
      · rw [List.getElem?_append_left (by simp [hf, h])]
        constructor
        · intro hj
          refine ⟨a, 0, j, rfl, ?_, by omega⟩
          simpa using hj
        · rintro ⟨b, i, k, hb, hk, rfl⟩
          have hks := (List.getElem?_eq_some_iff.mp hk).1
          have : i = 0 := by
            by_contra hi
            have : s ≤ i * s := Nat.le_mul_of_pos_left s (Nat.pos_of_ne_zero hi)
            omega
          subst this
          simp only [List.getElem?_cons_zero, Option.some.injEq] at hb
          subst hb
          simpa using hk
      · rw [List.getElem?_append_right (by simp [hf]; omega), ih]
        simp only [List.length_map, hf]
        constructor
        · rintro ⟨b, i, k, hb, hk, hj⟩
          exact ⟨b, i + 1, k, by simpa using hb, hk, by rw [Nat.add_mul]; omega⟩
        · rintro ⟨b, i, k, hb, hk, rfl⟩
          cases i with
          | zero =>
            have hks := (List.getElem?_eq_some_iff.mp hk).1
            rw [hf] at hks; omega
          | succ i => exact ⟨b, i, k, by simpa using hb, hk, by rw [Nat.add_mul]; omega⟩
  intro i e
  constructor
  · intro h
    simp only [List.mem_flatMap, List.mem_map] at h
    obtain ⟨⟨a, i'⟩, ha, ⟨e', k⟩, he, hx⟩ := h
    rw [List.mem_zipIdx_iff_getElem?] at ha he
    cases hx
    exact ⟨i' * s + k, rfl, (key l _ _).mpr ⟨a, i', k, ha, he, rfl⟩⟩
  · rintro ⟨j, rfl, hj⟩
    obtain ⟨a, i, k, ha, hk, rfl⟩ := (key l _ _).mp hj
    simp only [List.mem_flatMap, List.mem_map]
    exact ⟨(a, i), List.mem_zipIdx_iff_getElem?.mpr ha, (e, k), List.mem_zipIdx_iff_getElem?.mpr hk, rfl⟩

theorem zipIdx_map_comm {α β : Type} (g : α → β) (l : List α) : (l.map g).zipIdx = l.zipIdx.map fun ak => (g ak.1, ak.2) := by
  rw [List.zipIdx_map]; rfl

theorem exact_block (S : Setup P Q) (s v : ℕ) (p : P) (hs : (S.cols p).length = s) (ids : List ℕ) : Exact (blockSlots S p ids) v (blockWrites S s v p ids) := by
  have := exact_groups (P := P) (Q := Q) s (fun c => (S.cols p).map fun q => ((p, c), (q, c))) (by simp [hs]) v ids
  unfold blockSlots blockWrites
  simpa [zipIdx_map_comm, List.map_map, Function.comp_def] using this

theorem exact_temp (S : Setup P Q) (s : ℕ) (hs : ∀ p, (S.cols p).length = s) : Exact (S.points.flatMap (tempSlots S)) 0 (tempWrites S s) := by
  have := exact_groups (P := P) (Q := Q) s (fun p => (S.cols p).map fun q => ((p, S.dof), (q, S.dof))) (by simp [hs]) 0 S.points
  unfold tempSlots tempWrites
  simpa [zipIdx_map_comm, List.map_map, Function.comp_def] using this

theorem exact_advIds (v : ℕ) (p : P) (h : Handler P Q) (hr : h.reg p = h.real p) :
    Exact (h.ids.flatMap fun c => [some ((p, c), ((h.reg p).1, c)), some ((p, c), ((h.reg p).2, c))]) v (advWrites v p h) := by
  have := exact_groups (P := P) (Q := Q) 2 (fun c => [((p, c), ((h.reg p).1, c)), ((p, c), ((h.reg p).2, c))]) (by simp) v h.ids
  unfold advWrites
  rw [← hr]
  simpa [List.zipIdx_cons] using this

theorem exact_nw (S : Setup P Q) (v : ℕ) (p : P) : Exact (nwSlots S p) v (nwWrites S v p) := by
  have := exact_groups (P := P) (Q := Q) 1 (fun e : ℕ × ℕ => [((p, e.1), (S.self p, e.2))]) (by simp) v S.nw
  unfold nwSlots nwWrites
  simpa [List.zipIdx_cons, ← List.map_eq_flatMap] using this

theorem blockSlots_length (S : Setup P Q) (s : ℕ) (p : P) (hs : (S.cols p).length = s) (ids : List ℕ) : (blockSlots S p ids).length = s * ids.length := by
  unfold blockSlots; induction ids with
  | nil => simp
  | cons c l ih => rw [List.flatMap_cons, List.length_append, ih]; simp [hs, Nat.mul_add]; omega

theorem blocks_exact (S : Setup P Q) (s : ℕ) (p : P) (hs : (S.cols p).length = s) (l : List (List ℕ)) : ∀ v,
    Exact (l.flatMap (blockSlots S p)) v (blocksW S s p v l).1 ∧ (blocksW S s p v l).2 = v + (l.flatMap (blockSlots S p)).length ∧
      (l.flatMap (blockSlots S p)).length = (l.map fun ids => s * ids.length).sum := by
  induction l with
  | nil => intro v; exact ⟨exact_nil v, rfl, rfl⟩
  | cons ids l ih =>
    intro v
    have hl := blockSlots_length S s p hs ids
    obtain ⟨h1, h2, h3⟩ := ih (v + s * ids.length)
    refine ⟨?_, ?_, ?_⟩
    · rw [List.flatMap_cons]
      refine exact_append (exact_block S s v p hs ids) ?_
      rw [hl]; exact h1
    · rw [List.flatMap_cons, List.length_append, hl]
      simp only [blocksW]; rw [h2]; omega
    · rw [List.flatMap_cons, List.length_append, hl, List.map_cons, List.sum_cons, h3]

theorem pair_length {α β : Type} (f g : α → β) (l : List α) : (l.flatMap fun c => [f c, g c]).length = 2 * l.length := by
  induction l with
  | nil => rfl
  | cons a l ih => rw [List.flatMap_cons, List.length_append, ih, List.length_cons]; simp; omega

theorem advSlots_length (S : Setup P Q) (p : P) (h : Handler P Q) (hn : h.ids.length ≤ nAdvec S) :
    (advSlots S p h).length + (nAdvec S - h.ids.length) = 2 * nAdvec S := by
  unfold advSlots; rw [List.length_append, pair_length, List.length_replicate]; omega

theorem adv_exact (S : Setup P Q) (p : P) (l : List (Handler P Q)) (hl : ∀ h ∈ l, h.ids.length = nAdvec S ∧ h.reg p = h.real p) : ∀ v,
    Exact (l.flatMap (advSlots S p)) v (advW (nAdvec S) p v l).1 ∧ (advW (nAdvec S) p v l).2 = v + (l.flatMap (advSlots S p)).length := by
  induction l with
  | nil => intro v; exact ⟨exact_nil v, rfl⟩
  | cons h l ih =>
    intro v
    obtain ⟨hn, hr⟩ := hl h (by simp)
    have hlen := advSlots_length S p h (by omega)
    obtain ⟨h1, h2⟩ := ih (fun x hx => hl x (by simp [hx])) (v + 2 * nAdvec S)
    constructor
    · rw [List.flatMap_cons]
      refine exact_append ?_ ?_
      · have := exact_append (exact_advIds v p h hr) (exact_replicate (P := P) (Q := Q) (nAdvec S - h.ids.length) _)
        rw [List.append_nil] at this
        exact this
      · rw [show (advSlots S p h).length = 2 * nAdvec S by omega]; exact h1
    · rw [List.flatMap_cons, List.length_append]
      simp only [advW]; rw [h2]; omega

theorem point_row (S : Setup P Q) (p : P) (e : Entry P Q) (h : some e ∈ pointSlots S p) : e.1.1 = p := by
  unfold pointSlots at h
  simp only [List.mem_append, List.mem_flatMap] at h
  rcases h with ⟨ids, _, h⟩ | ⟨a, _, h⟩ | h
  · unfold blockSlots at h
    simp only [List.mem_flatMap, List.mem_map] at h
    obtain ⟨c, _, q, _, hq⟩ := h
    cases hq; rfl
  · unfold advSlots at h
    simp only [List.mem_append, List.mem_flatMap, List.mem_cons, List.not_mem_nil, or_false] at h
    rcases h with ⟨c, _, h | h⟩ | h
    · cases h; rfl
    · cases h; rfl
    · exact absurd (List.eq_of_mem_replicate h) (by simp)
  · unfold nwSlots at h
    simp only [List.mem_map] at h
    obtain ⟨x, _, hx⟩ := h
    cases hx; rfl

theorem pointSlots_length (S : Setup P Q) (s : ℕ) (p : P) (hs : (S.cols p).length = s) :
    (pointSlots S p).length + (S.adv.map fun h => nAdvec S - h.ids.length).sum = advance S s := by
  unfold pointSlots advance
  rw [List.length_append, List.length_append, (blocks_exact S s p hs S.blocks 0).2.2]
  have hle : ∀ h ∈ S.adv, h.ids.length ≤ nAdvec S := by
    have : ∀ (l : List ℕ) (a x : ℕ), (x ∈ l ∨ x ≤ a) → x ≤ l.foldl max a := by
      intro l
      induction l with
      | nil => intro a x hx; simpa using hx
      | cons b l ih =>
        intro a x hx
        refine ih _ _ ?_
        rcases hx with hx | hx
        · rcases List.mem_cons.mp hx with rfl | hx
          · right; exact le_max_right _ _
          · left; exact hx
        · right; exact le_trans hx (le_max_left _ _)
    intro h hh
    exact this _ 0 _ (Or.inl (List.mem_map.mpr ⟨h, hh, rfl⟩))
  have hadv : ∀ l : List (Handler P Q), (∀ h ∈ l, h.ids.length ≤ nAdvec S) → (l.flatMap (advSlots S p)).length + (l.map fun h => nAdvec S - h.ids.length).sum = 2 * nAdvec S * l.length := by
    intro l
    induction l with
    | nil => intro _; rfl
    | cons h l ih =>
      intro hl
      have h1 := advSlots_length S p h (hl h (by simp))
      have h2 := ih fun x hx => hl x (by simp [hx])
      rw [List.flatMap_cons, List.length_append, List.map_cons, List.sum_cons, List.length_cons, Nat.mul_add]
      omega
  have := hadv S.adv hle
  unfold nwSlots
  rw [List.length_map]
  omega

theorem points_exact (S : Setup P Q) (s : ℕ) (skip stop : P → Bool) (hs : ∀ p, (S.cols p).length = s) (hadv : ∀ p, ∀ h ∈ S.adv, h.ids.length = nAdvec S ∧ h.reg p = h.real p)
    (l : List P) (hstop : ∀ p ∈ l, stop p = true → skip p = true) : ∀ v i e,
    ((i, e) ∈ (pointsW S s skip stop v l).1 ↔ ∃ j, i = v + j ∧ (l.flatMap (pointSlots S))[j]? = some (some e) ∧ skip e.1.1 = false) ∧
      (pointsW S s skip stop v l).2 = v + (l.flatMap (pointSlots S)).length := by
  have hzero : ∀ _ : P, (S.adv.map fun h => nAdvec S - h.ids.length).sum = 0 := by
    intro p
    refine List.sum_eq_zero_iff_forall_eq_nat.mpr fun x hx => ?_
    obtain ⟨h, hh, rfl⟩ := List.mem_map.mp hx
    have := (hadv p h hh).1; omega
  induction l with
  | nil => intro v i e; simp [pointsW]
  | cons p l ih =>
    intro v i e
    have hlen := pointSlots_length S s p (hs p)
    rw [hzero p, Nat.add_zero] at hlen
    have ih' := ih fun q hq => hstop q (by simp [hq])
    have hsplit : ∀ j, ((p :: l).flatMap (pointSlots S))[j]? = some (some e) ∧ skip e.1.1 = false ↔
        ((pointSlots S p)[j]? = some (some e) ∧ skip p = false) ∨ (∃ j', j = advance S s + j' ∧ (l.flatMap (pointSlots S))[j']? = some (some e) ∧ skip e.1.1 = false) := by
      intro j
      rw [List.flatMap_cons]
      by_cases hj : j < (pointSlots S p).length
      · rw [List.getElem?_append_left hj]
        constructor
        · rintro ⟨h1, h2⟩
          left; refine ⟨h1, ?_⟩
          rwa [point_row S p e (List.mem_of_getElem? h1)] at h2
        · rintro (⟨h1, h2⟩ | ⟨j', rfl, _⟩)
          · refine ⟨h1, ?_⟩
            rwa [point_row S p e (List.mem_of_getElem? h1)]
          · omega
      · rw [List.getElem?_append_right (by omega), hlen]
        constructor
        · rintro ⟨h1, h2⟩; right; exact ⟨j - advance S s, by omega, h1, h2⟩
        · rintro (⟨h1, h2⟩ | ⟨j', rfl, h1, h2⟩)
          · exact absurd (List.getElem?_eq_some_iff.mp h1).1 hj
          · exact ⟨by simpa using h1, h2⟩
    simp only [hsplit]
    by_cases hsk : skip p = true
    · rw [pointsW, if_pos hsk]
      obtain ⟨h1, h2⟩ := ih' (v + advance S s) i e
      refine ⟨?_, by rw [h2, List.flatMap_cons, List.length_append]; omega⟩
      rw [h1]
      constructor
      · rintro ⟨j, rfl, h⟩
        exact ⟨advance S s + j, by omega, Or.inr ⟨j, rfl, h⟩⟩
      · rintro ⟨j, rfl, ⟨_, h⟩ | ⟨j', rfl, h⟩⟩
        · rw [hsk] at h; cases h
        · exact ⟨j', by omega, h⟩
    · have hst : ¬stop p = true := fun h => hsk (hstop p (by simp) h)
      rw [pointsW, if_neg hsk, if_neg hst]
      dsimp only
      obtain ⟨a1, a2, a3⟩ := blocks_exact S s p (hs p) S.blocks v
      obtain ⟨b1, b2⟩ := adv_exact S p S.adv (hadv p) (blocksW S s p v S.blocks).2
      have hpt : Exact (pointSlots S p) v ((blocksW S s p v S.blocks).1 ++ ((advW (nAdvec S) p (blocksW S s p v S.blocks).2 S.adv).1 ++ nwWrites S (advW (nAdvec S) p (blocksW S s p v S.blocks).2 S.adv).2 p)) := by
        refine exact_append a1 ?_
        rw [← a2]
        refine exact_append b1 ?_
        rw [← b2]
        exact exact_nw S _ p
      have hv : (advW (nAdvec S) p (blocksW S s p v S.blocks).2 S.adv).2 + S.nw.length = v + advance S s := by
        rw [← hlen, b2, a2]; unfold pointSlots nwSlots; simp; omega
      rw [hv]
      obtain ⟨h1, h2⟩ := ih' (v + advance S s) i e
      refine ⟨?_, by rw [h2, List.flatMap_cons, List.length_append]; omega⟩
      rw [List.mem_append, hpt i e, h1]
      constructor
      · rintro (⟨j, rfl, h⟩ | ⟨j, rfl, h⟩)
        · exact ⟨j, rfl, Or.inl ⟨h, by simpa using hsk⟩⟩
        · exact ⟨advance S s + j, by omega, Or.inr ⟨j, rfl, h⟩⟩
      · rintro ⟨j, rfl, ⟨h, _⟩ | ⟨j', rfl, h⟩⟩
        · left; exact ⟨j, rfl, h⟩
        · right; exact ⟨j', by omega, h⟩

theorem tempSlots_length (S : Setup P Q) (s : ℕ) (hs : ∀ p, (S.cols p).length = s) (l : List P) : (l.flatMap (tempSlots S)).length = l.length * s := by
  induction l with
  | nil => simp
  | cons p l ih => rw [List.flatMap_cons, List.length_append, ih, List.length_cons, Nat.add_mul]; simp [tempSlots, hs]; omega

/-- Every value is written at the index announced for its row and column, and every announced entry, except those of skipped points, gets its value; the indices of missing clusters get none.  Needed: the loop over the points never stops at a point without advancing the index, all advection handlers have equally many clusters and announce the columns they write.  Missing from the full claim: `stop_misplaces`, `padding_overflow` and `ygb_wrong_column` show what happens without these. -/
theorem placed_partial (S : Setup P Q) (s : ℕ) (skip stop : P → Bool) (hs : ∀ p, (S.cols p).length = s) (hstop : ∀ p ∈ S.points, stop p = true → skip p = true)
    (hadv : ∀ p, ∀ h ∈ S.adv, h.ids.length = nAdvec S ∧ h.reg p = h.real p) (i : ℕ) (e : Entry P Q) :
    (i, e) ∈ writes S s skip stop ↔ (slots S)[i]? = some (some e) ∧ (i < S.points.length * s ∨ skip e.1.1 = false) := by
  have hlen := tempSlots_length S s hs S.points
  unfold writes slots
  rw [List.mem_append, exact_temp S s hs i e, (points_exact S s skip stop hs hadv S.points hstop _ i e).1]
  by_cases hi : i < S.points.length * s
  · rw [List.getElem?_append_left (by omega)]
    constructor
    · rintro (⟨j, rfl, h⟩ | ⟨j, rfl, h⟩)
      · exact ⟨by simpa using h, Or.inl hi⟩
      · omega
    · rintro ⟨h, _⟩; left; exact ⟨i, by omega, h⟩
  · rw [List.getElem?_append_right (by omega), hlen]
    constructor
    · rintro (⟨j, rfl, h⟩ | ⟨j, rfl, h1, h2⟩)
      · have := (List.getElem?_eq_some_iff.mp h).1; omega
      · exact ⟨by simpa using h1, Or.inr h2⟩
    · rintro ⟨h1, h2⟩
      right; exact ⟨i - S.points.length * s, by omega, h1, by tauto⟩

/-- The index ends at the number of announced entries. -/
theorem placed_end_partial (S : Setup P Q) (s : ℕ) (skip stop : P → Bool) (hs : ∀ p, (S.cols p).length = s) (hstop : ∀ p ∈ S.points, stop p = true → skip p = true)
    (hadv : ∀ p, ∀ h ∈ S.adv, h.ids.length = nAdvec S ∧ h.reg p = h.real p) (e : Entry P Q) : finalIndex S s skip stop = (slots S).length := by
  unfold finalIndex slots
  rw [(points_exact S s skip stop hs hadv S.points hstop _ 0 e).2, List.length_append, tempSlots_length S s hs]

/-! ### One dimension -/

/-- One dimension: the claim holds whenever the first point of the grid is skipped as a boundary, or not on this process. -/
theorem placed1_partial (dof xs xm nX left right : ℕ) (gb soret dif : List ℕ) (adv : List (Handler ℕ ℤ)) (nw : List (ℕ × ℕ)) (h0 : 1 ≤ left ∨ 1 ≤ xs)
    (hadv : ∀ p, ∀ h ∈ adv, h.ids.length = nAdvec (setup1 dof xs xm soret dif adv nw) ∧ h.reg p = h.real p) (i : ℕ) (e : Entry ℕ ℤ) :
    (i, e) ∈ writes (setup1 dof xs xm soret dif adv nw) 3 (fun x => !free1 nX left right gb x) (fun x => decide (x = 0)) ↔
      (slots (setup1 dof xs xm soret dif adv nw))[i]? = some (some e) ∧ (i < xm * 3 ∨ free1 nX left right gb e.1.1 = true) := by
  have := placed_partial (setup1 dof xs xm soret dif adv nw) 3 (fun x => !free1 nX left right gb x) (fun x => decide (x = 0)) (fun p => rfl) (by
    intro p hp hz
    simp only [setup1, List.mem_range'_1] at hp
    simp only [decide_eq_true_eq] at hz
    subst hz
    simp only [Bool.not_eq_true', free1, Bool.and_eq_false_iff, decide_eq_false_iff_not]
    left; left; omega) hadv i e
  rw [this]
  simp [setup1]

example : (slots (setup1 9 0 2 [] [4] [] [(4, 4), (4, 5)]))[12]? = some (some ((1, 4), ((0 : ℤ), 4))) ∧
    (12, ((1, 4), ((0 : ℤ), 4))) ∈ writes (setup1 9 0 2 [] [4] [] [(4, 4), (4, 5)]) 3 (fun x => !free1 2 1 0 [] x) (fun x => decide (x = 0)) := by decide +kernel

/-- Without a surface boundary the first point of the grid is passed over without advancing the index: the values of the second point are stored in the row of the first. -/
theorem stop_misplaces (dof xm nX right c : ℕ) (dif : List ℕ) (nw : List (ℕ × ℕ)) (hxm : 2 ≤ xm) (hin : 1 + right ≤ nX - 1) :
    (xm * 3, ((1, c), ((1 : ℤ), c))) ∈ writes (setup1 dof 0 xm [] (c :: dif) [] nw) 3 (fun x => !free1 nX 0 right [] x) (fun x => decide (x = 0)) ∧
      (slots (setup1 dof 0 xm [] (c :: dif) [] nw))[xm * 3]? = some (some ((0, c), ((0 : ℤ), c))) := by
  obtain ⟨m, rfl⟩ : ∃ m, xm = m + 2 := ⟨xm - 2, by omega⟩
  have hpts : List.range' 0 (m + 2) = 0 :: 1 :: List.range' 2 m := by simp [List.range'_succ]
  have f0 : free1 nX 0 right [] 0 = true := by simp [free1]
  have f1 : free1 nX 0 right [] 1 = true := by simp [free1]; omega
  constructor
  · unfold writes
    rw [List.mem_append]
    right
    simp only [setup1, hpts, List.length_cons, List.length_range']
    rw [pointsW, if_neg (by simp [f0]), if_pos (by simp), pointsW, if_neg (by simp [f1]), if_neg (by simp)]
    simp only [List.mem_append]
    left; left
    simp only [blocksW, List.mem_append]
    right; left
    simp [blockWrites, cols1, List.zipIdx_cons]
  · unfold slots
    rw [List.getElem?_append_right (by rw [tempSlots_length _ 3 (fun p => rfl)]; simp [setup1]), tempSlots_length _ 3 (fun p => rfl)]
    simp [setup1, hpts, pointSlots, blockSlots, cols1]

/-- One dimension: the entries announced for the row of the temperature, or of a cluster with diffusion and no other transport, at a local point `i` are those of the columns `i - 1`, `i` and `i + 1` of the same unknown. -/
theorem stencil1 (dof xs xm : ℕ) (dif : List ℕ) (i c : ℕ) (j : ℤ) :
    (some ((i, c), (j, c)) ∈ slots (setup1 dof xs xm [] dif [] [])) ↔ (xs ≤ i ∧ i < xs + xm) ∧ (c = dof ∨ c ∈ dif) ∧ (j = i - 1 ∨ j = i ∨ j = i + 1) := by
  simp only [slots, setup1, tempSlots, pointSlots, blockSlots, nwSlots, cols1, List.mem_append, List.mem_flatMap, List.mem_range'_1, List.mem_cons, List.not_mem_nil, or_false,
    List.map_cons, List.map_nil, List.flatMap_nil, List.append_nil, List.flatMap_cons, List.nil_append, Option.some.injEq, Prod.mk.injEq]
  constructor
  · rintro (⟨a, h, h1⟩ | ⟨a, h, b, hb, h1⟩)
    · rcases h1 with h1 | h1 | h1 <;> obtain ⟨⟨rfl, rfl⟩, rfl, -⟩ := h1 <;> exact ⟨h, Or.inl rfl, by tauto⟩
    · rcases h1 with h1 | h1 | h1 <;> obtain ⟨⟨rfl, rfl⟩, rfl, -⟩ := h1 <;> exact ⟨h, Or.inr hb, by tauto⟩
  · rintro ⟨h, (rfl | hc), h1⟩
    · left; exact ⟨i, h, by tauto⟩
    · right; exact ⟨i, h, c, hc, by tauto⟩

example : some ((4, 7), ((3 : ℤ), 7)) ∈ slots (setup1 9 2 5 [] [7] [] []) := (stencil1 9 2 5 [7] 4 7 3).2 (by decide)

/-- With a free surface every local point inside has its temperature equation evaluated once, the first point included; with a Robin condition also the last one if it is a boundary. -/
theorem temp_once_partial (nX left right : ℕ) (robin : Bool) (gb : List ℕ) (xi : ℕ) (hl : 1 ≤ left) (hlr : left + right ≤ nX - 1) (hr : robin = true → 1 ≤ right) (hxi : xi < nX) :
    tempTimes nX robin (free1 nX left right gb) xi ≤ 1 ∧ (tempTimes nX robin (free1 nX left right gb) xi = 1 ↔ xi = 0 ∨ (xi = nX - 1 ∧ robin = true) ∨ (left ≤ xi ∧ xi + right ≤ nX - 1 ∧ xi ∉ gb)) := by
  unfold tempTimes free1
  by_cases h1 : xi = 0 ∨ (xi = nX - 1 ∧ robin = true)
  · have hf : (decide (left ≤ xi) && decide (xi ≤ nX - 1 - right) && !gb.contains xi) = false := by
      simp only [Bool.and_eq_false_iff, decide_eq_false_iff_not]
      rcases h1 with h1 | ⟨h1, h2⟩
      · left; left; omega
      · left; right; have := hr h2; omega
    rw [if_pos h1, hf]; simp; tauto
  · rw [if_neg h1]
    have h2 : (decide (left ≤ xi) && decide (xi ≤ nX - 1 - right) && !gb.contains xi) = true ↔ (left ≤ xi ∧ xi + right ≤ nX - 1 ∧ xi ∉ gb) := by
      simp only [Bool.and_eq_true, decide_eq_true_eq, Bool.not_eq_true', List.contains_eq_mem, decide_eq_false_iff_not, and_assoc]
      constructor <;> rintro ⟨a, b, c⟩ <;> exact ⟨a, by omega, c⟩
    by_cases h3 : left ≤ xi ∧ xi + right ≤ nX - 1 ∧ xi ∉ gb
    · rw [if_pos (h2.mpr h3)]; simp [h3]
    · rw [if_neg (fun h => h3 (h2.mp h))]; simp; push Not at h1 h3 ⊢; simp only [ne_eq, Bool.not_eq_true] at h1 ⊢; tauto

/-- Without a surface boundary the first point's equation is evaluated twice, and with a Robin condition but no bulk boundary the last one's: both the rate and its derivatives are doubled. -/
theorem temp_twice (nX right : ℕ) (robin : Bool) : tempTimes nX robin (free1 nX 0 right []) 0 = 2 := by simp [tempTimes, free1]

theorem temp_twice_robin (nX left : ℕ) (hl : left ≤ nX - 1) : tempTimes nX true (free1 nX left 0 []) (nX - 1) = 2 := by
  simp [tempTimes, free1, hl]

/-! ### Handlers with different numbers of clusters -/

theorem pointsW_index (S : Setup P Q) (s : ℕ) (skip stop : P → Bool) (l : List P) (hstop : ∀ p ∈ l, stop p = true → skip p = true) : ∀ v,
    (pointsW S s skip stop v l).2 = v + l.length * advance S s := by
  have hb : ∀ p (l : List (List ℕ)) v, (blocksW S s p v l).2 = v + (l.map fun ids => s * ids.length).sum := by
    intro p l
    induction l with
    | nil => intro v; rfl
    | cons a l ih => intro v; simp only [blocksW]; rw [ih, List.map_cons, List.sum_cons]; omega
  have ha : ∀ n p (l : List (Handler P Q)) v, (advW n p v l).2 = v + 2 * n * l.length := by
    intro n p l
    induction l with
    | nil => intro v; rfl
    | cons a l ih => intro v; simp only [advW]; rw [ih, List.length_cons, Nat.mul_add]; omega
  induction l with
  | nil => intro v; simp [pointsW]
  | cons p l ih =>
    intro v
    have ih' := ih fun q hq => hstop q (by simp [hq])
    rw [List.length_cons, Nat.add_mul, Nat.one_mul]
    by_cases hsk : skip p = true
    · rw [pointsW, if_pos hsk, ih']; omega
    · rw [pointsW, if_neg hsk, if_neg (fun h => hsk (hstop p (by simp) h))]
      dsimp only
      rw [ih', ha, hb]; unfold advance; omega

/-- In general the index ends beyond the announced entries: at every point by the number of clusters the handlers are short of the largest one, because one void entry is announced for two indices. -/
theorem padding_overflow (S : Setup P Q) (s : ℕ) (skip stop : P → Bool) (hs : ∀ p, (S.cols p).length = s) (hstop : ∀ p ∈ S.points, stop p = true → skip p = true) :
    finalIndex S s skip stop = (slots S).length + S.points.length * (S.adv.map fun h => nAdvec S - h.ids.length).sum := by
  unfold finalIndex slots
  rw [pointsW_index S s skip stop S.points hstop, List.length_append, tempSlots_length S s hs]
  have : ∀ l : List P, (l.flatMap (pointSlots S)).length + l.length * (S.adv.map fun h => nAdvec S - h.ids.length).sum = l.length * advance S s := by
    intro l
    induction l with
    | nil => simp
    | cons p l ih =>
      have := pointSlots_length S s p (hs p)
      rw [List.flatMap_cons, List.length_append, List.length_cons, Nat.add_mul, Nat.add_mul]; omega
  have := this S.points
  omega

/-- The last network value of the last point, when it is not skipped, is written just before the final index: beyond the array, which has one place more than entries were announced. -/
theorem padding_out_of_bounds (S : Setup P Q) (s : ℕ) (skip stop : P → Bool) (hs : ∀ p, (S.cols p).length = s) (hstop : ∀ p ∈ S.points, stop p = true → skip p = true)
    (ps : List P) (p : P) (hp : S.points = ps ++ [p]) (hk : skip p = false) (hnw : S.nw ≠ []) (hd : 2 ≤ S.points.length * (S.adv.map fun h => nAdvec S - h.ids.length).sum) :
    ∃ i e, (i, e) ∈ writes S s skip stop ∧ (slots S).length + 1 ≤ i := by
  have hsplit : ∀ (l : List P) v, (∀ q ∈ l ++ [p], stop q = true → skip q = true) → ∃ e, ((pointsW S s skip stop v (l ++ [p])).2 - 1, e) ∈ (pointsW S s skip stop v (l ++ [p])).1 := by
    intro l
    induction l with
    | nil =>
      intro v hst
      have : ¬stop p = true := fun h => by have := hst p (by simp) h; rw [hk] at this; cases this
      rw [List.nil_append, pointsW, if_neg (by simp [hk]), if_neg this]
      simp only [pointsW, List.mem_append]
      have hpos := List.length_pos_iff.mpr hnw
      refine ⟨((p, (S.nw[S.nw.length - 1]'(by omega)).1), (S.self p, (S.nw[S.nw.length - 1]'(by omega)).2)), Or.inl (Or.inr (Or.inr ?_))⟩
      · unfold nwWrites
        rw [List.mem_map]
        refine ⟨(S.nw[S.nw.length - 1]'(by omega), S.nw.length - 1), ?_, ?_⟩
        · rw [List.mem_zipIdx_iff_getElem?]; simp
        · simp; omega
    | cons q l ih =>
      intro v hst
      rw [List.cons_append, pointsW]
      split_ifs with h1 h2
      · exact ih _ fun x hx => hst x (by simp at hx ⊢; tauto)
      · exact absurd (hst q (by simp) h2) h1
      · obtain ⟨e, he⟩ := ih ((advW (nAdvec S) q (blocksW S s q v S.blocks).2 S.adv).2 + S.nw.length) fun x hx => hst x (by simp at hx ⊢; tauto)
        exact ⟨e, by simp only [List.mem_append]; right; exact he⟩
  obtain ⟨e, he⟩ := hsplit ps (S.points.length * s) (hp ▸ hstop)
  rw [← hp] at he
  have hfin := padding_overflow S s skip stop hs hstop
  unfold finalIndex at hfin
  refine ⟨_, e, List.mem_append.mpr (Or.inr he), ?_⟩
  omega

/-- Such a case: a grain boundary with seven advecting clusters beside the handler that does nothing, as when the advection towards the surface is off, on a single point. -/
example : let S : Setup ℕ ℤ := setup1 20 3 1 [] [] [⟨[], fun i => (i, i + 1), fun i => (i, i + 1)⟩, ⟨[1, 2, 3, 4, 5, 6, 7], fun i => (i, i + 1), fun i => (i, i + 1)⟩] [(0, 0)]
    ∃ i e, (i, e) ∈ writes S 3 (fun _ => false) (fun _ => false) ∧ (slots S).length + 1 ≤ i := by
  intro S
  exact padding_out_of_bounds S 3 _ _ (fun p => rfl) (by simp) [] 3 rfl rfl (by simp [S, setup1]) (by decide)

/-! ### Grain boundaries across the second dimension -/

/-- The columns of the two derivatives at row `j` follow from the position of the point, but the announcement uses position zero: above a boundary (`loc` beyond the tolerance from zero) the column below is announced, and the value is the derivative for the column above. -/
theorem ygb_wrong_column {K : Type*} [Field K] [LinearOrder K] [IsStrictOrderedRing K] (loc hy : K) (j : ℕ) (hloc : 1 / 1000 ≤ loc) (hj : loc + 1 / 1000 ≤ j * hy) :
    advCols (decide (Transport.Adv.onSink loc 0)) (Transport.Adv.stencil loc 0) j = ((j : ℤ), (j : ℤ) - 1) ∧
      advCols (decide (Transport.Adv.onSink loc (j * hy))) (Transport.Adv.stencil loc (j * hy)) j = ((j : ℤ), (j : ℤ) + 1) := by
  have hp : (0 : K) < 1 / 1000 := by norm_num
  have n0 : ¬Transport.Adv.onSink loc 0 := by
    unfold Transport.Adv.onSink; rw [sub_zero, abs_of_pos (by linarith)]; linarith
  have n1 : ¬Transport.Adv.onSink loc (j * hy) := by
    unfold Transport.Adv.onSink; rw [abs_of_neg (by linarith)]; linarith
  unfold advCols Transport.Adv.stencil
  simp only [n0, n1, decide_false, if_false, Bool.false_eq_true]
  rw [if_neg (by linarith : ¬(0 : K) > loc), if_pos (by linarith : (0 : K) < loc), if_pos (by linarith : (j * hy : K) > loc), if_neg (by linarith : ¬(j * hy : K) < loc)]
  refine ⟨?_, ?_⟩
  · congr 1
  · congr 1

/-- On the boundary itself the values are the derivatives for the columns below and above, announced as the point itself and the column below. -/
theorem ygb_wrong_on_sink {K : Type*} [Field K] [LinearOrder K] [IsStrictOrderedRing K] (loc hy : K) (j : ℕ) (hloc : 1 / 1000 ≤ loc) (hj : j * hy = loc) :
    advCols (decide (Transport.Adv.onSink loc 0)) (Transport.Adv.stencil loc 0) j = ((j : ℤ), (j : ℤ) - 1) ∧
      advCols (decide (Transport.Adv.onSink loc (j * hy))) (Transport.Adv.stencil loc (j * hy)) j = ((j : ℤ) - 1, (j : ℤ) + 1) := by
  have hp : (0 : K) < 1 / 1000 := by norm_num
  have n0 : ¬Transport.Adv.onSink loc 0 := by
    unfold Transport.Adv.onSink; rw [sub_zero, abs_of_pos (by linarith)]; linarith
  have n1 : Transport.Adv.onSink loc (j * hy) := by
    unfold Transport.Adv.onSink; rw [hj, sub_self, abs_zero]; exact hp
  unfold advCols Transport.Adv.stencil
  simp only [n0, n1, decide_false, decide_true, if_false, if_true, Bool.false_eq_true]
  rw [if_neg (by linarith : ¬(0 : K) > loc), if_pos (by linarith : (0 : K) < loc)]
  exact ⟨rfl, trivial⟩

/-- The announced columns are right for the side of the boundary that contains position zero. -/
theorem ygb_right_column {K : Type*} [Field K] [LinearOrder K] [IsStrictOrderedRing K] (loc hy : K) (j : ℕ) (hloc : 1 / 1000 ≤ loc) (hj : j * hy + 1 / 1000 ≤ loc) :
    advCols (decide (Transport.Adv.onSink loc 0)) (Transport.Adv.stencil loc 0) j = advCols (decide (Transport.Adv.onSink loc (j * hy))) (Transport.Adv.stencil loc (j * hy)) j := by
  have hp : (0 : K) < 1 / 1000 := by norm_num
  have n0 : ¬Transport.Adv.onSink loc 0 := by
    unfold Transport.Adv.onSink; rw [sub_zero, abs_of_pos (by linarith)]; linarith
  have n1 : ¬Transport.Adv.onSink loc (j * hy) := by
    unfold Transport.Adv.onSink; rw [abs_of_pos (by linarith)]; linarith
  unfold advCols Transport.Adv.stencil
  simp only [n0, n1, decide_false, if_false, Bool.false_eq_true]
  rw [if_neg (by linarith : ¬(0 : K) > loc), if_pos (by linarith : (0 : K) < loc), if_neg (by linarith : ¬(j * hy : K) > loc), if_pos (by linarith : (j * hy : K) < loc)]

example : (1 / 1000 : ℚ) ≤ 5 / 2 ∧ (5 / 2 : ℚ) + 1 / 1000 ≤ ((4 : ℕ) : ℚ) * 1 ∧ ((2 : ℕ) : ℚ) * 1 + 1 / 1000 ≤ 5 / 2 := by norm_num

end Xolotl.Solver.Coo
