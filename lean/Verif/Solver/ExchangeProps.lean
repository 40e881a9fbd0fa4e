import Verif.Solver.Exchange
import Verif.Network.SubInstance
import Verif.Flux.ProfileProps
import Mathlib.Tactic.Linarith
import Mathlib.Tactic.NormNum

/-!
# C89: the state handed out and put back through the interface
-/

set_option linter.unusedSectionVars false

namespace Xolotl.Solver.Exchange

open Xolotl.Flux

variable {K : Type} [Field K] [LinearOrder K] [IsStrictOrderedRing K]

/-! ### One point -/

/-- The pairs handed out for a point: the indices of the network and of the temperature whose values are above the threshold, each with its value. -/
theorem pairs_mem (d : Dim) (dof : ℕ) (u : ℕ → K) (l : ℕ) (v : K) :
    (l, v) ∈ pairs d dof u ↔ l ≤ dof ∧ v = u l ∧ (d = .zero ∨ 1 / 10 ^ 16 < |u l|) := by
  unfold pairs
  rw [List.mem_map]
  constructor
  · rintro ⟨a, ha, e⟩
    rw [List.mem_filter, List.mem_range] at ha
    cases e
    refine ⟨by omega, rfl, ?_⟩
    cases d with
    | zero => exact Or.inl rfl
    | one => exact Or.inr (by simpa [kept, tiny] using ha.2)
    | two => exact Or.inr (by simpa [kept, tiny] using ha.2)
    | three => exact Or.inr (by simpa [kept, tiny] using ha.2)
  · rintro ⟨h1, h2, h3⟩
    refine ⟨l, ?_, by rw [h2]⟩
    rw [List.mem_filter, List.mem_range]
    refine ⟨by omega, ?_⟩
    cases d with
    | zero => rfl
    | one => rcases h3 with h | h <;> [cases h; simpa [kept, tiny] using h]
    | two => rcases h3 with h | h <;> [cases h; simpa [kept, tiny] using h]
    | three => rcases h3 with h | h <;> [cases h; simpa [kept, tiny] using h]

/-- They come in increasing order of the index, none twice. -/
theorem pairs_sorted (d : Dim) (dof : ℕ) (u : ℕ → K) : (pairs d dof u).Pairwise fun a b => a.1 < b.1 := by
  unfold pairs
  rw [List.pairwise_map]
  exact List.Pairwise.filter _ List.pairwise_lt_range

theorem kept_iff (d : Dim) (v : K) : kept d v = true ↔ d = .zero ∨ 1 / 10 ^ 16 < |v| := by
  cases d <;> simp [kept, tiny]

theorem write_map (dof : ℕ) (u : ℕ → K) (ls : List ℕ) (h : ∀ l ∈ ls, l ≤ dof) : ∀ t : ℕ → K,
    write dof t (ls.map fun l => (l, u l)) = some fun l => if l ∈ ls then u l else t l := by
  induction ls with
  | nil => intro t; simp [write]
  | cons a ls ih =>
    intro t
    have := ih (fun l hl => h l (by simp [hl])) (Function.update t a (u a))
    unfold write at this ⊢
    rw [List.map_cons, List.foldlM_cons]
    simp only [h a (by simp), if_true]
    refine this.trans ?_
    congr 1
    funext l
    by_cases e : l = a
    · subst e; simp
    · simp [e]

/-- The pairs of a point written to a point. -/
theorem write_pairs (d : Dim) (dof : ℕ) (u t : ℕ → K) :
    write dof t (pairs d dof u) = some fun l => if l ≤ dof ∧ kept d (u l) = true then u l else t l := by
  unfold pairs
  rw [write_map]
  · congr 1
    funext l
    simp only [List.mem_filter, List.mem_range, Nat.lt_succ_iff]
  · intro l hl
    rw [List.mem_filter, List.mem_range] at hl
    omega

/-- Writing is defined exactly when all indices are those of the point. -/
theorem write_defined (dof : ℕ) (ps : List (ℕ × K)) : ∀ u : ℕ → K, (write dof u ps).isSome ↔ ∀ p ∈ ps, p.1 ≤ dof := by
  induction ps with
  | nil => intro u; simp [write]
  | cons a ps ih =>
    intro u
    unfold write at ih ⊢
    rw [List.foldlM_cons]
    by_cases e : a.1 ≤ dof
    · simp only [e, if_true]
      exact (ih _).trans (by simp [e])
    · simp [e]

/-! ### All points of a rank -/

theorem mem_points (d : Dim) (b : Box) (p : ℕ × ℕ × ℕ) :
    p ∈ points d b ↔ p.1 < (counts d b).1 ∧ p.2.1 < (counts d b).2.1 ∧ p.2.2 < (counts d b).2.2 := by
  obtain ⟨k, j, i⟩ := p
  simp only [points, List.mem_flatMap, List.mem_map, List.mem_range, Prod.mk.injEq]
  constructor
  · rintro ⟨a, ha, b', hb, c, hc, rfl, rfl, rfl⟩; exact ⟨ha, hb, hc⟩
  · rintro ⟨h1, h2, h3⟩; exact ⟨k, h1, j, h2, i, h3, rfl, rfl, rfl⟩

/-- The points of the loops are those of the rank, and no others. -/
theorem owned_iff (d : Dim) (b : Box) (p : Place) : owned d b p ↔ ∃ q ∈ points d b, place d b q.1 q.2.1 q.2.2 = p := by
  obtain ⟨z, y, x⟩ := p
  simp only [mem_points]
  cases d with
  | zero =>
    simp only [owned, counts, place]
    exact ⟨fun h => ⟨(0, 0, 0), by simp, h.symm⟩, fun ⟨_, _, h⟩ => h.symm⟩
  | one =>
    simp only [owned, counts, place, Prod.mk.injEq]
    constructor
    · rintro ⟨h1, h2, h3, h4⟩; exact ⟨(0, 0, x - b.xs), ⟨by simp, by simp, by simp; omega⟩, h1.symm, h2.symm, by simp; omega⟩
    · rintro ⟨q, ⟨_, _, h⟩, rfl, rfl, rfl⟩; exact ⟨rfl, rfl, by omega, by omega⟩
  | two =>
    simp only [owned, counts, place, Prod.mk.injEq]
    constructor
    · rintro ⟨h1, h2, h3, h4, h5⟩
      exact ⟨(0, y - b.ys, x - b.xs), ⟨by simp, by simp; omega, by simp; omega⟩, h1.symm, by simp; omega, by simp; omega⟩
    · rintro ⟨q, ⟨_, h', h⟩, rfl, rfl, rfl⟩; exact ⟨rfl, by omega, by omega, by omega, by omega⟩
  | three =>
    simp only [owned, counts, place, Prod.mk.injEq]
    constructor
    · rintro ⟨h1, h2, h3, h4, h5, h6⟩
      exact ⟨(z - b.zs, y - b.ys, x - b.xs), ⟨by simp; omega, by simp; omega, by simp; omega⟩, by simp; omega, by simp; omega, by simp; omega⟩
    · rintro ⟨q, ⟨h'', h', h⟩, rfl, rfl, rfl⟩; exact ⟨by omega, by omega, by omega, by omega, by omega, by omega⟩

/-- Each point of the rank is visited once: no point is handed out twice. -/
theorem owned_once (d : Dim) (b : Box) (p : Place) (h : owned d b p) : (∃! q, q ∈ points d b ∧ place d b q.1 q.2.1 q.2.2 = p) ∧ (points d b).Nodup := by
  constructor
  · obtain ⟨q, hq, e⟩ := (owned_iff d b p).1 h
    refine ⟨q, ⟨hq, e⟩, ?_⟩
    rintro ⟨k, j, i⟩ ⟨hr, e'⟩
    obtain ⟨k', j', i'⟩ := q
    rw [mem_points] at hq hr
    cases d <;> simp only [counts, place, Prod.ext_iff] at hq hr e e' ⊢ <;> omega
  · unfold points
    refine List.nodup_flatMap.2 ⟨fun k _ => List.nodup_flatMap.2 ⟨fun j _ => List.nodup_range.map fun x y e => by simpa using e, ?_⟩, ?_⟩
    · refine List.nodup_range.imp fun {x y} hxy => ?_
      intro a h1 h2
      obtain ⟨_, _, rfl⟩ := List.mem_map.1 h1
      obtain ⟨_, _, e⟩ := List.mem_map.1 h2
      simp only [Prod.mk.injEq] at e
      exact hxy e.2.1.symm
    · refine List.nodup_range.imp fun {x y} hxy => ?_
      intro a h1 h2
      obtain ⟨_, _, h1⟩ := List.mem_flatMap.1 h1
      obtain ⟨_, _, h2⟩ := List.mem_flatMap.1 h2
      obtain ⟨_, _, rfl⟩ := List.mem_map.1 h1
      obtain ⟨_, _, e⟩ := List.mem_map.1 h2
      simp only [Prod.mk.injEq] at e
      exact hxy e.1.symm

/-- What is handed out for each point. -/
theorem get_at (d : Dim) (b : Box) (dof : ℕ) (s : Place → ℕ → K) (p : ℕ × ℕ × ℕ) (h : p ∈ points d b) :
    ∃ q r, (get d b dof s)[p.1]? = some q ∧ q[p.2.1]? = some r ∧ r[p.2.2]? = some (pairs d dof (s (place d b p.1 p.2.1 p.2.2))) := by
  rw [mem_points] at h
  unfold get
  refine ⟨_, _, by rw [List.getElem?_map, List.getElem?_range h.1]; rfl, by rw [List.getElem?_map, List.getElem?_range h.2.1]; rfl, ?_⟩
  rw [List.getElem?_map, List.getElem?_range h.2.2]; rfl

theorem fold_get (d : Dim) (b : Box) (dof : ℕ) (s : Place → ℕ → K) (ps : List (ℕ × ℕ × ℕ)) : ∀ t : Place → ℕ → K, (∀ p ∈ ps, p ∈ points d b) →
    ps.foldlM (writeAt d b dof (get d b dof s)) t = some fun p l =>
      if (∃ q ∈ ps, place d b q.1 q.2.1 q.2.2 = p) ∧ l ≤ dof ∧ kept d (s p l) = true then s p l else t p l := by
  classical
  induction ps with
  | nil => intro t _; simp
  | cons a ps ih =>
    intro t h
    obtain ⟨q, r, e1, e2, e3⟩ := get_at d b dof s a (h a (by simp))
    rw [List.foldlM_cons]
    have : writeAt d b dof (get d b dof s) t a = some (Function.update t (place d b a.1 a.2.1 a.2.2) fun l =>
        if l ≤ dof ∧ kept d (s (place d b a.1 a.2.1 a.2.2) l) = true then s (place d b a.1 a.2.1 a.2.2) l else t (place d b a.1 a.2.1 a.2.2) l) := by
      simp only [writeAt, e1, e2, e3, write_pairs, Option.bind_eq_bind, Option.bind_some, Option.pure_def]
    rw [this]
    simp only [Option.bind_eq_bind, Option.bind_some]
    rw [ih _ fun p hp => h p (by simp [hp])]
    congr 1
    funext p l
    by_cases hp : place d b a.1 a.2.1 a.2.2 = p
    · subst hp
      by_cases hk : l ≤ dof ∧ kept d (s (place d b a.1 a.2.1 a.2.2) l) = true
      · simp [hk]
      · rw [if_neg fun c => hk c.2, if_neg fun c => hk c.2]; simp [hk]
    · rw [Function.update_of_ne (Ne.symm hp)]
      simp [hp]

/-- **C89, what a rank puts back.** The vectors of a state `s` put into a state `t`: defined, the saved values at the points of the rank, and `t` for everything else. -/
theorem put_get (d : Dim) (b : Box) (dof : ℕ) (s t : Place → ℕ → K) : ∃ t', put d b dof (get d b dof s) t = some t' ∧
    (∀ p l, owned d b p → l ≤ dof → (d = .zero ∨ 1 / 10 ^ 16 < |s p l|) → t' p l = s p l) ∧
    ∀ p l, ¬(owned d b p ∧ l ≤ dof ∧ (d = .zero ∨ 1 / 10 ^ 16 < |s p l|)) → t' p l = t p l := by
  classical
  exact ⟨_, fold_get d b dof s _ t fun p hp => hp, fun p l h1 h2 h3 => if_pos ⟨(owned_iff d b p).1 h1, h2, (kept_iff d _).2 h3⟩,
    fun p l h => if_neg fun c => h ⟨(owned_iff d b p).2 c.1, c.2.1, (kept_iff d _).1 c.2.2⟩⟩

/-- **C89, exactness.** The saved state comes back at the points of the rank exactly when the state it is put into has the same values wherever nothing was saved. -/
theorem put_exact_iff (d : Dim) (b : Box) (dof : ℕ) (s t t' : Place → ℕ → K) (h : put d b dof (get d b dof s) t = some t') :
    (∀ p l, owned d b p → l ≤ dof → t' p l = s p l) ↔ ∀ p l, owned d b p → l ≤ dof → d ≠ .zero → |s p l| ≤ 1 / 10 ^ 16 → t p l = s p l := by
  obtain ⟨u, e, h1, h2⟩ := put_get d b dof s t
  obtain rfl : u = t' := Option.some.inj (e.symm.trans h)
  constructor
  · intro H p l ho hl hd ht
    rw [← h2 p l fun c => ?_]
    · exact H p l ho hl
    · rcases c.2.2 with q | q
      · exact hd q
      · exact absurd q (not_lt.2 ht)
  · intro H p l ho hl
    by_cases c : d = .zero ∨ 1 / 10 ^ 16 < |s p l|
    · exact h1 p l ho hl c
    · rw [h2 p l fun q => c q.2.2]
      exact H p l ho hl (fun q => c (Or.inl q)) (not_lt.1 fun q => c (Or.inr q))

/-- **C89, without grid** the state comes back as it was. -/
theorem put_zero (b : Box) (dof : ℕ) (s t : Place → ℕ → K) : ∃ t', put .zero b dof (get .zero b dof s) t = some t' ∧
    ∀ l ≤ dof, t' (0, 0, 0) l = s (0, 0, 0) l := by
  obtain ⟨u, e, h1, _⟩ := put_get .zero b dof s t
  exact ⟨u, e, fun l hl => h1 _ l rfl hl (Or.inl rfl)⟩

/-- **C89, put into an empty state** every value is off by no more than the threshold. -/
theorem put_empty (d : Dim) (b : Box) (dof : ℕ) (s t : Place → ℕ → K) (ht : ∀ p l, t p l = 0) : ∃ t', put d b dof (get d b dof s) t = some t' ∧
    ∀ p l, owned d b p → l ≤ dof → |t' p l - s p l| ≤ 1 / 10 ^ 16 := by
  obtain ⟨u, e, h1, h2⟩ := put_get d b dof s t
  refine ⟨u, e, fun p l ho hl => ?_⟩
  by_cases c : d = .zero ∨ 1 / 10 ^ 16 < |s p l|
  · rw [h1 p l ho hl c, sub_self, abs_zero]; positivity
  · rw [h2 p l fun q => c q.2.2, ht, zero_sub, abs_neg]
    exact not_lt.1 fun q => c (Or.inr q)

/-- **C89 fails for the code** on a grid: a value that was zero when the state was saved keeps the value it has since been given, however large. -/
theorem put_stale (d : Dim) (hd : d ≠ .zero) (b : Box) (dof : ℕ) (s t : Place → ℕ → K) (p : Place) (l : ℕ) (h0 : s p l = 0) :
    ∃ t', put d b dof (get d b dof s) t = some t' ∧ t' p l = t p l := by
  obtain ⟨u, e, _, h2⟩ := put_get d b dof s t
  refine ⟨u, e, h2 p l fun c => ?_⟩
  rcases c.2.2 with q | q
  · exact hd q
  · rw [h0, abs_zero] at q
    exact absurd q (not_lt.2 (by positivity))

/-- Putting back twice is putting back once. -/
theorem put_twice (d : Dim) (b : Box) (dof : ℕ) (s t t' : Place → ℕ → K) (h : put d b dof (get d b dof s) t = some t') :
    put d b dof (get d b dof s) t' = some t' := by
  obtain ⟨u, e, h1, h2⟩ := put_get d b dof s t
  obtain rfl : u = t' := Option.some.inj (e.symm.trans h)
  obtain ⟨w, e', k1, k2⟩ := put_get d b dof s u
  rw [e']
  congr 1
  funext p l
  by_cases c : owned d b p ∧ l ≤ dof ∧ (d = .zero ∨ 1 / 10 ^ 16 < |s p l|)
  · rw [k1 p l c.1 c.2.1 c.2.2, h1 p l c.1 c.2.1 c.2.2]
  · rw [k2 p l c]

/-- **C89, all ranks.** Whatever the division of the grid into ranks, and whatever the order in which they put back their parts. -/
theorem putAll_getAll (d : Dim) (dof : ℕ) (s : Place → ℕ → K) (bs : List Box) : ∀ t : Place → ℕ → K, ∃ t', putAll d dof (getAll d bs dof s) t = some t' ∧
    (∀ p l, (∃ b ∈ bs, owned d b p) → l ≤ dof → (d = .zero ∨ 1 / 10 ^ 16 < |s p l|) → t' p l = s p l) ∧
    ∀ p l, ¬((∃ b ∈ bs, owned d b p) ∧ l ≤ dof ∧ (d = .zero ∨ 1 / 10 ^ 16 < |s p l|)) → t' p l = t p l := by
  induction bs with
  | nil => intro t; exact ⟨t, rfl, by simp, by simp⟩
  | cons b bs ih =>
    intro t
    obtain ⟨u, e, h1, h2⟩ := put_get d b dof s t
    obtain ⟨w, e', k1, k2⟩ := ih u
    refine ⟨w, ?_, fun p l ho hl hk => ?_, fun p l h => ?_⟩
    · simp only [putAll, getAll, List.map_cons, List.foldlM_cons] at e' ⊢
      rw [e]
      exact e'
    · by_cases c : ∃ b ∈ bs, owned d b p
      · exact k1 p l c hl hk
      · rw [k2 p l fun q => c q.1]
        obtain ⟨b', hb, ho⟩ := ho
        rcases List.mem_cons.1 hb with rfl | hb
        · exact h1 p l ho hl hk
        · exact absurd ⟨b', hb, ho⟩ c
    · rw [k2 p l fun q => h ⟨by obtain ⟨b', hb, ho⟩ := q.1; exact ⟨b', by simp [hb], ho⟩, q.2⟩]
      exact h2 p l fun q => h ⟨⟨b, by simp, q.1⟩, q.2⟩

/-- **C89, other vectors.** Putting back is defined exactly when there is a vector for each point of the rank and no index beyond those of a point; what is beyond the points is not read. -/
theorem put_defined (d : Dim) (b : Box) (dof : ℕ) (v : Vecs K) (s : Place → ℕ → K) : (put d b dof v s).isSome ↔
    ∀ p ∈ points d b, ∃ q r ps, v[p.1]? = some q ∧ q[p.2.1]? = some r ∧ r[p.2.2]? = some ps ∧ ∀ x ∈ ps, x.1 ≤ dof := by
  unfold put
  generalize points d b = ps
  induction ps generalizing s with
  | nil => simp
  | cons a ps ih =>
    have key : (∃ s', writeAt d b dof v s a = some s') ↔
        ∃ q r ps, v[a.1]? = some q ∧ q[a.2.1]? = some r ∧ r[a.2.2]? = some ps ∧ ∀ x ∈ ps, x.1 ≤ dof := by
      unfold writeAt
      simp only [Option.bind_eq_bind, Option.pure_def, Option.bind_eq_some_iff]
      constructor
      · rintro ⟨s', q, e1, r, e2, ps, e3, u, e4, _⟩
        exact ⟨q, r, ps, e1, e2, e3, (write_defined dof ps _).1 (by rw [e4]; rfl)⟩
      · rintro ⟨q, r, ps, e1, e2, e3, h⟩
        obtain ⟨u, e4⟩ := Option.isSome_iff_exists.1 ((write_defined dof ps (s (place d b a.1 a.2.1 a.2.2))).2 h)
        exact ⟨_, q, e1, r, e2, ps, e3, u, e4, rfl⟩
    rw [List.foldlM_cons, List.forall_mem_cons, ← key]
    cases e : writeAt d b dof v s a with
    | none => simp
    | some s' => simp only [Option.bind_eq_bind, Option.bind_some, ih s']; simp

/-! ### The temperatures -/

/-- The comparison of -1 with an unsigned number is false, unless that is the largest one. -/
theorem visited_nil (w xm : ℕ) (h : xm + 1 < 2 ^ w) : visited w xm = [] := by
  unfold visited
  rw [List.range_succ_eq_map]
  simp only [List.map_cons, Nat.cast_zero, zero_sub]
  rw [List.takeWhile_cons, if_neg]
  simp only [intLe, decide_eq_true_eq, not_le]
  have : (-1 : ℤ) % 2 ^ w = 2 ^ w - 1 := by
    have e : (-1 : ℤ) = (2 ^ w - 1) + 2 ^ w * (-1) := by ring
    have p : (0 : ℤ) < 2 ^ w := by positivity
    rw [e, Int.add_mul_emod_self_left, Int.emod_eq_of_lt (by linarith [Int.add_one_le_iff.2 p]) (by linarith)]
  rw [this]
  have : ((xm + 1 : ℕ) : ℤ) < ((2 ^ w : ℕ) : ℤ) := by exact_mod_cast h
  push_cast at this
  linarith

theorem copy_id (w xm : ℕ) (h : xm + 1 < 2 ^ w) (line : ℤ → K) (T : ℕ → K) : copy w xm line T = T := by
  rw [copy, visited_nil w xm h]; rfl

/-- **C89, temperatures without grid**: that of the solution put back. -/
theorem temps_zero (w : ℕ) (b : Box) (dof : ℕ) (g : ℤ → ℤ → ℤ → ℕ → K) (T : ℕ → K) : temps w .zero b dof g T 0 = g 0 0 0 dof := by
  simp [temps]

/-- **C89, the saved temperature without grid** is the one handed to the network when the state is put back. -/
theorem temps_back (w : ℕ) (b : Box) (dof : ℕ) (s t t' : Place → ℕ → K) (T : ℕ → K) (h : put .zero b dof (get .zero b dof s) t = some t') :
    temps w .zero b dof (fun z y x => t' (z.toNat, y.toNat, x.toNat)) T 0 = s (0, 0, 0) dof := by
  obtain ⟨u, e, h1⟩ := put_zero b dof s t
  obtain rfl : u = t' := Option.some.inj (e.symm.trans h)
  rw [temps_zero]
  exact h1 dof le_rfl

/-- **C89 fails for the code** on a grid: the temperatures are not taken from the solution put back; the loop that should do it never runs. -/
theorem temps_kept (w : ℕ) (d : Dim) (hd : d ≠ .zero) (b : Box) (h : b.xm + 1 < 2 ^ w) (dof : ℕ) (g : ℤ → ℤ → ℤ → ℕ → K) (T : ℕ → K) :
    temps w d b dof g T = T := by
  have fold : ∀ (ls : List ℕ) (f : (ℕ → K) → ℕ → ℕ → K), (∀ T j, f T j = T) → ∀ T, ls.foldl f T = T := by
    intro ls f hf
    induction ls with
    | nil => intro T; rfl
    | cons a ls ih => intro T; rw [List.foldl_cons, hf, ih]
  cases d with
  | zero => exact absurd rfl hd
  | one => exact copy_id w b.xm h _ T
  | two => unfold temps; exact fold _ _ (fun T j => copy_id w b.xm h _ T) T
  | three => unfold temps; exact fold _ _ (fun T k => fold _ _ (fun T j => copy_id w b.xm h _ T) T) T

/-- With a signed comparison the loop would visit the points of the rank and the two next to them. -/
theorem visited_signed (xm : ℕ) : (((List.range (xm + 2)).map fun (n : ℕ) => (n : ℤ) - 1).takeWhile fun i => decide (i ≤ (xm : ℤ))) =
    (List.range (xm + 2)).map fun (n : ℕ) => (n : ℤ) - 1 := by
  have all : ∀ l : List ℤ, (∀ i ∈ l, i ≤ (xm : ℤ)) → (l.takeWhile fun i => decide (i ≤ (xm : ℤ))) = l := by
    intro l
    induction l with
    | nil => intro _; rfl
    | cons a l ih =>
      intro h
      rw [List.takeWhile_cons, if_pos (by simpa using h a (by simp)), ih fun i hi => h i (by simp [hi])]
  refine all _ fun i hi => ?_
  simp only [List.mem_map, List.mem_range] at hi
  obtain ⟨n, hn, rfl⟩ := hi
  omega

/-- After the next evaluation of the equations the temperature used is within 0.1 of the one asked for, and it is that one if it had changed by more. -/
theorem refresh_close (T new : K) : |refresh T new - new| ≤ 1 / 10 ∧ (1 / 10 < |T - new| → refresh T new = new) := by
  unfold refresh
  split_ifs with h
  · exact ⟨by rw [sub_self, abs_zero]; positivity, fun _ => rfl⟩
  · exact ⟨not_lt.1 h, fun c => absurd c h⟩

/-! ### The other values -/

/-- **C89, the other values.** They come back as they were; the fluence becomes that of the present amplitude over the whole time, whatever it was when the state was saved. -/
theorem restore_save (factors : List K) (r₀ r : Rest K) (h : r.flu.fluence.length = 1 ∨ r.flu.fluence.length = factors.length + 1) :
    ∃ r', restore factors (save r₀) r = some r' ∧ r'.localNE = r₀.localNE ∧ r'.previousTime = r₀.previousTime ∧ r'.dt = r₀.dt ∧ r'.nXe = r₀.nXe ∧
      r'.flu.fluence.getD 0 0 = r.flu.amp * r₀.previousTime ∧
      ∀ i (hi : i < factors.length), r'.flu.fluence.getD (i + 1) 0 = r.flu.amp * r₀.previousTime * factors[i] := by
  obtain ⟨f, e, _, h0, h1⟩ := computeFluence_spec factors r.flu r₀.previousTime h
  exact ⟨⟨r₀.localNE, r₀.previousTime, f, r₀.previousTime, r₀.dt, r₀.nXe⟩, by simp only [restore, save, e, Option.map_some], rfl, rfl, rfl, rfl, h0, h1⟩

/-- **C89, the fluence** comes back exactly when it was the present amplitude times the time. -/
theorem fluence_back_iff (factors : List K) (r₀ r r' : Rest K) (h : r.flu.fluence.length = 1 ∨ r.flu.fluence.length = factors.length + 1)
    (e : restore factors (save r₀) r = some r') :
    r'.flu.fluence.getD 0 0 = r₀.flu.fluence.getD 0 0 ↔ r₀.flu.fluence.getD 0 0 = r.flu.amp * r₀.previousTime := by
  obtain ⟨q, e', _, _, _, _, h0, _⟩ := restore_save factors r₀ r h
  obtain rfl : q = r' := Option.some.inj (e'.symm.trans e)
  rw [h0]
  exact eq_comm

/-! ### What the coupled run makes of the vectors -/

theorem dense_map (n : ℕ) (u : ℕ → K) (ls : List ℕ) : ∀ v : List K, v.length = n →
    ((ls.map fun l => (l, u l)).foldl (fun v p => if p.1 < n then v.set p.1 p.2 else v) v).length = n ∧
    ∀ l < n, ((ls.map fun l => (l, u l)).foldl (fun v p => if p.1 < n then v.set p.1 p.2 else v) v)[l]? = if l ∈ ls then some (u l) else v[l]? := by
  induction ls with
  | nil => intro v h; exact ⟨h, fun l _ => by simp⟩
  | cons a ls ih =>
    intro v h
    rw [List.map_cons, List.foldl_cons]
    by_cases ha : a < n
    · simp only [ha, if_true]
      obtain ⟨h1, h2⟩ := ih (v.set a (u a)) (by simpa using h)
      refine ⟨h1, fun l hl => ?_⟩
      rw [h2 l hl]
      by_cases hm : l ∈ ls
      · simp [hm]
      · by_cases e : l = a
        · subst e; simp [hm, h, hl]
        · rw [List.getElem?_set_ne (Ne.symm e)]; simp [hm, e]
    · simp only [ha, if_false]
      obtain ⟨h1, h2⟩ := ih v h
      refine ⟨h1, fun l hl => ?_⟩
      rw [h2 l hl]
      have : l ≠ a := by omega
      simp [this]

/-- **C89, the vectors in the coupled run.** The dense concentrations of a sub-instance are those of the solution, those at or below the threshold replaced by zero; the temperature is not among them. -/
theorem dense_get (d : Dim) (dof n : ℕ) (hn : n ≤ dof) (u : ℕ → K) :
    (Xolotl.Network.Sub.dense n (pairs d dof u)).length = n ∧
    ∀ l < n, (Xolotl.Network.Sub.dense n (pairs d dof u))[l]? = some (if d = .zero ∨ 1 / 10 ^ 16 < |u l| then u l else 0) := by
  unfold Xolotl.Network.Sub.dense pairs
  obtain ⟨h1, h2⟩ := dense_map n u ((List.range (dof + 1)).filter fun l => kept d (u l)) (List.replicate n 0) (by simp)
  refine ⟨h1, fun l hl => ?_⟩
  rw [h2 l hl]
  by_cases c : d = .zero ∨ 1 / 10 ^ 16 < |u l|
  · rw [if_pos c, if_pos]
    rw [List.mem_filter, List.mem_range]
    exact ⟨by omega, (kept_iff d _).2 c⟩
  · rw [if_neg c, if_neg]
    · simp [hl]
    · rw [List.mem_filter]
      exact fun q => c ((kept_iff d _).1 q.2)

/-! ### Examples -/

/-- A rank with two points of a line, two degrees of freedom and the temperature. -/
def exBox : Box := ⟨3, 2, 0, 1, 0, 1⟩

def exState : Place → ℕ → ℚ := fun p l => if p.2.2 = 3 then ([5, 0, 300] : List ℚ).getD l 0 else ([0, 1 / 10 ^ 20, 310] : List ℚ).getD l 0

def exLater : Place → ℕ → ℚ := fun _ l => ([7, 8, 900] : List ℚ).getD l 0

example : get .one exBox 2 exState = [[[[(0, 5), (2, 300)], [(2, 310)]]]] := by decide +kernel

/-- The later values of the first degree of freedom of the second point and of the second one of both points stay. -/
example : (put .one exBox 2 (get .one exBox 2 exState) exLater).map (fun t => (List.range 3).map fun i => (List.range 3).map (t (0, 0, 3 + i))) =
    some [[5, 8, 300], [7, 8, 310], [7, 8, 900]] := by decide +kernel

example : (put .two ⟨3, 2, 1, 1, 0, 1⟩ 2 [[[[(0, 1)], [(1, 2)]]]] exLater).map (fun t => (List.range 2).map fun j => (List.range 3).map fun i => (List.range 3).map (t (0, 1 + j, 3 + i))) =
    some [[[1, 8, 900], [7, 2, 900], [7, 8, 900]], [[7, 8, 900], [7, 8, 900], [7, 8, 900]]] := by decide +kernel

example : (get .three ⟨3, 1, 1, 2, 4, 1⟩ 1 (fun p l => (100 * p.1 + 10 * p.2.1 + p.2.2 + l : ℚ))) = [[[[(0, 413), (1, 414)]], [[(0, 423), (1, 424)]]]] := by decide +kernel

/-- Without grid also the zeros are saved. -/
example : (put .zero exBox 2 (get .zero exBox 2 fun _ l => ([5, 0, 300] : List ℚ).getD l 0) exLater).map (fun t => (List.range 3).map (t (0, 0, 0))) = some [5, 0, 300] := by decide +kernel

/-- A vector with one point less. -/
example : (put .one exBox 2 [[[[(0, 5)]]]] exLater).isSome = false := by decide +kernel

/-- An index beyond those of a point. -/
example : (put .one exBox 2 [[[[(3, 5)], []]]] exLater).isSome = false := by decide +kernel

/-- Two ranks. -/
example : (putAll .one 2 (getAll .one [⟨3, 1, 0, 1, 0, 1⟩, ⟨4, 1, 0, 1, 0, 1⟩] 2 exState) (fun _ _ => 0)).map (fun t => (List.range 2).map fun i => (List.range 3).map (t (0, 0, 3 + i))) =
    some [[5, 0, 300], [0, 0, 310]] := by decide +kernel

example : visited 32 10 = [] := visited_nil 32 10 (by norm_num)

/-- A rank whose number of points is the largest value would visit the first point. -/
example : visited 1 1 = [-1, 0, 1] := by decide +kernel

example : temps 32 .zero exBox 2 (fun _ _ _ l => ([5, 0, 300] : List ℚ).getD l 0) (fun _ => 900) 0 = 300 := by decide +kernel

example : refresh (900 : ℚ) 300 = 300 ∧ refresh (300.05 : ℚ) 300 = 300.05 := by decide +kernel

/-- After ten seconds without flux and ten with amplitude 2 the fluence is 20; putting that state back makes it 40. -/
example : (restore [] (save ⟨[], 20, ⟨[20], 2⟩, 20, 1, 0⟩) ⟨[], 25, ⟨[30], 2⟩, 25, 3, 1⟩).map (fun (r : Rest ℚ) => (r.previousTime, r.time, r.dt, r.nXe, r.flu.fluence)) =
    some (20, 20, 1, 0, [40]) := by decide +kernel

example : (restore [2, 3] (save ⟨[], 10, ⟨[20], 2⟩, 10, 1, 0⟩) ⟨[], 25, ⟨[50], 2⟩, 25, 3, 1⟩).map (fun (r : Rest ℚ) => r.flu.fluence) = some [20, 40, 60] := by decide +kernel

example : Xolotl.Network.Sub.dense 2 (pairs .one 2 (exState (0, 0, 4))) = [0, 0] ∧ Xolotl.Network.Sub.dense 2 (pairs .zero 2 (exState (0, 0, 4))) = [0, 1 / 10 ^ 20] := by decide +kernel

end Xolotl.Solver.Exchange
