import Verif.Network.Products
import Verif.Network.RegionProps
import Mathlib.Data.List.Count
import Mathlib.Order.Interval.Finset.Nat

/-!
# C44, C45: every reachable product is used exactly once
-/

set_option linter.unusedSectionVars false

namespace Xolotl.Network.Products

open Xolotl.Network

theorem mem_upTo {lo hi x : ℤ} : x ∈ upTo lo hi ↔ lo ≤ x ∧ x ≤ hi := by
  simp only [upTo, List.mem_map, List.mem_range]
  constructor
  · rintro ⟨n, hn, rfl⟩; omega
  · intro h
    exact ⟨(x - lo).toNat, by omega, by omega⟩

theorem upTo_sorted (lo hi : ℤ) : (upTo lo hi).Pairwise (· < ·) := by
  unfold upTo
  rw [List.pairwise_map]
  exact (List.pairwise_lt_range).imp fun h => by omega

theorem Visit.ofFind_eq_hit {o : Option ℕ} {k : ℕ} : Visit.ofFind o = .hit k ↔ o = some k := by
  cases o <;> simp [Visit.ofFind]

theorem Visit.ofFind_ne_zero (o : Option ℕ) : Visit.ofFind o ≠ .zero := by
  cases o <;> simp [Visit.ofFind]

/-! ### Loops that remember the previous product -/

theorem prevLoop_mem {k : ℕ} {vs : List Visit} {p : Option ℕ} (h : some k ∈ prevLoop p vs) : .hit k ∈ vs := by
  induction vs generalizing p with
  | nil => simp [prevLoop] at h
  | cons v vs ih =>
    cases v with
    | miss => simp only [prevLoop] at h; exact List.mem_cons_of_mem _ (ih h)
    | zero => simp [prevLoop] at h; exact List.mem_cons_of_mem _ (ih h)
    | hit j =>
      simp only [prevLoop] at h
      split at h
      · exact List.mem_cons_of_mem _ (ih h)
      · rcases List.mem_cons.mp h with h | h
        · simp at h; simp [h]
        · exact List.mem_cons_of_mem _ (ih h)

theorem prevLoop_count_none (vs : List Visit) (p : Option ℕ) :
    (prevLoop p vs).count none = vs.count .zero := by
  induction vs generalizing p with
  | nil => simp [prevLoop]
  | cons v vs ih =>
    cases v with
    | miss => simp [prevLoop, ih]
    | zero => simp [prevLoop, ih]
    | hit j =>
      simp only [prevLoop]
      split <;> simp [ih]

section
variable {α : Type*} (r : α → α → Prop) (f : α → Visit) (k : ℕ)

theorem prevLoop_not_mem (conv : ∀ a b c j, r a b → r b c → f a = .hit k → f c = .hit k → f b = .hit j → j = k)
    (l : List α) (hl : l.Pairwise r) (a0 : α) (ha : f a0 = .hit k) (hr : ∀ b ∈ l, r a0 b) :
    some k ∉ prevLoop (some k) (l.map f) := by
  induction l with
  | nil => simp [prevLoop]
  | cons b l ih =>
    have ih' := ih (List.pairwise_cons.mp hl).2 fun c hc => hr c (List.mem_cons_of_mem _ hc)
    simp only [List.map_cons]
    cases hb : f b with
    | miss => simpa [prevLoop] using ih'
    | zero => simpa [prevLoop] using ih'
    | hit j =>
      simp only [prevLoop]
      by_cases hj : j = k
      · subst hj; simpa using ih'
      · rw [if_neg (by simpa using fun h => hj h.symm)]
        intro hmem
        rcases List.mem_cons.mp hmem with h | h
        · exact hj (by simpa using h.symm)
        · obtain ⟨c, hc, hck⟩ := List.mem_map.mp (prevLoop_mem h)
          exact hj (conv a0 b c j (hr b (by simp)) ((List.pairwise_cons.mp hl).1 c hc) ha hck hb)

theorem prevLoop_count (conv : ∀ a b c j, r a b → r b c → f a = .hit k → f c = .hit k → f b = .hit j → j = k)
    (l : List α) (hl : l.Pairwise r) (p : Option ℕ) (hp : p ≠ some k) :
    (prevLoop p (l.map f)).count (some k) = if Visit.hit k ∈ l.map f then 1 else 0 := by
  induction l generalizing p with
  | nil => simp [prevLoop]
  | cons b l ih =>
    have hl' := List.pairwise_cons.mp hl
    simp only [List.map_cons]
    cases hb : f b with
    | miss => simp [prevLoop, ih hl'.2 p hp]
    | zero => simp [prevLoop, ih hl'.2 p hp]
    | hit j =>
      simp only [prevLoop]
      by_cases hj : j = k
      · subst hj
        rw [if_neg hp, List.count_cons_self,
          List.count_eq_zero_of_not_mem (prevLoop_not_mem r f j conv l hl'.2 b hb hl'.1)]
        simp
      · have hne : Visit.hit j ≠ Visit.hit k := by simpa using hj
        split
        · rw [ih hl'.2 p hp]; simp [Ne.symm hj]
        · rw [List.count_cons_of_ne (by simpa using hj), ih hl'.2 _ (by simpa using hj)]
          simp [Ne.symm hj]
end

/-- When the remembered product does not appear any more, it does not matter. -/
theorem prevLoop_congr {vs : List Visit} {p q : Option ℕ} (hp : ∀ k, p = some k → .hit k ∉ vs)
    (hq : ∀ k, q = some k → .hit k ∉ vs) : prevLoop p vs = prevLoop q vs := by
  induction vs generalizing p q with
  | nil => rfl
  | cons v vs ih =>
    have ih' := ih (p := p) (q := q) (fun k h h' => hp k h (List.mem_cons_of_mem _ h'))
      (fun k h h' => hq k h (List.mem_cons_of_mem _ h'))
    cases v with
    | miss => simpa [prevLoop] using ih'
    | zero => simpa [prevLoop] using ih'
    | hit j =>
      simp only [prevLoop]
      rw [if_neg fun h => hp j h (by simp), if_neg fun h => hq j h (by simp)]

/-! ### Interstitial and vacancy -/

theorem visitIV_zero {tV tI : Tiling} {x : ℤ} : visitIV tV tI x = .zero ↔ x = 0 := by
  unfold visitIV
  split
  · simp [Visit.ofFind_ne_zero]; omega
  · split
    · simp [Visit.ofFind_ne_zero]; omega
    · simp; omega

theorem visitIV_hit {tV tI : Tiling} {x : ℤ} {k : ℕ} :
    visitIV tV tI x = .hit k ↔ 0 < x ∧ tV.find x = some k ∨ x < 0 ∧ tI.find (-x) = some k := by
  unfold visitIV
  split
  · rename_i h
    rw [Visit.ofFind_eq_hit]
    constructor
    · intro h'; exact .inl ⟨h, h'⟩
    · rintro (h' | h')
      · exact h'.2
      · omega
  · split
    · rename_i h
      rw [Visit.ofFind_eq_hit]
      constructor
      · intro h'; exact .inr ⟨h, h'⟩
      · rintro (h' | h')
        · omega
        · exact h'.2
    · simp; omega

theorem visitIV_convex {tV tI : Tiling} (hd : Disjoint tV.ids tI.ids) (k : ℕ) (a b c : ℤ) (j : ℕ)
    (hab : a < b) (hbc : b < c) (ha : visitIV tV tI a = .hit k) (hc : visitIV tV tI c = .hit k)
    (hb : visitIV tV tI b = .hit j) : j = k := by
  rw [visitIV_hit] at ha hc hb
  have hd' : ∀ n, n ∈ tV.ids → n ∈ tI.ids → False := fun n h1 h2 => Set.disjoint_left.mp hd h1 h2
  have inj : ∀ (t : Tiling) (x : ℤ) (m n : ℕ), t.find x = some m → t.find x = some n → m = n := by
    intro t x m n h1 h2; rw [h1] at h2; simpa using h2
  rcases ha with ⟨h1, ha⟩ | ⟨h1, ha⟩ <;> rcases hc with ⟨h2, hc⟩ | ⟨h2, hc⟩
  · rcases hb with ⟨h3, hb⟩ | ⟨h3, hb⟩
    · refine inj tV b j k hb ?_
      rw [tV.spec] at ha hc ⊢
      exact ⟨ha.1, by omega, by omega⟩
    · omega
  · omega
  · exact absurd ((tI.spec _ _).mp ha).1 fun h => hd' _ ((tV.spec _ _).mp hc).1 h
  · rcases hb with ⟨h3, hb⟩ | ⟨h3, hb⟩
    · omega
    · refine inj tI (-b) j k hb ?_
      rw [tI.spec] at ha hc ⊢
      exact ⟨ha.1, by omega, by omega⟩

/-- The PSI loop with bounds does the same as a loop that remembers the previous product. -/
theorem psiLoop_eq {tV tI : Tiling} (hd : Disjoint tV.ids tI.ids) (xs : List ℤ) (hs : xs.Pairwise (· < ·))
    (b : ℤ × ℤ) (p : Option ℕ)
    (hrel : ∀ x ∈ xs, (b.1 ≤ x ∧ x ≤ b.2 ∧ x ≠ 0) ↔ ∃ k, p = some k ∧ visitIV tV tI x = .hit k)
    (hold : ∀ k, p = some k → ∃ x', visitIV tV tI x' = .hit k ∧ ∀ x ∈ xs, x' < x) :
    psiLoop tV tI b xs = prevLoop p (xs.map (visitIV tV tI)) := by
  induction xs generalizing b p with
  | nil => simp [psiLoop, prevLoop]
  | cons x xs ih =>
    have hs' := List.pairwise_cons.mp hs
    have keep := ih hs'.2 b p (fun y hy => hrel y (List.mem_cons_of_mem _ hy)) fun k hk => by
      obtain ⟨x', h1, h2⟩ := hold k hk
      exact ⟨x', h1, fun y hy => h2 y (List.mem_cons_of_mem _ hy)⟩
    have hd' : ∀ n, n ∈ tV.ids → n ∈ tI.ids → False := fun n h1 h2 => Set.disjoint_left.mp hd h1 h2
    rw [psiLoop, List.map_cons]
    by_cases hb : b.1 ≤ x ∧ x ≤ b.2 ∧ x ≠ 0
    · rw [if_pos hb]
      obtain ⟨k, hk, hv⟩ := (hrel x (by simp)).mp hb
      rw [hv, prevLoop, if_pos hk, keep]
    · rw [if_neg hb]
      have hno : ∀ k, p = some k → visitIV tV tI x ≠ .hit k := fun k hk hv =>
        hb ((hrel x (by simp)).mpr ⟨k, hk, hv⟩)
      by_cases hx : 0 < x
      · rw [if_pos hx]
        cases hf : tV.find x with
        | none =>
          have hv : visitIV tV tI x = .miss := by simp [visitIV, hx, hf, Visit.ofFind]
          rw [hv, prevLoop]; exact keep
        | some k =>
          have hv : visitIV tV tI x = .hit k := by simp [visitIV, hx, hf, Visit.ofFind]
          rw [hv, prevLoop, if_neg fun h => hno k h hv]
          refine congrArg _ (ih hs'.2 _ _ (fun y hy => ?_) fun k' hk' => ?_)
          · have hxy := hs'.1 y hy
            have hsp := (tV.spec x k).mp hf
            have hsy := tV.spec y k
            constructor
            · rintro ⟨h1, h2, _⟩
              exact ⟨k, rfl, visitIV_hit.mpr (.inl ⟨by omega, hsy.mpr ⟨hsp.1, h1, by omega⟩⟩)⟩
            · rintro ⟨k', hk', hv'⟩
              cases hk'
              rcases visitIV_hit.mp hv' with ⟨h1, h2⟩ | ⟨h1, h2⟩
              · have := hsy.mp h2
                dsimp only
                omega
              · omega
          · cases hk'
            exact ⟨x, hv, fun y hy => hs'.1 y hy⟩
      · rw [if_neg hx]
        by_cases hx' : x < 0
        · rw [if_pos hx']
          cases hf : tI.find (-x) with
          | none =>
            have hv : visitIV tV tI x = .miss := by simp [visitIV, hx, hx', hf, Visit.ofFind]
            rw [hv, prevLoop]; exact keep
          | some k =>
            have hv : visitIV tV tI x = .hit k := by simp [visitIV, hx, hx', hf, Visit.ofFind]
            rw [hv, prevLoop, if_neg fun h => hno k h hv]
            refine congrArg _ (ih hs'.2 _ _ (fun y hy => ?_) fun k' hk' => ?_)
            · have hxy := hs'.1 y hy
              have hsp := (tI.spec (-x) k).mp hf
              have hnn := tI.nonneg k hsp.1
              have hsy := tI.spec (-y) k
              constructor
              · rintro ⟨h1, h2, h3⟩
                dsimp only at h1 h2
                exact ⟨k, rfl, visitIV_hit.mpr (.inr ⟨by omega, hsy.mpr ⟨hsp.1, by omega, by omega⟩⟩)⟩
              · rintro ⟨k', hk', hv'⟩
                cases hk'
                rcases visitIV_hit.mp hv' with ⟨h1, h2⟩ | ⟨h1, h2⟩
                · exact (hd' k ((tV.spec _ _).mp h2).1 hsp.1).elim
                · have := hsy.mp h2
                  dsimp only
                  omega
            · cases hk'
              exact ⟨x, hv, fun y hy => hs'.1 y hy⟩
        · rw [if_neg hx']
          have hx0 : x = 0 := by omega
          have hv : visitIV tV tI x = .zero := visitIV_zero.mpr hx0
          rw [hv, prevLoop]
          refine congrArg _ (ih hs'.2 _ _ (fun y hy => ?_) fun k hk => ?_)
          · have hxy := hs'.1 y hy
            constructor
            · rintro ⟨h1, h2, h3⟩; dsimp only at h1 h2; omega
            · rintro ⟨k, hk, hv'⟩
              obtain ⟨x', h1, h2⟩ := hold k hk
              have := h2 x (by simp)
              rcases visitIV_hit.mp h1 with ⟨h3, h4⟩ | ⟨h3, h4⟩
              · omega
              · rcases visitIV_hit.mp hv' with ⟨h5, h6⟩ | ⟨h5, h6⟩
                · exact (hd' k ((tV.spec _ _).mp h6).1 ((tI.spec _ _).mp h4).1).elim
                · omega
          · obtain ⟨x', h1, h2⟩ := hold k hk
            exact ⟨x', h1, fun y hy => h2 y (List.mem_cons_of_mem _ hy)⟩

/-- The net sizes reachable from a vacancy group and an interstitial group, in the form visited by the loops. -/
theorem reach_diff (v i : Ival) (hv : v.b < v.e) (hi : i.b < i.e) (x : ℤ) :
    (v.b - i.e + 1 ≤ x ∧ x ≤ v.e - 1 - i.b) ↔ ∃ a ∈ v.pts, ∃ b ∈ i.pts, a - b = x := by
  simp only [mem_pts]
  constructor
  · intro h
    refine ⟨max v.b (x + i.b), ⟨?_, ?_⟩, max v.b (x + i.b) - x, ⟨?_, ?_⟩, ?_⟩ <;> omega
  · rintro ⟨a, ha, b, hb, rfl⟩; omega

theorem reach_sum (a b : Ival) (ha : a.b < a.e) (hb : b.b < b.e) (x : ℤ) :
    (a.b + b.b ≤ x ∧ x ≤ a.e + b.e - 2) ↔ ∃ m ∈ a.pts, ∃ n ∈ b.pts, m + n = x := by
  simp only [mem_pts]
  constructor
  · intro h
    refine ⟨max a.b (x - (b.e - 1)), ⟨?_, ?_⟩, x - max a.b (x - (b.e - 1)), ⟨?_, ?_⟩, ?_⟩ <;> omega
  · rintro ⟨m, hm, n, hn, rfl⟩; omega

/-- A product of the recombination of a vacancy group with an interstitial group: some pair of sizes leaves a net size that belongs to tile `k`. -/
def ReachIV (tV tI : Tiling) (v i : Ival) (k : ℕ) : Prop :=
  ∃ a ∈ v.pts, ∃ b ∈ i.pts, (b < a ∧ tV.find (a - b) = some k) ∨ (a < b ∧ tI.find (b - a) = some k)

theorem count_zero_iff (g : ℤ → Visit) (lo hi : ℤ) (hg : ∀ x, g x = .zero ↔ x = 0) :
    ((upTo lo hi).map g).count .zero = if lo ≤ 0 ∧ 0 ≤ hi then 1 else 0 := by
  have hnd : (upTo lo hi).Nodup := (upTo_sorted lo hi).imp fun h => ne_of_lt h
  have h1 : ((upTo lo hi).map g).count .zero = (upTo lo hi).count 0 := by
    rw [List.count, List.count, List.countP_map]
    refine List.countP_congr fun x _ => ?_
    simp [hg x]
  rw [h1]
  split
  · rename_i h
    exact List.count_eq_one_of_mem hnd (mem_upTo.mpr h)
  · rename_i h
    exact List.count_eq_zero_of_not_mem fun hm => h (mem_upTo.mp hm)

open Classical in
/-- **C44** PSI, I + V: each reachable product exactly once, no other product, and the reaction without product exactly when equal sizes can meet. -/
theorem psiIV_exact (tV tI : Tiling) (hd : Disjoint tV.ids tI.ids) (v i : Ival) (hv : v.b < v.e) (hi : i.b < i.e) :
    (∀ k, (psiIV tV tI v i).count (some k) = if ReachIV tV tI v i k then 1 else 0) ∧
    (psiIV tV tI v i).count none = if ∃ a, a ∈ v.pts ∧ a ∈ i.pts then 1 else 0 := by
  have heq : psiIV tV tI v i = prevLoop none ((upTo (v.b - i.e + 1) (v.e - 1 - i.b)).map (visitIV tV tI)) := by
    refine psiLoop_eq hd _ (upTo_sorted _ _) _ _ (fun x _ => ?_) (by simp)
    constructor
    · rintro ⟨h1, h2, h3⟩; dsimp only at h1 h2; omega
    · simp
  rw [heq]
  constructor
  · intro k
    rw [prevLoop_count (· < ·) _ k (visitIV_convex hd k) _ (upTo_sorted _ _) _ (by simp)]
    refine if_congr ?_ rfl rfl
    simp only [List.mem_map, mem_upTo, ReachIV]
    constructor
    · rintro ⟨x, hx, hh⟩
      obtain ⟨a, ha, b, hb, rfl⟩ := (reach_diff v i hv hi x).mp hx
      refine ⟨a, ha, b, hb, ?_⟩
      rcases visitIV_hit.mp hh with ⟨h1, h2⟩ | ⟨h1, h2⟩
      · exact .inl ⟨by omega, h2⟩
      · rw [neg_sub] at h2
        exact .inr ⟨by omega, h2⟩
    · rintro ⟨a, ha, b, hb, h⟩
      refine ⟨a - b, (reach_diff v i hv hi _).mpr ⟨a, ha, b, hb, rfl⟩, visitIV_hit.mpr ?_⟩
      rcases h with ⟨h1, h2⟩ | ⟨h1, h2⟩
      · exact .inl ⟨by omega, h2⟩
      · exact .inr ⟨by omega, by rw [neg_sub]; exact h2⟩
  · rw [prevLoop_count_none, count_zero_iff _ _ _ fun x => visitIV_zero]
    refine if_congr ?_ rfl rfl
    rw [reach_diff v i hv hi]
    constructor
    · rintro ⟨a, ha, b, hb, h⟩
      have : a = b := by omega
      exact ⟨a, ha, this ▸ hb⟩
    · rintro ⟨a, ha, hb⟩
      exact ⟨a, ha, a, hb, by omega⟩

open Classical in
/-- **C44** Zr, I + V: the same. -/
theorem zrIV_exact (tV tI : Tiling) (hd : Disjoint tV.ids tI.ids) (v i : Ival) (hv : v.b < v.e) (hi : i.b < i.e) :
    (∀ k, (zrIV tV tI v i).count (some k) = if ReachIV tV tI v i k then 1 else 0) ∧
    (zrIV tV tI v i).count none = if ∃ a, a ∈ v.pts ∧ a ∈ i.pts then 1 else 0 := by
  have heq : zrIV tV tI v i = psiIV tV tI v i := by
    have : psiIV tV tI v i = prevLoop none ((upTo (v.b - i.e + 1) (v.e - 1 - i.b)).map (visitIV tV tI)) := by
      refine psiLoop_eq hd _ (upTo_sorted _ _) _ _ (fun x _ => ?_) (by simp)
      constructor
      · rintro ⟨h1, h2, h3⟩; dsimp only at h1 h2; omega
      · simp
    rw [this, zrIV]
    congr 3 <;> ring
  rw [heq]
  exact psiIV_exact tV tI hd v i hv hi

/-- Reachable products of interstitial + basal: basal clusters above nine, vacancy clusters up to nine, interstitial clusters. -/
def ReachIB (tB tV tI : Tiling) (basal i : Ival) (k : ℕ) : Prop :=
  ∃ a ∈ basal.pts, ∃ b ∈ i.pts, (b + 9 < a ∧ tB.find (a - b) = some k) ∨
    (b < a ∧ a ≤ b + 9 ∧ tV.find (a - b) = some k) ∨ (a < b ∧ tI.find (b - a) = some k)

theorem visitIB_hit {tB tV tI : Tiling} {x : ℤ} {k : ℕ} :
    visitIB tB tV tI x = .hit k ↔ 9 < x ∧ tB.find x = some k ∨ (0 < x ∧ x ≤ 9) ∧ tV.find x = some k ∨
      x < 0 ∧ tI.find (-x) = some k := by
  unfold visitIB
  split
  · rename_i h
    rw [Visit.ofFind_eq_hit]
    constructor
    · intro h'; exact .inl ⟨h, h'⟩
    · rintro (h' | ⟨h', _⟩ | ⟨h', _⟩)
      · exact h'.2
      · omega
      · omega
  · rw [visitIV_hit]
    constructor
    · rintro (⟨h1, h2⟩ | h)
      · exact .inr (.inl ⟨by omega, h2⟩)
      · exact .inr (.inr h)
    · rintro (⟨h, _⟩ | ⟨h, h'⟩ | h)
      · omega
      · exact .inl ⟨h.1, h'⟩
      · exact .inr h

theorem find_inj (t : Tiling) {x : ℤ} {m n : ℕ} (h1 : t.find x = some m) (h2 : t.find x = some n) : m = n := by
  rw [h1] at h2; simpa using h2

theorem find_between (t : Tiling) {a b c : ℤ} {k : ℕ} (h1 : t.find a = some k) (h2 : t.find c = some k)
    (hab : a ≤ b) (hbc : b ≤ c) : t.find b = some k := by
  rw [t.spec] at *
  exact ⟨h1.1, by omega, by omega⟩

theorem find_id (t : Tiling) {x : ℤ} {k : ℕ} (h : t.find x = some k) : k ∈ t.ids := ((t.spec _ _).mp h).1

theorem visitIB_convex {tB tV tI : Tiling} (hVI : Disjoint tV.ids tI.ids) (hBV : Disjoint tB.ids tV.ids)
    (hBI : Disjoint tB.ids tI.ids) (k : ℕ) (a b c : ℤ) (j : ℕ) (hab : a < b) (hbc : b < c)
    (ha : visitIB tB tV tI a = .hit k) (hc : visitIB tB tV tI c = .hit k) (hb : visitIB tB tV tI b = .hit j) :
    j = k := by
  rw [visitIB_hit] at ha hc hb
  have d1 : ∀ n, n ∈ tV.ids → n ∈ tI.ids → False := fun n h1 h2 => Set.disjoint_left.mp hVI h1 h2
  have d2 : ∀ n, n ∈ tB.ids → n ∈ tV.ids → False := fun n h1 h2 => Set.disjoint_left.mp hBV h1 h2
  have d3 : ∀ n, n ∈ tB.ids → n ∈ tI.ids → False := fun n h1 h2 => Set.disjoint_left.mp hBI h1 h2
  rcases ha with ⟨h1, ha⟩ | ⟨h1, ha⟩ | ⟨h1, ha⟩ <;> rcases hc with ⟨h2, hc⟩ | ⟨h2, hc⟩ | ⟨h2, hc⟩ <;>
    first
    | omega
    | exact (d1 k (find_id _ hc) (find_id _ ha)).elim
    | exact (d2 k (find_id _ hc) (find_id _ ha)).elim
    | exact (d3 k (find_id _ hc) (find_id _ ha)).elim
    | (rcases hb with ⟨h3, hb⟩ | ⟨h3, hb⟩ | ⟨h3, hb⟩ <;>
        first
        | omega
        | exact find_inj _ hb (find_between _ ha hc (by omega) (by omega))
        | exact find_inj _ hb (find_between _ hc ha (by omega) (by omega)))

theorem visitIB_zero {tB tV tI : Tiling} {x : ℤ} : visitIB tB tV tI x = .zero ↔ x = 0 := by
  unfold visitIB
  split
  · simp [Visit.ofFind_ne_zero]; omega
  · exact visitIV_zero

open Classical in
/-- **C44** Zr, I + Basal. -/
theorem zrIB_exact (tB tV tI : Tiling) (hVI : Disjoint tV.ids tI.ids) (hBV : Disjoint tB.ids tV.ids)
    (hBI : Disjoint tB.ids tI.ids) (basal i : Ival) (hv : basal.b < basal.e) (hi : i.b < i.e) :
    (∀ k, (zrIB tB tV tI basal i).count (some k) = if ReachIB tB tV tI basal i k then 1 else 0) ∧
    (zrIB tB tV tI basal i).count none = if ∃ a, a ∈ basal.pts ∧ a ∈ i.pts then 1 else 0 := by
  have hlo : basal.b + 0 - i.e - 1 + 2 = basal.b - i.e + 1 := by ring
  have hhi : basal.e + 1 - 2 - i.b - 0 = basal.e - 1 - i.b := by ring
  rw [zrIB, hlo, hhi]
  constructor
  · intro k
    rw [prevLoop_count (· < ·) _ k (visitIB_convex hVI hBV hBI k) _ (upTo_sorted _ _) _ (by simp)]
    refine if_congr ?_ rfl rfl
    simp only [List.mem_map, mem_upTo, ReachIB]
    constructor
    · rintro ⟨x, hx, hh⟩
      obtain ⟨a, ha, b, hb, rfl⟩ := (reach_diff basal i hv hi x).mp hx
      refine ⟨a, ha, b, hb, ?_⟩
      rcases visitIB_hit.mp hh with ⟨h1, h2⟩ | ⟨h1, h2⟩ | ⟨h1, h2⟩
      · exact .inl ⟨by omega, h2⟩
      · exact .inr (.inl ⟨by omega, by omega, h2⟩)
      · rw [neg_sub] at h2
        exact .inr (.inr ⟨by omega, h2⟩)
    · rintro ⟨a, ha, b, hb, h⟩
      refine ⟨a - b, (reach_diff basal i hv hi _).mpr ⟨a, ha, b, hb, rfl⟩, visitIB_hit.mpr ?_⟩
      rcases h with ⟨h1, h2⟩ | ⟨h1, h1', h2⟩ | ⟨h1, h2⟩
      · exact .inl ⟨by omega, h2⟩
      · exact .inr (.inl ⟨by omega, h2⟩)
      · exact .inr (.inr ⟨by omega, by rw [neg_sub]; exact h2⟩)
  · rw [prevLoop_count_none, count_zero_iff _ _ _ fun x => visitIB_zero]
    refine if_congr ?_ rfl rfl
    rw [reach_diff basal i hv hi]
    constructor
    · rintro ⟨a, ha, b, hb, h⟩
      have : a = b := by omega
      exact ⟨a, ha, this ▸ hb⟩
    · rintro ⟨a, ha, hb⟩
      exact ⟨a, ha, a, hb, by omega⟩

open Classical in
/-- **C44** Loops over one product axis: every tile containing a sum of sizes is used once, nothing else. -/
theorem sameKind_exact (t : Tiling) (a b : Ival) (ha : a.b < a.e) (hb : b.b < b.e) (k : ℕ) :
    (sameKind t a b).count (some k) = if ∃ m ∈ a.pts, ∃ n ∈ b.pts, t.find (m + n) = some k then 1 else 0 := by
  rw [sameKind, prevLoop_count (· < ·) _ k ?_ _ (upTo_sorted _ _) _ (by simp)]
  · refine if_congr ?_ rfl rfl
    simp only [List.mem_map, mem_upTo, Visit.ofFind_eq_hit]
    constructor
    · rintro ⟨x, hx, hh⟩
      obtain ⟨m, hm, n, hn, rfl⟩ := (reach_sum a b ha hb x).mp hx
      exact ⟨m, hm, n, hn, hh⟩
    · rintro ⟨m, hm, n, hn, h⟩
      exact ⟨m + n, (reach_sum a b ha hb _).mpr ⟨m, hm, n, hn, rfl⟩, h⟩
  · intro x y z j h1 h2 hx hz hy
    rw [Visit.ofFind_eq_hit] at hx hy hz
    exact find_inj t hy (find_between t hx hz (by omega) (by omega))

open Classical in
/-- **C44** Zr, V + Basal. -/
theorem zrVB_exact (tB tV : Tiling) (hBV : Disjoint tB.ids tV.ids) (v basal : Ival) (hv : v.b < v.e)
    (hb : basal.b < basal.e) (k : ℕ) :
    (zrVB tB tV v basal).count (some k) = if ∃ m ∈ v.pts, ∃ n ∈ basal.pts,
      (9 < m + n ∧ tB.find (m + n) = some k) ∨ (m + n ≤ 9 ∧ tV.find (m + n) = some k) then 1 else 0 := by
  have hd : ∀ n, n ∈ tB.ids → n ∈ tV.ids → False := fun n h1 h2 => Set.disjoint_left.mp hBV h1 h2
  have hhit : ∀ x k, visitVB tB tV x = .hit k ↔ (9 < x ∧ tB.find x = some k) ∨ (x ≤ 9 ∧ tV.find x = some k) := by
    intro x k
    unfold visitVB
    split
    · rw [Visit.ofFind_eq_hit]
      constructor
      · intro h; exact .inl ⟨by omega, h⟩
      · rintro (h | ⟨h, _⟩)
        · exact h.2
        · omega
    · rw [Visit.ofFind_eq_hit]
      constructor
      · intro h; exact .inr ⟨by omega, h⟩
      · rintro (⟨h, _⟩ | h)
        · omega
        · exact h.2
  have hlo : v.b + 0 + 0 + basal.b = v.b + basal.b := by ring
  have hhi : v.e + 1 + 1 + basal.e - 4 = v.e + basal.e - 2 := by ring
  rw [zrVB, hlo, hhi, prevLoop_count (· < ·) _ k ?_ _ (upTo_sorted _ _) _ (by simp)]
  · refine if_congr ?_ rfl rfl
    simp only [List.mem_map, mem_upTo, hhit]
    constructor
    · rintro ⟨x, hx, hh⟩
      obtain ⟨m, hm, n, hn, rfl⟩ := (reach_sum v basal hv hb x).mp hx
      exact ⟨m, hm, n, hn, hh⟩
    · rintro ⟨m, hm, n, hn, h⟩
      exact ⟨m + n, (reach_sum v basal hv hb _).mpr ⟨m, hm, n, hn, rfl⟩, h⟩
  · intro x y z j h1 h2 hx hz hy
    rw [hhit] at hx hy hz
    rcases hx with ⟨a1, hx⟩ | ⟨a1, hx⟩ <;> rcases hz with ⟨a2, hz⟩ | ⟨a2, hz⟩
    · rcases hy with ⟨a3, hy⟩ | ⟨a3, hy⟩
      · exact find_inj _ hy (find_between _ hx hz (by omega) (by omega))
      · omega
    · omega
    · exact (hd k (find_id _ hz) (find_id _ hx)).elim
    · rcases hy with ⟨a3, hy⟩ | ⟨a3, hy⟩
      · omega
      · exact find_inj _ hy (find_between _ hx hz (by omega) (by omega))

/-- The PSI loop for I + I. -/
theorem psiIILoop_eq (t : Tiling) (xs : List ℤ) (hs : xs.Pairwise (· < ·)) (b : ℤ × ℤ) (p : Option ℕ)
    (hrel : ∀ x ∈ xs, (b.1 ≤ x ∧ x ≤ b.2) ↔ ∃ k, p = some k ∧ t.find x = some k) :
    psiIILoop t b xs = prevLoop p (xs.map fun x => .ofFind (t.find x)) := by
  induction xs generalizing b p with
  | nil => simp [psiIILoop, prevLoop]
  | cons x xs ih =>
    have hs' := List.pairwise_cons.mp hs
    have keep := ih hs'.2 b p fun y hy => hrel y (List.mem_cons_of_mem _ hy)
    rw [psiIILoop, List.map_cons]
    by_cases hb : b.1 ≤ x ∧ x ≤ b.2
    · rw [if_pos hb]
      obtain ⟨k, hk, hv⟩ := (hrel x (by simp)).mp hb
      rw [hv, Visit.ofFind, prevLoop, if_pos hk, keep]
    · rw [if_neg hb]
      cases hf : t.find x with
      | none => rw [Visit.ofFind, prevLoop]; exact keep
      | some k =>
        rw [Visit.ofFind, prevLoop, if_neg fun h => hb ((hrel x (by simp)).mpr ⟨k, h, hf⟩)]
        refine congrArg _ (ih hs'.2 _ _ fun y hy => ?_)
        have hxy := hs'.1 y hy
        have hsp := (t.spec x k).mp hf
        constructor
        · rintro ⟨h1, h2⟩
          dsimp only at h1 h2
          exact ⟨k, rfl, (t.spec y k).mpr ⟨hsp.1, h1, by omega⟩⟩
        · rintro ⟨k', hk', hv'⟩
          cases hk'
          have := (t.spec y k).mp hv'
          dsimp only
          omega

open Classical in
/-- **C44** PSI, I + I. -/
theorem psiII_exact (t : Tiling) (a b : Ival) (ha : a.b < a.e) (hb : b.b < b.e) (ha0 : 0 < a.b) (hb0 : 0 < b.b)
    (k : ℕ) :
    (psiII t a b).count (some k) = if ∃ m ∈ a.pts, ∃ n ∈ b.pts, t.find (m + n) = some k then 1 else 0 := by
  rw [← sameKind_exact t a b ha hb k, psiII, sameKind, psiIILoop_eq t _ (upTo_sorted _ _) _ none]
  intro x hx
  rw [mem_upTo] at hx
  constructor
  · rintro ⟨h1, h2⟩; dsimp only at h1 h2; omega
  · simp

/-! ### Alloy: two look-ups per size -/

section twoLookups

/-- Lists of look-ups made size by size. -/
def keyed (g : ℤ → List Visit) (xs : List ℤ) : List (ℤ × ℕ) :=
  xs.flatMap fun x => (List.range (g x).length).map fun n => (x, n)

def lexlt (a b : ℤ × ℕ) : Prop := a.1 < b.1 ∨ a.1 = b.1 ∧ a.2 < b.2

theorem keyed_sorted (g : ℤ → List Visit) (xs : List ℤ) (hs : xs.Pairwise (· < ·)) :
    (keyed g xs).Pairwise lexlt := by
  unfold keyed
  rw [List.flatMap_def, List.pairwise_flatten]
  constructor
  · intro l hl
    obtain ⟨x, _, rfl⟩ := List.mem_map.mp hl
    rw [List.pairwise_map]
    exact List.pairwise_lt_range.imp fun h => .inr ⟨rfl, h⟩
  · rw [List.pairwise_map]
    refine hs.imp fun h a ha b hb => ?_
    obtain ⟨_, _, rfl⟩ := List.mem_map.mp ha
    obtain ⟨_, _, rfl⟩ := List.mem_map.mp hb
    exact .inl h

/-- The look-up with a given key. -/
def lookup (g : ℤ → List Visit) (a : ℤ × ℕ) : Visit := (g a.1).getD a.2 .miss

theorem flatMap_keyed (g : ℤ → List Visit) (xs : List ℤ) : xs.flatMap g = (keyed g xs).map (lookup g) := by
  unfold keyed
  rw [List.map_flatMap]
  congr 1
  funext x
  rw [List.map_map]
  refine List.ext_getElem (by simp) fun n h1 h2 => ?_
  simp [lookup, List.getD_eq_getElem?_getD, h1]

theorem flatMap_count (g : ℤ → List Visit) (k : ℕ)
    (conv : ∀ a b c j, lexlt a b → lexlt b c → lookup g a = .hit k → lookup g c = .hit k →
      lookup g b = .hit j → j = k) (xs : List ℤ) (hs : xs.Pairwise (· < ·)) :
    (prevLoop none (xs.flatMap g)).count (some k) = if ∃ x ∈ xs, .hit k ∈ g x then 1 else 0 := by
  classical
  rw [flatMap_keyed, prevLoop_count lexlt _ k conv _ (keyed_sorted g xs hs) _ (by simp), ← flatMap_keyed]
  refine if_congr ?_ rfl rfl
  rw [List.mem_flatMap]

end twoLookups

/-- Conditions on the small clusters (never grouped) and the loops: a group of loops with several sizes starts above the sizes of the small clusters.
`AlloyClusterGenerator::refine` and `select` give this when `groupingMin` is larger than `maxI` and `maxV`
(`impl/AlloyClusterGenerator.tpp:38-49, 103-150`). -/
structure LoopLayout (tS tL : Tiling) : Prop where
  disj : Disjoint tS.ids tL.ids
  single : ∀ x y k, tS.find x = some k → tS.find y = some k → x = y
  above : ∀ x y z k, tL.find x = some k → tL.find z = some k → x < y → y ≤ z → tS.find y = none

theorem pair_lookup {u v w : Visit} {n : ℕ} {k : ℕ} (h : ([u, v].getD n w) = .hit k) (hw : w ≠ .hit k) :
    n = 0 ∧ u = .hit k ∨ n = 1 ∧ v = .hit k := by
  match n with
  | 0 => exact .inl ⟨rfl, by simpa using h⟩
  | 1 => exact .inr ⟨rfl, by simpa using h⟩
  | n + 2 => simp at h; exact absurd h hw

theorem visitsIL_lookup {tS tL : Tiling} {s x : ℤ} {n k : ℕ}
    (h : lookup (fun k => visitsIL tS tL (k - s)) (x, n) = .hit k) :
    0 < x - s ∧ (n = 0 ∧ tS.find (x - s) = some k ∨ n = 1 ∧ tL.find (x - s) = some k) := by
  unfold lookup visitsIL at h
  dsimp only at h
  split at h
  · rename_i hp
    refine ⟨hp, ?_⟩
    rcases pair_lookup h (by simp) with ⟨h1, h2⟩ | ⟨h1, h2⟩
    · exact .inl ⟨h1, Visit.ofFind_eq_hit.mp h2⟩
    · exact .inr ⟨h1, Visit.ofFind_eq_hit.mp h2⟩
  · simp at h

open Classical in
/-- **C44** Alloy, I + Faulted and I + Void: every cluster that contains a positive net size is used exactly once. -/
theorem alloyIL_exact (tV tF : Tiling) (hl : LoopLayout tV tF) (s : ℤ) (f : Ival) (k : ℕ) :
    (alloyIL tV tF s f).count (some k) = if ∃ a ∈ f.pts, s < a ∧
      (tV.find (a - s) = some k ∨ tF.find (a - s) = some k) then 1 else 0 := by
  have hd : ∀ n, n ∈ tV.ids → n ∈ tF.ids → False := fun n h1 h2 => Set.disjoint_left.mp hl.disj h1 h2
  rw [alloyIL, flatMap_count _ k ?_ _ (upTo_sorted _ _)]
  · refine if_congr ?_ rfl rfl
    simp only [mem_upTo, mem_pts]
    constructor
    · rintro ⟨x, hx, hh⟩
      unfold visitsIL at hh
      split at hh
      · refine ⟨x, by omega, by omega, ?_⟩
        simp only [List.mem_cons, List.not_mem_nil, or_false] at hh
        rcases hh with h | h
        · exact .inl (Visit.ofFind_eq_hit.mp h.symm)
        · exact .inr (Visit.ofFind_eq_hit.mp h.symm)
      · simp at hh
    · rintro ⟨a, ha, hp, h⟩
      refine ⟨a, by omega, ?_⟩
      unfold visitsIL
      rw [if_pos (by omega)]
      rcases h with h | h <;> simp [h, Visit.ofFind]
  · rintro ⟨a, n⟩ ⟨b, m⟩ ⟨c, l⟩ j hab hbc ha hc hb
    obtain ⟨pa, ha⟩ := visitsIL_lookup ha
    obtain ⟨pc, hc⟩ := visitsIL_lookup hc
    obtain ⟨pb, hb⟩ := visitsIL_lookup hb
    simp only [lexlt] at hab hbc
    rcases ha with ⟨e1, ha⟩ | ⟨e1, ha⟩ <;> rcases hc with ⟨e2, hc⟩ | ⟨e2, hc⟩
    · have := hl.single _ _ k ha hc
      omega
    · exact (hd k (find_id _ ha) (find_id _ hc)).elim
    · exact (hd k (find_id _ hc) (find_id _ ha)).elim
    · rcases hb with ⟨e3, hb⟩ | ⟨e3, hb⟩
      · have := hl.above (a - s) (b - s) (c - s) k ha hc (by omega) (by omega)
        rw [this] at hb; simp at hb
      · exact find_inj _ hb (find_between _ ha hc (by omega) (by omega))

theorem visitsVL_lookup {tI tP tV : Tiling} {s x : ℤ} {n k : ℕ}
    (h : lookup (fun k => visitsVL tI tP tV (k - s)) (x, n) = .hit k) :
    (0 < x - s ∧ n = 0 ∧ tI.find (x - s) = some k) ∨ (0 < x - s ∧ n = 1 ∧ tP.find (x - s) = some k) ∨
      (x - s < 0 ∧ n = 0 ∧ tV.find (-(x - s)) = some k) := by
  unfold lookup visitsVL at h
  dsimp only at h
  split at h
  · rename_i hp
    rcases pair_lookup h (by simp) with ⟨h1, h2⟩ | ⟨h1, h2⟩
    · exact .inl ⟨hp, h1, Visit.ofFind_eq_hit.mp h2⟩
    · exact .inr (.inl ⟨hp, h1, Visit.ofFind_eq_hit.mp h2⟩)
  · split at h
    · rename_i hn
      match n with
      | 0 => exact .inr (.inr ⟨hn, rfl, Visit.ofFind_eq_hit.mp (by simpa using h)⟩)
      | n + 1 => simp at h
    · match n with
      | 0 => simp at h
      | n + 1 => simp at h

open Classical in
/-- **C44** Alloy, V + Perfect and V + Frank: every cluster that contains a net size is used exactly once. -/
theorem alloyVL_exact (tI tP tV : Tiling) (hl : LoopLayout tI tP) (hVI : Disjoint tV.ids tI.ids)
    (hVP : Disjoint tV.ids tP.ids) (s : ℤ) (p : Ival) (k : ℕ) :
    (alloyVL tI tP tV s p).count (some k) = if ∃ a ∈ p.pts,
      (s < a ∧ (tI.find (a - s) = some k ∨ tP.find (a - s) = some k)) ∨ (a < s ∧ tV.find (s - a) = some k)
      then 1 else 0 := by
  have d1 : ∀ n, n ∈ tI.ids → n ∈ tP.ids → False := fun n h1 h2 => Set.disjoint_left.mp hl.disj h1 h2
  have d2 : ∀ n, n ∈ tV.ids → n ∈ tI.ids → False := fun n h1 h2 => Set.disjoint_left.mp hVI h1 h2
  have d3 : ∀ n, n ∈ tV.ids → n ∈ tP.ids → False := fun n h1 h2 => Set.disjoint_left.mp hVP h1 h2
  rw [alloyVL, flatMap_count _ k ?_ _ (upTo_sorted _ _)]
  · refine if_congr ?_ rfl rfl
    simp only [mem_upTo, mem_pts]
    constructor
    · rintro ⟨x, hx, hh⟩
      unfold visitsVL at hh
      split at hh
      · refine ⟨x, by omega, .inl ⟨by omega, ?_⟩⟩
        simp only [List.mem_cons, List.not_mem_nil, or_false] at hh
        rcases hh with h | h
        · exact .inl (Visit.ofFind_eq_hit.mp h.symm)
        · exact .inr (Visit.ofFind_eq_hit.mp h.symm)
      · split at hh
        · refine ⟨x, by omega, .inr ⟨by omega, ?_⟩⟩
          rw [List.mem_singleton] at hh
          have := Visit.ofFind_eq_hit.mp hh.symm
          rwa [neg_sub] at this
        · simp at hh
    · rintro ⟨a, ha, h⟩
      refine ⟨a, by omega, ?_⟩
      unfold visitsVL
      rcases h with ⟨h1, h⟩ | ⟨h1, h⟩
      · rw [if_pos (by omega)]
        rcases h with h | h <;> simp [h, Visit.ofFind]
      · rw [if_neg (by omega), if_pos (by omega), neg_sub, h]
        simp [Visit.ofFind]
  · rintro ⟨a, n⟩ ⟨b, m⟩ ⟨c, l⟩ j hab hbc ha hc hb
    have ha := visitsVL_lookup ha
    have hc := visitsVL_lookup hc
    have hb := visitsVL_lookup hb
    simp only [lexlt] at hab hbc
    rcases ha with ⟨pa, e1, ha⟩ | ⟨pa, e1, ha⟩ | ⟨pa, e1, ha⟩ <;>
      rcases hc with ⟨pc, e2, hc⟩ | ⟨pc, e2, hc⟩ | ⟨pc, e2, hc⟩
    · have := hl.single _ _ k ha hc
      omega
    · exact (d1 k (find_id _ ha) (find_id _ hc)).elim
    · exact (d2 k (find_id _ hc) (find_id _ ha)).elim
    · exact (d1 k (find_id _ hc) (find_id _ ha)).elim
    · rcases hb with ⟨pb, e3, hb⟩ | ⟨pb, e3, hb⟩ | ⟨pb, e3, hb⟩
      · have := hl.above (a - s) (b - s) (c - s) k ha hc (by omega) (by omega)
        rw [this] at hb; simp at hb
      · exact find_inj _ hb (find_between _ ha hc (by omega) (by omega))
      · omega
    · exact (d3 k (find_id _ hc) (find_id _ ha)).elim
    · exact (d2 k (find_id _ ha) (find_id _ hc)).elim
    · exact (d3 k (find_id _ ha) (find_id _ hc)).elim
    · rcases hb with ⟨pb, e3, hb⟩ | ⟨pb, e3, hb⟩ | ⟨pb, e3, hb⟩
      · omega
      · omega
      · exact find_inj _ hb (find_between _ hc ha (by omega) (by omega))

/-! ### Concrete tilings -/

/-- Single sizes `1, …, n` with ids `base, …`. -/
def singles (base n : ℕ) : Tiling where
  find x := if 1 ≤ x ∧ x ≤ n then some (base + (x - 1).toNat) else none
  ids := {k | base ≤ k ∧ k < base + n}
  reg k := ⟨(k : ℤ) - base + 1, (k : ℤ) - base + 2⟩
  spec x k := by
    simp only [Set.mem_setOf_eq]
    split <;> simp <;> omega
  nonneg k hk := by
    simp only [Set.mem_setOf_eq] at hk
    dsimp only; omega

/-- One tile `[lo, hi)`. -/
def oneTile (id : ℕ) (lo hi : ℤ) (h : 0 ≤ lo) : Tiling where
  find x := if lo ≤ x ∧ x < hi then some id else none
  ids := {id}
  reg _ := ⟨lo, hi⟩
  spec x k := by
    simp only [Set.mem_singleton_iff]
    split <;> simp <;> omega
  nonneg _ _ := h

/-- Non-vacuity: V_[2,5) + I_[3,6) with V_1..V_4 (ids 0-3) and a single interstitial group I_[1,4) (id 10): V_1, the group once, and no product. -/
example : psiIV (singles 0 4) (oneTile 10 1 4 (by decide)) ⟨2, 5⟩ ⟨3, 6⟩ = [some 10, none, some 0] := by
  decide +kernel

example : Disjoint (singles 0 4).ids (oneTile 10 1 4 (by decide)).ids := by
  simp [singles, oneTile, Set.disjoint_singleton_right]

/-- Non-vacuity of `LoopLayout`: interstitials 1 to 4, a loop group [5, 9). -/
example : LoopLayout (singles 0 4) (oneTile 10 5 9 (by decide)) where
  disj := by simp [singles, oneTile, Set.disjoint_singleton_right]
  single x y k hx hy := by
    simp only [singles] at hx hy
    split at hx <;> split at hy <;> simp_all
    omega
  above x y z k hx hz hxy hyz := by
    simp only [oneTile, singles] at *
    split at hx <;> simp at hx
    split at hz <;> simp at hz
    rw [if_neg]
    omega

example : alloyVL (singles 0 4) (oneTile 10 5 9 (by decide)) (singles 20 4) 2 ⟨5, 9⟩ =
    [some 2, some 3, some 10] := by decide +kernel

/-- **C44 (negation)** When the grouping of the loops starts below the largest interstitial cluster, the look-ups of the two kinds alternate, the single `previousIndex` forgets the loop
and the same reaction is generated several times: here V_1 + Perfect_[4,8) with I_1..I_6 gives the product Perfect_[3,8) (id 10) four times. -/
theorem alloyVL_duplicates :
    (alloyVL (singles 0 6) (oneTile 10 3 8 (by decide)) (singles 20 4) 1 ⟨4, 8⟩).count (some 10) = 4 := by
  decide +kernel

/-! ### Alloy: Perfect + Faulted, Perfect + Void -/

theorem wrap_of_nonneg {x : ℤ} (h0 : 0 ≤ x) (h1 : x < 2 ^ 32) : wrap x = x := by
  unfold wrap; omega

theorem wrap_of_neg {x : ℤ} (h0 : x < 0) (h1 : -2 ^ 32 ≤ x) : wrap x = x + 2 ^ 32 := by
  unfold wrap; omega

/-- **C44 (partial)** When every net size is non negative the loop visits all reachable net sizes except the largest one. -/
theorem alloyPF_sizes_partial (f p : Ival) (hf : f.b < f.e) (hp : p.b < p.e) (h0 : p.e - 1 ≤ f.b) (h1 : 0 ≤ p.b)
    (h2 : f.e < 2 ^ 31) (x : ℤ) :
    x ∈ alloyPFSizes f p ↔ (∃ a ∈ f.pts, ∃ b ∈ p.pts, a - b = x) ∧ x ≠ f.e - 1 - p.b := by
  rw [alloyPFSizes, mem_upTo, wrap_of_nonneg (by omega) (by omega), wrap_of_nonneg (by omega) (by omega),
    ← reach_diff f p hf hp]
  omega

/-- **C44 (negation)** The largest reachable net size is never visited, whatever the groups. -/
theorem alloyPF_largest_missing (f p : Ival) (hf : f.b < f.e) (hp : p.b < p.e) (h1 : 0 ≤ p.b)
    (h2 : f.e < 2 ^ 31) (h3 : p.e < 2 ^ 31) (h4 : 0 ≤ f.b) (h5 : p.b ≤ f.e - 1) :
    (∃ a ∈ f.pts, ∃ b ∈ p.pts, a - b = f.e - 1 - p.b) ∧ f.e - 1 - p.b ∉ alloyPFSizes f p := by
  constructor
  · exact (reach_diff f p hf hp _).mp (by omega)
  · rw [alloyPFSizes, mem_upTo, wrap_of_nonneg (x := f.e + 1 - p.b - 0 - 2) (by omega) (by omega)]
    omega

/-- **C44 (negation)** As soon as some net size is negative and some is not, the lower bound wraps around and nothing is visited: the whole reaction is missing, including the recombination without product. -/
theorem alloyPF_straddle_empty (f p : Ival) (h1 : 0 ≤ p.b) (h2 : f.e < 2 ^ 31) (h3 : p.e < 2 ^ 31)
    (h4 : 0 ≤ f.b) (h5 : f.b < p.e - 1) (h6 : p.b ≤ f.e - 1) : alloyPFSizes f p = [] := by
  rw [alloyPFSizes, wrap_of_neg (x := f.b + 0 - p.e - 1 + 2) (by omega) (by omega),
    wrap_of_nonneg (x := f.e + 1 - p.b - 0 - 2) (by omega) (by omega)]
  have : (f.e + 1 - p.b - 0 - 2 - 1 + 1 - (f.b + 0 - p.e - 1 + 2 + 2 ^ 32)).toNat = 0 := by omega
  rw [upTo, this]; rfl

/-- **C44 (negation)** When every net size is negative, only sizes beyond `2^31` are visited: the branch for interstitial products is never taken. -/
theorem alloyPF_negative_unreached (f p : Ival) (h1 : 0 ≤ p.b) (h2 : f.e < 2 ^ 31) (h3 : p.e < 2 ^ 31)
    (h4 : 0 ≤ f.b) (hp : p.b < p.e) (hf : f.b < f.e) (h5 : f.e - 1 < p.b) :
    ∀ x ∈ alloyPFSizes f p, 2 ^ 31 < x := by
  intro x hx
  rw [alloyPFSizes, mem_upTo, wrap_of_neg (x := f.b + 0 - p.e - 1 + 2) (by omega) (by omega)] at hx
  omega

/-- Single clusters: Perfect_5 + Faulted_6 should give V_1; the loop does not run. -/
example : alloyPFSizes ⟨6, 7⟩ ⟨5, 6⟩ = [] := by decide +kernel

/-- Groups Perfect_[5,8) and Faulted_[8,12): net sizes 1 to 6, the loop stops at 5. -/
example : alloyPFSizes ⟨8, 12⟩ ⟨5, 8⟩ = [1, 2, 3, 4, 5] := by decide +kernel

/-! ### C45: the general case -/

theorem axisGood_iff (p : Ival) (bd : ℤ × ℤ) (hp : p.b < p.e) (hbd : bd.1 ≤ bd.2) :
    axisGood p bd = true ↔ ∃ x ∈ p.pts, bd.1 ≤ x ∧ x ≤ bd.2 := by
  simp only [axisGood, Bool.and_eq_true, Bool.not_eq_true', decide_eq_false_iff_not, mem_pts]
  constructor
  · intro h
    refine ⟨max p.b bd.1, ⟨?_, ?_⟩, ?_, ?_⟩ <;> omega
  · rintro ⟨x, hx⟩; omega

/-- Sizes that fit: non empty, non negative and below `2^29`. -/
def Small (I : Ival) : Prop := 0 ≤ I.b ∧ I.b < I.e ∧ I.e < 2 ^ 29

theorem boundsPlain_eq {a b : Ival} (ha : Small a) (hb : Small b) :
    boundsPlain a b = (a.b + b.b, a.e + b.e - 2) := by
  unfold Small at *
  rw [boundsPlain, wrap_of_nonneg (by omega) (by omega), wrap_of_nonneg (by omega) (by omega)]

theorem boundsV_raw {a b i1 i2 : Ival} (ha : Small a) (hb : Small b) (h1 : Small i1) (h2 : Small i2) :
    boundsV a b i1 i2 = (wrap (a.b + b.b - (i1.e + i2.e - 2)), wrap (a.e + b.e - 2 - (i1.b + i2.b))) := by
  rw [boundsV, boundsPlain_eq ha hb]
  unfold Small at *
  rw [wrap_of_nonneg (x := i1.e + i2.e - 2) (by omega) (by omega),
    wrap_of_nonneg (x := i1.b + i2.b) (by omega) (by omega)]

section general
variable {σ : Type} [DecidableEq σ] (sp : List σ) (r1 r2 prod : σ → Ival) (v1 v2 i1 i2 pv : Ival)

/-- A cluster contains a possible result of the reaction: sizes can be chosen in both reactants such that on each axis the sum is in the product, interstitials cancelling vacancies. -/
def ReachGeneral : Prop :=
  ∃ (a b : σ → ℤ) (av bv ai bi : ℤ), (∀ l ∈ sp, a l ∈ (r1 l).pts ∧ b l ∈ (r2 l).pts ∧ a l + b l ∈ (prod l).pts) ∧
    av ∈ v1.pts ∧ bv ∈ v2.pts ∧ ai ∈ i1.pts ∧ bi ∈ i2.pts ∧ av + bv - ai - bi ∈ pv.pts

/-- **C45** Exactly the clusters containing a reachable composition are selected when no net vacancy number is negative. -/
theorem general_exact_partial (h1 : ∀ l ∈ sp, Small (r1 l)) (h2 : ∀ l ∈ sp, Small (r2 l))
    (h3 : ∀ l ∈ sp, Small (prod l)) (hv1 : Small v1) (hv2 : Small v2) (hi1 : Small i1) (hi2 : Small i2)
    (hpv : Small pv) (hnn : (i1.e - 1) + (i2.e - 1) ≤ v1.b + v2.b) :
    isGood sp r1 r2 prod v1 v2 i1 i2 pv = true ↔ ReachGeneral sp r1 r2 prod v1 v2 i1 i2 pv := by
  have hbV : boundsV v1 v2 i1 i2 = (v1.b + v2.b - (i1.e + i2.e - 2), v1.e + v2.e - 2 - (i1.b + i2.b)) := by
    rw [boundsV_raw hv1 hv2 hi1 hi2]
    unfold Small at hv1 hv2 hi1 hi2
    rw [wrap_of_nonneg (by omega) (by omega), wrap_of_nonneg (by omega) (by omega)]
  have hV : axisGood pv (boundsV v1 v2 i1 i2) = true ↔ ∃ av bv ai bi : ℤ, av ∈ v1.pts ∧ bv ∈ v2.pts ∧
      ai ∈ i1.pts ∧ bi ∈ i2.pts ∧ av + bv - ai - bi ∈ pv.pts := by
    rw [hbV, axisGood_iff _ _ hpv.2.1 (by unfold Small at *; dsimp only; omega)]
    unfold Small at *
    constructor
    · rintro ⟨x, hx, hlo, hhi⟩
      dsimp only at hlo hhi
      have hs : ∃ s : ℤ, (v1.b + v2.b ≤ s ∧ s ≤ v1.e + v2.e - 2) ∧ (i1.b + i2.b ≤ s - x ∧ s - x ≤ i1.e + i2.e - 2) :=
        ⟨max (v1.b + v2.b) (x + (i1.b + i2.b)), by omega, by omega⟩
      obtain ⟨s, hs1, hs2⟩ := hs
      obtain ⟨av, hav, bv, hbv, e1⟩ := (reach_sum v1 v2 hv1.2.1 hv2.2.1 s).mp hs1
      obtain ⟨ai, hai, bi, hbi, e2⟩ := (reach_sum i1 i2 hi1.2.1 hi2.2.1 (s - x)).mp hs2
      refine ⟨av, bv, ai, bi, hav, hbv, hai, hbi, ?_⟩
      have : av + bv - ai - bi = x := by omega
      rw [this]; exact hx
    · rintro ⟨av, bv, ai, bi, hav, hbv, hai, hbi, hp⟩
      rw [mem_pts] at hav hbv hai hbi
      exact ⟨_, hp, by dsimp only; omega, by dsimp only; omega⟩
  have hP : ∀ l ∈ sp, (axisGood (prod l) (boundsPlain (r1 l) (r2 l)) = true ↔
      ∃ m n : ℤ, m ∈ (r1 l).pts ∧ n ∈ (r2 l).pts ∧ m + n ∈ (prod l).pts) := by
    intro l hl
    have a1 := h1 l hl
    have a2 := h2 l hl
    have a3 := h3 l hl
    rw [boundsPlain_eq a1 a2, axisGood_iff _ _ a3.2.1 (by unfold Small at *; dsimp only; omega)]
    constructor
    · rintro ⟨x, hx, hlo, hhi⟩
      obtain ⟨m, hm, n, hn, rfl⟩ := (reach_sum (r1 l) (r2 l) a1.2.1 a2.2.1 x).mp ⟨hlo, hhi⟩
      exact ⟨m, n, hm, hn, hx⟩
    · rintro ⟨m, n, hm, hn, h⟩
      exact ⟨m + n, h, (reach_sum (r1 l) (r2 l) a1.2.1 a2.2.1 _).mpr ⟨m, hm, n, hn, rfl⟩⟩
  rw [isGood, Bool.and_eq_true, List.all_eq_true, hV]
  constructor
  · rintro ⟨hall, av, bv, ai, bi, hh⟩
    have hch : ∀ l, ∃ m n : ℤ, l ∈ sp → m ∈ (r1 l).pts ∧ n ∈ (r2 l).pts ∧ m + n ∈ (prod l).pts := by
      intro l
      by_cases hl : l ∈ sp
      · obtain ⟨m, n, h⟩ := (hP l hl).mp (hall l hl)
        exact ⟨m, n, fun _ => h⟩
      · exact ⟨0, 0, fun h => absurd h hl⟩
    choose a b hab using hch
    exact ⟨a, b, av, bv, ai, bi, fun l hl => hab l hl, hh⟩
  · rintro ⟨a, b, av, bv, ai, bi, hall, hh⟩
    exact ⟨fun l hl => (hP l hl).mpr ⟨a l, b l, hall l hl⟩, av, bv, ai, bi, hh⟩

/-- **C45** When every net vacancy number is negative nothing is selected, and rightly so. -/
theorem general_negative_none (hv1 : Small v1) (hv2 : Small v2) (hi1 : Small i1) (hi2 : Small i2)
    (hpv : Small pv) (hneg : (v1.e - 1) + (v2.e - 1) < i1.b + i2.b) :
    isGood sp r1 r2 prod v1 v2 i1 i2 pv = false ∧ ¬ ReachGeneral sp r1 r2 prod v1 v2 i1 i2 pv := by
  constructor
  · rw [isGood, Bool.and_eq_false_iff]
    right
    rw [boundsV_raw hv1 hv2 hi1 hi2]
    unfold Small at *
    rw [wrap_of_neg (x := v1.b + v2.b - (i1.e + i2.e - 2)) (by omega) (by omega),
      wrap_of_neg (x := v1.e + v2.e - 2 - (i1.b + i2.b)) (by omega) (by omega)]
    simp only [axisGood, Bool.and_eq_false_iff, Bool.not_eq_false', decide_eq_true_eq]
    right; omega
  · rintro ⟨a, b, av, bv, ai, bi, _, hav, hbv, hai, hbi, h⟩
    unfold Small at *
    rw [mem_pts] at hav hbv hai hbi h
    omega

/-- **C45 (negation)** When some net vacancy numbers are negative and others are not, the lower bound wraps around and no cluster at all is selected. -/
theorem general_straddle_none (hv1 : Small v1) (hv2 : Small v2) (hi1 : Small i1) (hi2 : Small i2)
    (hpv : Small pv) (hlow : v1.b + v2.b < (i1.e - 1) + (i2.e - 1)) :
    isGood sp r1 r2 prod v1 v2 i1 i2 pv = false := by
  rw [isGood, Bool.and_eq_false_iff]
  right
  rw [boundsV_raw hv1 hv2 hi1 hi2]
  unfold Small at *
  rw [wrap_of_neg (x := v1.b + v2.b - (i1.e + i2.e - 2)) (by omega) (by omega)]
  simp only [axisGood, Bool.and_eq_false_iff, Bool.not_eq_false', decide_eq_true_eq]
  right; omega

end general

/-- **C45 (negation)** A concrete instance: He_1 V_[1,5) + I_2. He_1 V_2 is reachable (from V_4) but is not selected; with I_1 it would be. -/
theorem general_straddle_witness :
    ReachGeneral [()] (fun _ => ⟨1, 2⟩) (fun _ => ⟨0, 1⟩) (fun _ => ⟨1, 2⟩) ⟨1, 5⟩ ⟨0, 1⟩ ⟨0, 1⟩ ⟨2, 3⟩ ⟨2, 3⟩ ∧
    isGood [()] (fun _ => ⟨1, 2⟩) (fun _ => ⟨0, 1⟩) (fun _ => ⟨1, 2⟩) ⟨1, 5⟩ ⟨0, 1⟩ ⟨0, 1⟩ ⟨2, 3⟩ ⟨2, 3⟩ = false ∧
    isGood [()] (fun _ => ⟨1, 2⟩) (fun _ => ⟨0, 1⟩) (fun _ => ⟨1, 2⟩) ⟨1, 5⟩ ⟨0, 1⟩ ⟨0, 1⟩ ⟨1, 2⟩ ⟨2, 3⟩ = true := by
  refine ⟨⟨fun _ => 1, fun _ => 0, 4, 0, 0, 2, ?_, ?_, ?_, ?_, ?_, ?_⟩, by decide +kernel, by decide +kernel⟩
  · intro l _; simp only [mem_pts]; omega
  all_goals simp only [mem_pts]; omega

/-! ### Trap mutation search -/

/-- **C45** When the interstitial sizes present are `1, …, m`, the second search adds as many vacancies as the interstitial cluster it emits has atoms. -/
theorem tmSearch_balanced (findI : ℕ → Option ℕ) (prods : ℕ → List ℕ) (m : ℕ)
    (hI : ∀ n, 1 ≤ n → ((findI n).isSome ↔ n ≤ m)) (fuel : ℕ) (k c : ℕ)
    (h : (k, c) ∈ tmSearch findI prods fuel 1 0) :
    ∃ n, 1 ≤ n ∧ n ≤ fuel ∧ findI n = some c ∧ k ∈ prods n ∧ ∀ n', 1 ≤ n' → n' < n → prods n' = [] := by
  have gen : ∀ fuel n, 1 ≤ n → (∀ n', 1 ≤ n' → n' < n → prods n' = []) →
      (k, c) ∈ tmSearch findI prods fuel n (n - 1) →
      ∃ n', n ≤ n' ∧ n' < n + fuel ∧ findI n' = some c ∧ k ∈ prods n' ∧ ∀ j, 1 ≤ j → j < n' → prods j = [] := by
    intro fuel
    induction fuel with
    | zero => intro n _ _ h; simp [tmSearch] at h
    | succ fuel ih =>
      intro n hn hprev h
      rw [tmSearch] at h
      cases hf : findI n with
      | none =>
        rw [hf] at h
        -- no larger size exists either
        have hm : m < n := by
          by_contra hle
          have := (hI n hn).mpr (by omega)
          rw [hf] at this; simp at this
        have : ∀ fuel n s, m < n → 1 ≤ n → tmSearch findI prods fuel n s = [] := by
          intro fuel
          induction fuel with
          | zero => intros; rfl
          | succ fuel ih =>
            intro n s h1 h2
            have : findI n = none := by
              rw [← Option.not_isSome_iff_eq_none, hI n h2]; omega
            rw [tmSearch, this]
            exact ih (n + 1) s (by omega) (by omega)
        dsimp only at h
        rw [this fuel (n + 1) (n - 1) (by omega) (by omega)] at h
        simp at h
      | some c' =>
        rw [hf] at h
        dsimp only at h
        have e : n - 1 + 1 = n := by omega
        rw [e] at h
        split at h
        · rename_i hemp
          obtain ⟨n', h1, h2, h3⟩ := ih (n + 1) (by omega)
            (fun j hj1 hj2 => by
              by_cases hjn : j = n
              · rw [hjn]; exact hemp
              · exact hprev j hj1 (by omega)) (by rw [show n + 1 - 1 = n by omega]; exact h)
          exact ⟨n', by omega, by omega, h3⟩
        · rw [List.mem_map] at h
          obtain ⟨k', hk', he⟩ := h
          simp only [Prod.mk.injEq] at he
          exact ⟨n, le_refl _, by omega, by rw [hf, he.2], by rw [← he.1]; exact hk', hprev⟩
  obtain ⟨n, h1, h2, h3, h4, h5⟩ := gen fuel 1 (le_refl _) (fun j h1 h2 => by omega) h
  exact ⟨n, h1, by omega, h3, h4, h5⟩

/-- **C45 (negation)** When I_1 is missing but I_2 exists, the search adds one vacancy and emits I_2. -/
theorem tmSearch_unbalanced :
    tmSearch (fun n => if n = 2 then some 7 else none) (fun s => if s = 1 then [3] else []) 6 1 0 = [(3, 7)] := by
  decide +kernel

example : tmSearch (fun n => if n ≤ 6 then some n else none) (fun s => if s = 3 then [9] else []) 6 1 0 = [(9, 3)] := by
  decide +kernel

end Xolotl.Network.Products
