import Verif.Network.Largest
import Verif.Network.Region
import Mathlib.Tactic.SplitIfs
import Mathlib.Tactic.Linarith

/-!
# Theorems about the monitor of the largest cluster (property C102)
-/

set_option linter.unusedSectionVars false

namespace Xolotl.Network.Largest

/-! ## The reduction -/

/-- The invariant of a reduction over `l`: the value is the largest size, and the place has this size. -/
def Inv (sz : ℕ → ℕ) (l : List ℕ) (m : MaxLoc) : Prop :=
  (∀ i ∈ l, sz i ≤ m.val) ∧ (m.loc = none → m.val = 0) ∧ ∀ i, m.loc = some i → i ∈ l ∧ sz i = m.val ∧ 0 < m.val

lemma inv_leaf (sz : ℕ → ℕ) : ∀ (l done : List ℕ) (m : MaxLoc), Inv sz done m → Inv sz (done ++ l) (l.foldl (body sz) m)
  | [], done, m, h => by simpa using h
  | x :: l, done, m, h => by
    have e : done ++ x :: l = (done ++ [x]) ++ l := by simp
    rw [e, List.foldl_cons]
    refine inv_leaf sz l _ _ ?_
    obtain ⟨h1, h2, h3⟩ := h
    unfold body
    split_ifs with c
    · refine ⟨fun i hi => ?_, by simp, fun i hi => ?_⟩
      · rcases List.mem_append.1 hi with hi | hi
        · exact (h1 i hi).trans (le_of_lt c)
        · simp only [List.mem_singleton] at hi; subst hi; exact le_refl _
      · simp only [Option.some.injEq] at hi; subst hi
        exact ⟨by simp, rfl, lt_of_le_of_lt (Nat.zero_le _) c⟩
    · refine ⟨fun i hi => ?_, h2, fun i hi => ?_⟩
      · rcases List.mem_append.1 hi with hi | hi
        · exact h1 i hi
        · simp only [List.mem_singleton] at hi; subst hi; omega
      · exact ⟨List.mem_append_left _ (h3 i hi).1, (h3 i hi).2⟩

lemma inv_run {j : MaxLoc → MaxLoc → MaxLoc} (hj : Join j) (sz : ℕ → ℕ) : ∀ p : Plan, Inv sz p.ids (p.run j sz)
  | .leaf l => by
    have := inv_leaf sz l [] MaxLoc.identity ⟨by simp, fun _ => rfl, fun i hi => by simp [MaxLoc.identity] at hi⟩
    simpa [Plan.run, Plan.ids] using this
  | .join a b => by
    obtain ⟨a1, a2, a3⟩ := inv_run hj sz a
    obtain ⟨b1, b2, b3⟩ := inv_run hj sz b
    rw [Plan.run, Plan.ids]
    rcases hj (a.run j sz) (b.run j sz) with ⟨e, h⟩ | ⟨e, h⟩ <;> rw [e]
    · refine ⟨fun i hi => ?_, a2, fun i hi => ⟨List.mem_append_left _ (a3 i hi).1, (a3 i hi).2⟩⟩
      rcases List.mem_append.1 hi with hi | hi
      · exact a1 i hi
      · exact (b1 i hi).trans h
    · refine ⟨fun i hi => ?_, b2, fun i hi => ⟨List.mem_append_right _ (b3 i hi).1, (b3 i hi).2⟩⟩
      rcases List.mem_append.1 hi with hi | hi
      · exact (a1 i hi).trans h
      · exact b1 i hi

/-- The total amount of the species `l` in a composition. -/
def total (l : List Sp) (x : Sp → ℕ) : ℕ := (l.map x).sum

lemma foldl_size (f : Sp → ℕ) : ∀ (l : List Sp) (s : ℕ), s + total l f < 4294967296 →
    l.foldl (fun s x => (s + f x) % 4294967296) s = s + total l f
  | [], s, _ => by simp [total]
  | x :: l, s, h => by
    have e : total (x :: l) f = f x + total l f := by simp [total]
    rw [e] at h ⊢
    rw [List.foldl_cons, Nat.mod_eq_of_lt (by omega), foldl_size f l _ (by omega)]
    omega

/-- The size of a cluster is the total amount of the counted species in its largest composition, if the sum fits in
32 bits. -/
theorem size_total (k : Kind) (c : Cluster) (h : total (counted k) c.hi < 4294967296) : size k c = total (counted k) c.hi := by
  have := foldl_size c.hi (counted k) 0 (by omega)
  rw [size, this]; omega

example : size .zr ⟨fun _ => 0, fun s => if s = .basal then 40 else 0⟩ = 40 := by decide
/-- A sum that does not fit. -/
theorem size_wraps : size .fe ⟨fun _ => 0, fun s => if s = .i then 0 else 2147483648⟩ = 0 := by decide

/-- The composition is one of those of the cluster. -/
def Cluster.Holds (k : Kind) (c : Cluster) (x : Sp → ℕ) : Prop := ∀ s ∈ species k, c.lo s ≤ x s ∧ x s ≤ c.hi s

lemma counted_sub : ∀ (k : Kind), ∀ s ∈ counted k, s ∈ species k := by
  intro k
  cases k with
  | psi a b => revert a b; decide
  | fe => decide
  | ne => decide
  | zr => decide
  | alloy => decide

lemma total_le {l : List Sp} {x y : Sp → ℕ} (h : ∀ s ∈ l, x s ≤ y s) : total l x ≤ total l y := by
  induction l with
  | nil => simp [total]
  | cons a l ih =>
    have h1 := h a List.mem_cons_self
    have h2 := ih fun s hs => h s (List.mem_cons_of_mem _ hs)
    simp only [total, List.map_cons, List.sum_cons] at *
    omega

/-- **The cluster that is found** (for every schedule of the reduction and every join): it is in the network, and no
composition of any cluster of the network has more particles of the counted species than its largest
composition. -/
theorem largest_counted {j : MaxLoc → MaxLoc → MaxLoc} (hj : Join j) (k : Kind) (cs : List Cluster) (p : Plan)
    (hp : ∀ i, i ∈ p.ids ↔ i < cs.length) (hf : ∀ c ∈ cs, total (counted k) c.hi < 4294967296) {n : ℕ}
    (h : checkLargest j k cs p = some n) :
    ∃ hn : n < cs.length, 0 < total (counted k) cs[n].hi ∧
      ∀ c ∈ cs, ∀ x, c.Holds k x → total (counted k) x ≤ total (counted k) cs[n].hi := by
  obtain ⟨h1, _, h3⟩ := inv_run hj (fun i => ((cs[i]?).map (size k)).getD 0) p
  obtain ⟨h4, h5, h6⟩ := h3 n h
  have hn := (hp n).1 h4
  have e : ∀ i, (hi : i < cs.length) → ((cs[i]?).map (size k)).getD 0 = total (counted k) cs[i].hi := by
    intro i hi
    rw [List.getElem?_eq_getElem hi, Option.map_some, Option.getD_some]
    exact size_total k _ (hf _ (List.getElem_mem hi))
  simp only [e n hn] at h5
  refine ⟨hn, by omega, fun c hc x hx => ?_⟩
  obtain ⟨i, hi, rfl⟩ := List.getElem_of_mem hc
  have h7 := h1 i ((hp i).2 hi)
  simp only [e i hi] at h7
  have h8 : total (counted k) x ≤ total (counted k) cs[i].hi := total_le fun s hs => (hx s (counted_sub k s hs)).2
  omega

/-- No cluster is found exactly if no composition has any of the counted species. -/
theorem none_iff {j : MaxLoc → MaxLoc → MaxLoc} (hj : Join j) (k : Kind) (cs : List Cluster) (p : Plan)
    (hp : ∀ i, i ∈ p.ids ↔ i < cs.length) (hf : ∀ c ∈ cs, total (counted k) c.hi < 4294967296) :
    checkLargest j k cs p = none ↔ ∀ c ∈ cs, ∀ s ∈ counted k, c.hi s = 0 := by
  obtain ⟨h1, h2, h3⟩ := inv_run hj (fun i => ((cs[i]?).map (size k)).getD 0) p
  have z : ∀ (l : List Sp) (f : Sp → ℕ), total l f = 0 ↔ ∀ s ∈ l, f s = 0 := by
    intro l f
    induction l with
    | nil => simp [total]
    | cons a l ih =>
      have e : total (a :: l) f = f a + total l f := by simp [total]
      rw [e, Nat.add_eq_zero_iff, ih, List.forall_mem_cons]
  constructor
  · intro h c hc
    obtain ⟨i, hi, rfl⟩ := List.getElem_of_mem hc
    have h7 := h1 i ((hp i).2 hi)
    rw [h2 h] at h7
    simp only [List.getElem?_eq_getElem hi, Option.map_some, Option.getD_some, size_total k _ (hf _ (List.getElem_mem hi))] at h7
    exact (z _ _).1 (by omega)
  · intro h
    unfold checkLargest
    by_contra hne
    obtain ⟨n, hn⟩ := Option.ne_none_iff_exists'.1 hne
    obtain ⟨h4, h5, h6⟩ := h3 n hn
    have hi := (hp n).1 h4
    simp only [List.getElem?_eq_getElem hi, Option.map_some, Option.getD_some, size_total k _ (hf _ (List.getElem_mem hi))] at h5
    have := (z _ _).2 (h _ (List.getElem_mem hi))
    omega

/-- **The largest cluster** of a network where the other species are not larger: no composition of the network has
more particles, of all species, than the counted ones of the cluster that is found. -/
theorem largest_partial {j : MaxLoc → MaxLoc → MaxLoc} (hj : Join j) (k : Kind) (cs : List Cluster) (p : Plan)
    (hp : ∀ i, i ∈ p.ids ↔ i < cs.length) (hf : ∀ c ∈ cs, total (counted k) c.hi < 4294967296) {n : ℕ}
    (h : checkLargest j k cs p = some n)
    (ho : ∀ c ∈ cs, ∀ x, c.Holds k x → total (counted k) x < total (species k) x →
      ∃ d ∈ cs, ∃ y, d.Holds k y ∧ total (species k) x ≤ total (counted k) y) :
    ∃ hn : n < cs.length, ∀ c ∈ cs, ∀ x, c.Holds k x → total (species k) x ≤ total (counted k) cs[n].hi := by
  obtain ⟨hn, _, h1⟩ := largest_counted hj k cs p hp hf h
  refine ⟨hn, fun c hc x hx => ?_⟩
  rcases Nat.lt_or_ge (total (counted k) x) (total (species k) x) with hlt | hge
  · obtain ⟨d, hd, y, hy, hxy⟩ := ho c hc x hx hlt
    exact hxy.trans (h1 d hd y hy)
  · exact hge.trans (h1 c hc x hx)

/-- In zirconium networks every species is counted: the cluster that is found is a largest one. -/
theorem largest_zr {j : MaxLoc → MaxLoc → MaxLoc} (hj : Join j) (cs : List Cluster) (p : Plan)
    (hp : ∀ i, i ∈ p.ids ↔ i < cs.length) (hf : ∀ c ∈ cs, total (counted .zr) c.hi < 4294967296) {n : ℕ}
    (h : checkLargest j .zr cs p = some n) :
    ∃ hn : n < cs.length, ∀ c ∈ cs, ∀ x, c.Holds .zr x → total (species .zr) x ≤ total (species .zr) cs[n].hi := by
  have e : ∀ x, total (species .zr) x = total (counted .zr) x := by
    intro x; simp [total, species, counted]; omega
  obtain ⟨hn, _, h1⟩ := largest_counted hj .zr cs p hp hf h
  exact ⟨hn, fun c hc x hx => by rw [e, e]; exact h1 c hc x hx⟩

lemma keepLeft_join : Join keepLeft := by
  intro a b
  unfold keepLeft
  split_ifs with h
  · exact Or.inr ⟨rfl, le_of_lt h⟩
  · exact Or.inl ⟨rfl, Nat.not_lt.1 h⟩

/-- A cluster of one composition with one species. -/
def single (s : Sp) (n : ℕ) : Cluster := ⟨fun u => if u = s then n else 0, fun u => if u = s then n else 0⟩

/-- A cluster with two species. -/
def pair (s r : Sp) (m n : ℕ) : Cluster :=
  ⟨fun u => if u = s then m else if u = r then n else 0, fun u => if u = s then m else if u = r then n else 0⟩

/-- The clusters of a small iron network and a schedule of two threads. -/
example : checkLargest keepLeft .fe [single .he 1, pair .he .v 2 1, single .v 2, single .i 1] (.join (.leaf [0, 1]) (.leaf [2, 3])) = some 1 := by
  decide

/-- The hypotheses of `largest_partial` hold for it. -/
example : ∃ hn : 1 < 4, ∀ c ∈ [single .he 1, pair .he .v 2 1, single .v 2, single .i 1], ∀ x, c.Holds .fe x →
    total (species .fe) x ≤ total (counted .fe) [single .he 1, pair .he .v 2 1, single .v 2, single .i 1][1].hi := by
  have hc : checkLargest keepLeft .fe [single .he 1, pair .he .v 2 1, single .v 2, single .i 1] (.join (.leaf [0, 1]) (.leaf [2, 3])) = some 1 := by
    decide
  refine largest_partial keepLeft_join .fe _ (.join (.leaf [0, 1]) (.leaf [2, 3])) ?_ ?_ hc ?_
  · intro i; simp [Plan.ids]; omega
  · decide
  · intro c hc x hx _
    refine ⟨pair .he .v 2 1, by simp, (pair .he .v 2 1).hi, fun s _ => ⟨le_refl _, le_refl _⟩, ?_⟩
    have h1 := (hx .he (by decide)).2
    have h2 := (hx .v (by decide)).2
    have h3 := (hx .i (by decide)).2
    have e : total (counted .fe) (pair .he .v 2 1).hi = 3 := by decide
    rw [e]
    simp only [total, species, List.map_cons, List.map_nil, List.sum_cons, List.sum_nil]
    simp only [List.mem_cons, List.not_mem_nil, or_false] at hc
    rcases hc with rfl | rfl | rfl | rfl <;> simp [single, pair] at h1 h2 h3 <;> omega

/-! ## Species that are not counted -/

/-- **A larger perfect loop of an alloy is not found**: with the largest faulted loop of size 2 and a perfect loop
of size 45, the cluster that is found is the faulted one, whatever the schedule. -/
theorem perfect_ignored {j : MaxLoc → MaxLoc → MaxLoc} (hj : Join j) (p : Plan)
    (hp : ∀ i, i ∈ p.ids ↔ i < [single .perfect 45, single .faulted 2, single .v 1].length) :
    checkLargest j .alloy [single .perfect 45, single .faulted 2, single .v 1] p = some 1 := by
  have hf : ∀ c ∈ [single .perfect 45, single .faulted 2, single .v 1], total (counted .alloy) c.hi < 4294967296 := by decide
  cases h : checkLargest j .alloy [single .perfect 45, single .faulted 2, single .v 1] p with
  | none =>
    have := (none_iff hj .alloy _ p hp hf).1 h (single .faulted 2) (by simp) .faulted (by decide)
    simp [single] at this
  | some n =>
    obtain ⟨hn, h0, _⟩ := largest_counted hj .alloy _ p hp hf h
    have : n = 0 ∨ n = 1 ∨ n = 2 := by simp at hn; omega
    rcases this with rfl | rfl | rfl
    · exact absurd h0 (by change ¬ 0 < total (counted .alloy) (single .perfect 45).hi; decide)
    · rfl
    · exact absurd h0 (by change ¬ 0 < total (counted .alloy) (single .v 1).hi; decide)

/-- The statement that the cluster that is found is a largest one is false for alloys, and for tungsten, iron and
fuel networks with larger interstitials. -/
theorem largest_false :
    (∃ cs n, checkLargest keepLeft .alloy cs (.leaf (List.range cs.length)) = some n ∧
      ∃ c ∈ cs, ∃ hn : n < cs.length, total (species .alloy) cs[n].hi < total (species .alloy) c.hi) ∧
    (∃ cs n, checkLargest keepLeft (.psi false false) cs (.leaf (List.range cs.length)) = some n ∧
      ∃ c ∈ cs, ∃ hn : n < cs.length, total (species (.psi false false)) cs[n].hi < total (species (.psi false false)) c.hi) ∧
    (∃ cs n, checkLargest keepLeft .fe cs (.leaf (List.range cs.length)) = some n ∧
      ∃ c ∈ cs, ∃ hn : n < cs.length, total (species .fe) cs[n].hi < total (species .fe) c.hi) ∧
    (∃ cs n, checkLargest keepLeft .ne cs (.leaf (List.range cs.length)) = some n ∧
      ∃ c ∈ cs, ∃ hn : n < cs.length, total (species .ne) cs[n].hi < total (species .ne) c.hi) := by
  refine ⟨⟨[single .perfect 45, single .faulted 2], 1, by decide, single .perfect 45, by simp, by decide, by decide⟩,
    ⟨[single .i 6, single .he 2], 1, by decide, single .i 6, by simp, by decide, by decide⟩,
    ⟨[single .i 6, single .he 2], 1, by decide, single .i 6, by simp, by decide, by decide⟩,
    ⟨[single .i 6, single .xe 2], 1, by decide, single .i 6, by simp, by decide, by decide⟩⟩

/-- **No cluster at all**: an alloy network of point defects and perfect loops. -/
theorem none_perfect {j : MaxLoc → MaxLoc → MaxLoc} (hj : Join j) (p : Plan)
    (hp : ∀ i, i ∈ p.ids ↔ i < [single .perfect 45, single .i 1, single .v 1].length) :
    checkLargest j .alloy [single .perfect 45, single .i 1, single .v 1] p = none :=
  (none_iff hj .alloy _ p hp (by decide)).2 (by decide)

/-! ## Ties -/

/-- **In one thread the first of the largest clusters is found**: every cluster before it is smaller. -/
theorem serial_first (sz : ℕ → ℕ) (n i : ℕ) (h : (Plan.run keepLeft sz (.leaf (List.range n))).loc = some i) :
    i < n ∧ (∀ k < n, sz k ≤ sz i) ∧ ∀ k < i, sz k < sz i := by
  have key : ∀ m, ∀ i, ((List.range m).foldl (body sz) MaxLoc.identity).loc = some i → ∀ k < i, sz k < sz i := by
    intro m
    induction m with
    | zero => intro i h; simp [MaxLoc.identity] at h
    | succ m ih =>
      intro i h k hk
      rw [List.range_succ, List.foldl_append, List.foldl_cons, List.foldl_nil] at h
      have inv := inv_run keepLeft_join sz (.leaf (List.range m))
      simp only [Plan.run, Plan.ids] at inv
      unfold body at h
      split_ifs at h with c
      · simp only [Option.some.injEq] at h; subst h
        exact lt_of_le_of_lt (inv.1 k (List.mem_range.2 hk)) c
      · exact ih i h k hk
  obtain ⟨h1, _, h3⟩ := inv_run keepLeft_join sz (.leaf (List.range n))
  obtain ⟨h4, h5, _⟩ := h3 i h
  refine ⟨List.mem_range.1 h4, fun k hk => ?_, key n i h⟩
  rw [h5]; exact h1 k (List.mem_range.2 hk)

example : (Plan.run keepLeft (fun i => [1, 3, 2, 3].getD i 0) (.leaf (List.range 4))).loc = some 1 := by decide

/-- **With several threads any of the largest clusters can be found**: every one of them is the result of some
schedule that visits the clusters once each (with the join that only moves for a larger value). -/
theorem any_of_the_largest (sz : ℕ → ℕ) (n i : ℕ) (hi : i < n) (h0 : 0 < sz i) (hm : ∀ k < n, sz k ≤ sz i) :
    ∃ p : Plan, p.ids.Perm (List.range n) ∧ (p.run keepLeft sz).loc = some i := by
  refine ⟨.join (.leaf [i]) (.leaf ((List.range n).erase i)), ?_, ?_⟩
  · simpa [Plan.ids] using (List.perm_cons_erase (List.mem_range.2 hi)).symm
  · have inv := inv_run keepLeft_join sz (.leaf ((List.range n).erase i))
    have e : Plan.run keepLeft sz (.leaf [i]) = ⟨sz i, some i⟩ := by
      simp [Plan.run, body, MaxLoc.identity, h0]
    rw [Plan.run, e]
    generalize hr : Plan.run keepLeft sz (.leaf ((List.range n).erase i)) = r at inv
    have hv : r.val ≤ sz i := by
      cases hl : r.loc with
      | none => rw [inv.2.1 hl]; exact Nat.zero_le _
      | some k =>
        have h2 := inv.2.2 k hl
        rw [← h2.2.1]
        exact hm k (List.mem_range.1 (List.mem_of_mem_erase h2.1))
    unfold keepLeft
    rw [if_neg (by simpa using hv)]

example : ∃ p : Plan, p.ids.Perm (List.range 4) ∧ (p.run keepLeft (fun i => [1, 3, 2, 3].getD i 0)).loc = some 3 :=
  any_of_the_largest _ 4 3 (by decide) (by decide) (by decide)

/-! ## The monitor -/

section monitor

variable {K : Type*} [LinearOrder K]

lemma mem_points (xs xm ys ym zs zm : ℕ) (x : ℕ × ℕ × ℕ) : x ∈ points xs xm ys ym zs zm ↔
    (xs ≤ x.1 ∧ x.1 < xs + xm) ∧ (ys ≤ x.2.1 ∧ x.2.1 < ys + ym) ∧ (zs ≤ x.2.2 ∧ x.2.2 < zs + zm) := by
  obtain ⟨i, j, k⟩ := x
  simp only [points, List.mem_flatMap, List.mem_map, List.mem_range'_1, Prod.mk.injEq]
  constructor
  · rintro ⟨k', hk, j', hj, i', hi, rfl, rfl, rfl⟩
    exact ⟨hi, hj, hk⟩
  · rintro ⟨hi, hj, hk⟩
    exact ⟨k, hk, j, hj, i, hi, rfl, rfl, rfl⟩

lemma scan_some (n : ℕ) (thr : K) (c : ℕ × ℕ × ℕ → ℕ → K) (l : List (ℕ × ℕ × ℕ)) :
    scan (some n) thr c l = if ∃ x ∈ l, thr < c x n then .stops else .goes_on := by
  induction l with
  | nil => simp [scan]
  | cons a l ih =>
    rw [scan]
    by_cases h : c a n > thr
    · have : ∃ x ∈ a :: l, thr < c x n := ⟨a, List.mem_cons_self, h⟩
      simp only [h, if_true, if_pos this]
    · have e : (∃ x ∈ a :: l, thr < c x n) ↔ ∃ x ∈ l, thr < c x n := by
        constructor
        · rintro ⟨x, hx, hc⟩
          rcases List.mem_cons.1 hx with rfl | hx
          · exact absurd hc h
          · exact ⟨x, hx, hc⟩
        · rintro ⟨x, hx, hc⟩; exact ⟨x, List.mem_cons_of_mem _ hx, hc⟩
      simp only [h, if_false, ih, e]

/-- **The monitor stops the run exactly if** the concentration of the cluster is larger than the threshold at some
point of the rank. -/
theorem stops_iff (n : ℕ) (thr : K) (c : ℕ × ℕ × ℕ → ℕ → K) (xs xm ys ym zs zm : ℕ) :
    scan (some n) thr c (points xs xm ys ym zs zm) = .stops ↔
      ∃ i j k, (xs ≤ i ∧ i < xs + xm) ∧ (ys ≤ j ∧ j < ys + ym) ∧ (zs ≤ k ∧ k < zs + zm) ∧ thr < c (i, j, k) n := by
  rw [scan_some]
  constructor
  · intro h
    by_contra hne
    rw [if_neg] at h
    · exact absurd h (by decide)
    · rintro ⟨⟨i, j, k⟩, hx, hc⟩
      obtain ⟨h1, h2, h3⟩ := (mem_points xs xm ys ym zs zm (i, j, k)).1 hx
      exact hne ⟨i, j, k, h1, h2, h3, hc⟩
  · rintro ⟨i, j, k, h1, h2, h3, hc⟩
    rw [if_pos ⟨(i, j, k), (mem_points ..).2 ⟨h1, h2, h3⟩, hc⟩]

/-- Otherwise it goes on. -/
theorem goes_on_iff (n : ℕ) (thr : K) (c : ℕ × ℕ × ℕ → ℕ → K) (xs xm ys ym zs zm : ℕ) :
    scan (some n) thr c (points xs xm ys ym zs zm) = .goes_on ↔
      ∀ i j k, (xs ≤ i ∧ i < xs + xm) → (ys ≤ j ∧ j < ys + ym) → (zs ≤ k ∧ k < zs + zm) → c (i, j, k) n ≤ thr := by
  have h := stops_iff n thr c xs xm ys ym zs zm
  rw [scan_some] at h ⊢
  constructor
  · intro hg i j k h1 h2 h3
    by_contra hc
    rw [h.2 ⟨i, j, k, h1, h2, h3, not_le.1 hc⟩] at hg
    exact absurd hg (by decide)
  · intro hall
    split_ifs with hc
    · rw [if_pos hc] at h
      obtain ⟨i, j, k, h1, h2, h3, h4⟩ := h.1 rfl
      exact absurd h4 (not_lt.2 (hall i j k h1 h2 h3))
    · rfl

/-- **Some rank stops the run exactly if** the concentration is larger than the threshold at some point of the grid,
for ranks that hold every point of the grid. -/
theorem some_rank_stops (n : ℕ) (thr : K) (c : ℕ × ℕ × ℕ → ℕ → K) (R : List (ℕ × ℕ × ℕ × ℕ × ℕ × ℕ)) (G : ℕ × ℕ × ℕ → Prop)
    (hR : ∀ x, G x ↔ ∃ r ∈ R, x ∈ points r.1 r.2.1 r.2.2.1 r.2.2.2.1 r.2.2.2.2.1 r.2.2.2.2.2) :
    (∃ r ∈ R, scan (some n) thr c (points r.1 r.2.1 r.2.2.1 r.2.2.2.1 r.2.2.2.2.1 r.2.2.2.2.2) = .stops) ↔
      ∃ x, G x ∧ thr < c x n := by
  constructor
  · rintro ⟨r, hr, h⟩
    rw [scan_some] at h
    split_ifs at h with hc
    obtain ⟨x, hx, hc⟩ := hc
    exact ⟨x, (hR x).2 ⟨r, hr, hx⟩, hc⟩
  · rintro ⟨x, hx, hc⟩
    obtain ⟨r, hr, hx⟩ := (hR x).1 hx
    exact ⟨r, hr, by rw [scan_some, if_pos ⟨x, hx, hc⟩]⟩

/-- A line of five points on two ranks, with the cluster over the threshold at the last point: the second rank
stops. -/
example : (scan (some 1) (1 : ℚ) (fun x n => if x.1 = 4 ∧ n = 1 then 2 else 0) (points 0 3 0 1 0 1),
    scan (some 1) (1 : ℚ) (fun x n => if x.1 = 4 ∧ n = 1 then 2 else 0) (points 3 2 0 1 0 1)) = (.goes_on, .stops) := by
  decide +kernel

/-- Without a cluster every rank with a point reads outside of the concentrations. -/
theorem none_undefined (thr : K) (c : ℕ × ℕ × ℕ → ℕ → K) (xs xm ys ym zs zm : ℕ) (h1 : 0 < xm) (h2 : 0 < ym) (h3 : 0 < zm) :
    scan none thr c (points xs xm ys ym zs zm) = .undefined := by
  have hm : (xs, ys, zs) ∈ points xs xm ys ym zs zm := (mem_points ..).2 ⟨⟨le_refl _, by simp; omega⟩, ⟨le_refl _, by simp; omega⟩, ⟨le_refl _, by simp; omega⟩⟩
  cases hp : points xs xm ys ym zs zm with
  | nil => rw [hp] at hm; simp at hm
  | cons a l => rw [scan]

example : scan none (1 : ℚ) (fun _ _ => 0) (points 0 3 0 1 0 1) = .undefined := none_undefined _ _ _ _ _ _ _ _ (by decide) (by decide) (by decide)

/-- **The run of an alloy of point defects and perfect loops** reads outside at the first call. -/
theorem alloy_perfect_undefined {j : MaxLoc → MaxLoc → MaxLoc} (hj : Join j) (p : Plan)
    (hp : ∀ i, i ∈ p.ids ↔ i < [single .perfect 45, single .i 1, single .v 1].length) (thr : K) (c : ℕ × ℕ × ℕ → ℕ → K) :
    scan (checkLargest j .alloy [single .perfect 45, single .i 1, single .v 1] p) thr c (points 0 1 0 1 0 1) = .undefined := by
  rw [none_perfect hj p hp]
  exact none_undefined _ _ _ _ _ _ _ _ (by decide) (by decide) (by decide)

end monitor

/-- **Another largest cluster over the threshold is not seen**: the void and the Frank loop of size 10 are both the
largest clusters of the network; in one thread only the first is watched, and the run goes on whatever the
concentration of the second. -/
theorem tie_unseen (q : ℚ) :
    scan (checkLargest keepLeft .alloy [single .void 10, single .frank 10] (.leaf [0, 1])) (1 : ℚ)
      (fun _ n => if n = 1 then q else 0) (points 0 1 0 1 0 1) = .goes_on := by
  have e : checkLargest keepLeft .alloy [single .void 10, single .frank 10] (.leaf [0, 1]) = some 0 := by decide
  rw [e, goes_on_iff]
  intro i j k _ _ _
  simp

/-- The concentration of a composition of a group in the code: the mean and the first moments times the distances to
the middle (`Reaction.tpp`; property C02). -/
def member {K : Type*} [Field K] [LinearOrder K] (I : Sp → Ival) (mean : K) (mom : Sp → K) (l : List Sp) (x : Sp → ℕ) : K :=
  mean + (l.map fun s => mom s * ((x s : K) - (I s).mid)).sum

/-- **The largest composition of a group can be over the threshold without being seen**: what is compared is the
mean of the group.  A group of 1 to 10 xenon atoms with the mean 1/2 and the moment 1/4. -/
theorem group_unseen :
    scan (some 0) (1 : ℚ) (fun _ n => if n = 0 then 1 / 2 else 1 / 4) (points 0 1 0 1 0 1) = .goes_on ∧
      (1 : ℚ) < member (fun _ => ⟨1, 11⟩) (1 / 2) (fun _ => 1 / 4) [.xe] (fun _ => 10) := by
  constructor
  · decide +kernel
  · norm_num [member, Ival.mid]

end Xolotl.Network.Largest
