import Verif.Network.Pairs
import Verif.Network.ProductsProps
import Verif.Network.Select
import Mathlib.Tactic.Ring
import Mathlib.Tactic.Linarith
import Mathlib.Tactic.NormNum

namespace Xolotl.Network.Pairs

open Xolotl.Network Xolotl.Network.Products

/-- **C73** The reactions do not depend on the order in which the two clusters are given. -/
theorem alloy_symm (N : Net AK) (m1 m2 : Bool) (c1 c2 : Cl AK) : alloyPair N m1 m2 c1 c2 = alloyPair N m2 m1 c2 c1 := by
  obtain ⟨k1, r1⟩ := c1
  obtain ⟨k2, r2⟩ := c2
  cases m1 <;> cases m2 <;> cases k1 <;> cases k2 <;>
    simp [alloyPair, on, lo, hi, unit, sizeOf, regOf, only] <;> ring_nf <;> simp [or_comm]

theorem zr_symm (N : Net ZK) (m1 m2 : Bool) (c1 c2 : Cl ZK) : zrPair N m1 m2 c1 c2 = zrPair N m2 m1 c2 c1 := by
  obtain ⟨k1, r1⟩ := c1
  obtain ⟨k2, r2⟩ := c2
  cases m1 <;> cases m2 <;> cases k1 <;> cases k2 <;>
    simp [zrPair, on, lo, hi, unit, only] <;> ring_nf <;> simp [Bool.or_comm]

/-! ### Alloys: the products of every pair -/

/-- Vacancy-like kinds count positively, interstitial-like kinds negatively. -/
def vac : AK → Bool
  | .v | .void | .faulted => true
  | .i | .perfect | .frank => false

/-- The signed number of vacancies of `n` units of a kind. -/
def sg (s : AK) (n : ℤ) : ℤ := if vac s then n else -n

/-- The kinds a pair can turn into, as the comments of the code announce them (AlloyReactionNetwork.tpp:86, 121, 147, 174, 212, 264, 316, 347, 371, 396, 432, 472, 536, 561, 624). -/
def outcomes : AK → AK → List AK
  | .v, .v => [.v, .void, .faulted]
  | .v, .void | .void, .v => [.void]
  | .v, .faulted | .faulted, .v => [.faulted]
  | .v, .i | .i, .v => [.v, .i]
  | .v, .perfect | .perfect, .v => [.perfect, .i, .v]
  | .v, .frank | .frank, .v => [.frank, .i, .v]
  | .i, .i => [.i, .frank, .perfect]
  | .i, .frank | .frank, .i => [.frank]
  | .i, .perfect | .perfect, .i => [.perfect]
  | .i, .faulted | .faulted, .i => [.faulted, .v]
  | .i, .void | .void, .i => [.void, .v]
  | .perfect, .faulted | .faulted, .perfect => [.faulted, .v, .i, .perfect]
  | .perfect, .frank | .frank, .perfect => [.frank]
  | .perfect, .void | .void, .perfect => [.void, .v, .i, .perfect]
  | .perfect, .perfect => [.perfect]
  | _, _ => []

/-- Some member of the first cluster and some member of the second one make a member of the cluster `k`, of an announced kind. -/
def Reach (N : Net AK) (c1 c2 : Cl AK) (k : ℕ) : Prop :=
  ∃ a ∈ c1.reg.pts, ∃ b ∈ c2.reg.pts, ∃ s ∈ outcomes c1.kind c2.kind, ∃ n, 0 < n ∧ sg s n = sg c1.kind a + sg c2.kind b ∧ (N.t s).find n = some k

/-- The layout of the clusters of an alloy network: sizes are positive, vacancies and interstitials are single clusters, and the loops and voids of more than one size lie above them. -/
structure Layout (N : Net AK) : Prop where
  pos : ∀ s x k, (N.t s).find x = some k → 0 < x
  ip : LoopLayout (N.t .i) (N.t .perfect)
  ifr : LoopLayout (N.t .i) (N.t .frank)
  vf : LoopLayout (N.t .v) (N.t .faulted)
  vv : LoopLayout (N.t .v) (N.t .void)

/-- A cluster of an alloy network. -/
structure Ok (c : Cl AK) : Prop where
  pos : 0 < c.reg.b
  lt : c.reg.b < c.reg.e
  single : c.kind = .v ∨ c.kind = .i → c.reg.e = c.reg.b + 1

theorem vac_v : vac .v = true := rfl

theorem vac_i : vac .i = false := rfl

theorem net_disj {κ : Type} (N : Net κ) {s s' : κ} (h : s ≠ s') : Disjoint (N.t s).ids (N.t s').ids := by
  rw [Set.disjoint_left]
  intro k h1 h2
  exact h ((N.spec s k h1).symm.trans (N.spec s' k h2))

theorem find_kind {κ : Type} (N : Net κ) {s : κ} {x : ℤ} {k : ℕ} (h : (N.t s).find x = some k) : N.kindOf k = s :=
  N.spec s k (find_id _ h)

variable {N : Net AK} {m1 m2 : Bool} {a b : Ival}

theorem grow_sum (t : Tiling) {a b : Ival} {x y : ℤ} (hx : x = a.b + b.b) (hy : y = a.e + b.e - 2) : grow t x y = sameKind t a b := by
  subst hx hy; rfl

theorem three_count (N : Net AK) (s1 s2 s3 : AK) (h12 : s1 ≠ s2) (h13 : s1 ≠ s3) (h23 : s2 ≠ s3) (x : ℤ) (k : ℕ) :
    (([(N.t s1).find x, (N.t s2).find x, (N.t s3).find x].filterMap id).count k) =
      if (N.t s1).find x = some k ∨ (N.t s2).find x = some k ∨ (N.t s3).find x = some k then 1 else 0 := by
  have key : ∀ {s s'} {k}, s ≠ s' → (N.t s).find x = some k → (N.t s').find x = some k → False :=
    fun h h1 h2 => h ((find_kind N h1).symm.trans (find_kind N h2))
  by_cases h1 : (N.t s1).find x = some k
  · have h2 := fun h => key h12 h1 h
    have h3 := fun h => key h13 h1 h
    rcases e2 : (N.t s2).find x with _ | k2 <;> rcases e3 : (N.t s3).find x with _ | k3 <;> rw [h1] <;>
      simp [List.count_cons] <;> grind
  · by_cases h2 : (N.t s2).find x = some k
    · have h3 := fun h => key h23 h2 h
      rcases e1 : (N.t s1).find x with _ | k2 <;> rcases e3 : (N.t s3).find x with _ | k3 <;> rw [h2] <;>
        simp [List.count_cons] <;> grind
    · rcases e1 : (N.t s1).find x with _ | k1 <;> rcases e2 : (N.t s2).find x with _ | k2 <;> rcases e3 : (N.t s3).find x with _ | k3 <;>
        simp [List.count_cons] <;> grind

theorem count_map_some (l : List ℕ) (k : ℕ) : (l.map some).count (some k) = l.count k := by
  rw [List.count_map_of_injective _ _ (Option.some_injective _)]

/-- Two clusters whose sizes add up. -/
theorem ex_sum (hN : Layout N) (s1 s2 s : AK) (ha : a.b < a.e) (hb : b.b < b.e) (ho : outcomes s1 s2 = [s]) (h1 : vac s1 = vac s) (h2 : vac s2 = vac s)
    (k : ℕ) [Decidable (Reach N ⟨s1, a⟩ ⟨s2, b⟩ k)] :
    (sameKind (N.t s) a b).count (some k) = if Reach N ⟨s1, a⟩ ⟨s2, b⟩ k then 1 else 0 := by
  classical
  rw [sameKind_exact _ _ _ ha hb]
  refine if_congr ?_ rfl rfl
  simp only [Reach, ho, List.mem_singleton, exists_eq_left, sg, h1, h2]
  constructor
  · rintro ⟨m, hm, n, hn, h⟩
    refine ⟨m, hm, n, hn, m + n, hN.pos _ _ _ h, ?_, h⟩
    split <;> ring
  · rintro ⟨m, hm, n, hn, x, _, e, h⟩
    refine ⟨m, hm, n, hn, ?_⟩
    have : m + n = x := by split at e <;> omega
    rwa [this]

theorem pts_single {a : Ival} (h : a.e = a.b + 1) {x : ℤ} : x ∈ a.pts ↔ x = a.b := by
  rw [mem_pts]; omega

/-- A vacancy cluster and an interstitial loop. -/
theorem ex_VL (hN : Layout N) (s : AK) (hl : LoopLayout (N.t .i) (N.t s)) (hs : vac s = false) (hi : s ≠ .i) (ha : a.e = a.b + 1)
    (ho : outcomes .v s = [s, .i, .v]) (k : ℕ) [Decidable (Reach N ⟨.v, a⟩ ⟨s, b⟩ k)] :
    (alloyVL (N.t .i) (N.t s) (N.t .v) a.b b).count (some k) = if Reach N ⟨.v, a⟩ ⟨s, b⟩ k then 1 else 0 := by
  classical
  have hv : AK.v ≠ s := by rintro rfl; simp [vac] at hs
  rw [alloyVL_exact _ _ _ hl (net_disj N (by decide)) (net_disj N hv)]
  refine if_congr ?_ rfl rfl
  simp only [Reach, ho, List.mem_cons, List.not_mem_nil, or_false, pts_single ha, exists_eq_left, exists_eq_or_imp, sg, vac_v, vac_i, hs, if_true, Bool.false_eq_true, if_false]
  constructor
  · rintro ⟨x, hx, ⟨h1, h2 | h2⟩ | ⟨h1, h2⟩⟩
    · exact ⟨x, hx, .inr (.inl ⟨x - a.b, by omega, by omega, h2⟩)⟩
    · exact ⟨x, hx, .inl ⟨x - a.b, by omega, by omega, h2⟩⟩
    · exact ⟨x, hx, .inr (.inr ⟨a.b - x, by omega, by omega, h2⟩)⟩
  · rintro ⟨x, hx, ⟨n, h0, h1, h2⟩ | ⟨n, h0, h1, h2⟩ | ⟨n, h0, h1, h2⟩⟩
    · obtain rfl : n = x - a.b := by omega
      exact ⟨x, hx, .inl ⟨by omega, .inr h2⟩⟩
    · obtain rfl : n = x - a.b := by omega
      exact ⟨x, hx, .inl ⟨by omega, .inl h2⟩⟩
    · obtain rfl : n = a.b - x := by omega
      exact ⟨x, hx, .inr ⟨by omega, h2⟩⟩

/-- An interstitial cluster and a vacancy loop or void. -/
theorem ex_IL (hN : Layout N) (s : AK) (hl : LoopLayout (N.t .v) (N.t s)) (hs : vac s = true) (ha : a.e = a.b + 1)
    (ho : outcomes .i s = [s, .v]) (k : ℕ) [Decidable (Reach N ⟨.i, a⟩ ⟨s, b⟩ k)] :
    (alloyIL (N.t .v) (N.t s) a.b b).count (some k) = if Reach N ⟨.i, a⟩ ⟨s, b⟩ k then 1 else 0 := by
  classical
  rw [alloyIL_exact _ _ hl]
  refine if_congr ?_ rfl rfl
  simp only [Reach, ho, List.mem_cons, List.not_mem_nil, or_false, pts_single ha, exists_eq_left, exists_eq_or_imp, sg, vac_v, vac_i, hs, if_true, Bool.false_eq_true, if_false]
  constructor
  · rintro ⟨x, hx, h1, h2 | h2⟩
    · exact ⟨x, hx, .inr ⟨x - a.b, by omega, by omega, h2⟩⟩
    · exact ⟨x, hx, .inl ⟨x - a.b, by omega, by omega, h2⟩⟩
  · rintro ⟨x, hx, ⟨n, h0, h1, h2⟩ | ⟨n, h0, h1, h2⟩⟩
    · obtain rfl : n = x - a.b := by omega
      exact ⟨x, hx, by omega, .inr h2⟩
    · obtain rfl : n = x - a.b := by omega
      exact ⟨x, hx, by omega, .inl h2⟩

theorem prevLoop_one (v : Visit) (k : ℕ) : (prevLoop none [v]).count (some k) = if v = .hit k then 1 else 0 := by
  cases v <;> simp [prevLoop, List.count_cons]

/-- A vacancy cluster and an interstitial cluster. -/
theorem ex_IV (hN : Layout N) (ha : a.e = a.b + 1) (hb : b.e = b.b + 1) (k : ℕ) [Decidable (Reach N ⟨.v, a⟩ ⟨.i, b⟩ k)] :
    (prevLoop none [visitIV (N.t .v) (N.t .i) (a.b - b.b)]).count (some k) = if Reach N ⟨.v, a⟩ ⟨.i, b⟩ k then 1 else 0 := by
  rw [prevLoop_one]
  refine if_congr ?_ rfl rfl
  rw [visitIV_hit]
  simp only [Reach, outcomes, List.mem_cons, List.not_mem_nil, or_false, pts_single ha, pts_single hb, exists_eq_left, exists_eq_or_imp, sg, vac_v, vac_i, if_true, Bool.false_eq_true, if_false]
  constructor
  · rintro (⟨h1, h2⟩ | ⟨h1, h2⟩)
    · exact .inl ⟨a.b - b.b, by omega, by omega, h2⟩
    · exact .inr ⟨-(a.b - b.b), by omega, by omega, h2⟩
  · rintro (⟨n, h0, h1, h2⟩ | ⟨n, h0, h1, h2⟩)
    · obtain rfl : n = a.b - b.b := by omega
      exact .inl ⟨h0, h2⟩
    · obtain rfl : n = -(a.b - b.b) := by omega
      exact .inr ⟨by omega, h2⟩

/-- Two vacancy clusters or two interstitial clusters. -/
theorem ex_three (hN : Layout N) (s s2 s3 : AK) (h12 : s ≠ s2) (h13 : s ≠ s3) (h23 : s2 ≠ s3) (ho : outcomes s s = [s, s2, s3])
    (h2 : vac s2 = vac s) (h3 : vac s3 = vac s) (ha : a.e = a.b + 1) (hb : b.e = b.b + 1) (k : ℕ) [Decidable (Reach N ⟨s, a⟩ ⟨s, b⟩ k)] :
    ((([(N.t s).find (a.b + b.b), (N.t s2).find (a.b + b.b), (N.t s3).find (a.b + b.b)].filterMap id).map some).count (some k)) =
      if Reach N ⟨s, a⟩ ⟨s, b⟩ k then 1 else 0 := by
  rw [count_map_some, three_count N s s2 s3 h12 h13 h23]
  refine if_congr ?_ rfl rfl
  simp only [Reach, ho, List.mem_cons, List.not_mem_nil, or_false, pts_single ha, pts_single hb, exists_eq_left, exists_eq_or_imp, sg, h2, h3]
  have e : ∀ n : ℤ, ((if vac s = true then n else -n) = (if vac s = true then a.b else -a.b) + (if vac s = true then b.b else -b.b)) ↔ n = a.b + b.b := by
    intro n; split <;> omega
  simp only [e]
  constructor
  · rintro (h | h | h)
    · exact .inl ⟨_, hN.pos _ _ _ h, rfl, h⟩
    · exact .inr (.inl ⟨_, hN.pos _ _ _ h, rfl, h⟩)
    · exact .inr (.inr ⟨_, hN.pos _ _ _ h, rfl, h⟩)
  · rintro (⟨n, _, rfl, h⟩ | ⟨n, _, rfl, h⟩ | ⟨n, _, rfl, h⟩)
    · exact .inl h
    · exact .inr (.inl h)
    · exact .inr (.inr h)

theorem outcomes_comm (s s' : AK) : outcomes s s' = outcomes s' s := by cases s <;> cases s' <;> rfl

theorem reach_comm (N : Net AK) (c1 c2 : Cl AK) (k : ℕ) : Reach N c1 c2 k ↔ Reach N c2 c1 k := by
  constructor
  · rintro ⟨a, ha, b, hb, s, hs, n, h0, h1, h2⟩
    exact ⟨b, hb, a, ha, s, by rwa [outcomes_comm], n, h0, by omega, h2⟩
  · rintro ⟨a, ha, b, hb, s, hs, n, h0, h1, h2⟩
    exact ⟨b, hb, a, ha, s, by rwa [outcomes_comm], n, h0, by omega, h2⟩

/-- The order of the kinds in which the cases are proved. -/
def rank : AK → ℕ
  | .v => 0 | .i => 1 | .perfect => 2 | .void => 3 | .faulted => 4 | .frank => 5

theorem alloy_exact_ordered (hN : Layout N) (hm : m1 = true ∨ m2 = true) (c1 c2 : Cl AK) (h1 : Ok c1) (h2 : Ok c2) (hr : rank c1.kind ≤ rank c2.kind)
    (hp : ¬ on c1 c2 .perfect .faulted) (hp' : ¬ on c1 c2 .void .perfect) (k : ℕ) [Decidable (Reach N c1 c2 k)] :
    (alloyPair N m1 m2 c1 c2).prods.count (some k) = if Reach N c1 c2 k then 1 else 0 := by
  obtain ⟨k1, a⟩ := c1
  obtain ⟨k2, b⟩ := c2
  have hm' : ¬ (m1 = false ∧ m2 = false) := by rcases hm with rfl | rfl <;> simp
  have ha := h1.lt
  have hb := h2.lt
  have sa := h1.single
  have sb := h2.single
  dsimp only at ha hb sa sb
  rw [alloyPair, if_neg hm']
  cases k1 <;> cases k2 <;> (try (exfalso; simp [rank] at hr; done)) <;> (try (exfalso; revert hp hp'; simp [on]; done)) <;>
    simp only [on, lo, hi, unit, sizeOf, regOf, only, reduceCtorEq, and_self, and_true, and_false, or_true, or_false, if_true, if_false, and_false, add_zero, zero_add]
  case v.v => exact ex_three hN .v .void .faulted (by decide) (by decide) (by decide) rfl rfl rfl (sa (.inl rfl)) (sb (.inl rfl)) k
  case v.void =>
    rw [grow_sum (a := a) (b := b) _ rfl (by have := sa (.inl rfl); omega)]
    exact ex_sum hN .v .void .void ha hb rfl rfl rfl k
  case v.faulted =>
    rw [grow_sum (a := a) (b := b) _ rfl (by have := sa (.inl rfl); omega)]
    exact ex_sum hN .v .faulted .faulted ha hb rfl rfl rfl k
  case v.i => exact ex_IV hN (sa (.inl rfl)) (sb (.inr rfl)) k
  case v.perfect => exact ex_VL hN .perfect hN.ip rfl (by decide) (sa (.inl rfl)) rfl k
  case v.frank => exact ex_VL hN .frank hN.ifr rfl (by decide) (sa (.inl rfl)) rfl k
  case i.i => exact ex_three hN .i .frank .perfect (by decide) (by decide) (by decide) rfl rfl rfl (sa (.inr rfl)) (sb (.inr rfl)) k
  case i.frank =>
    rw [grow_sum (a := a) (b := b) _ rfl (by have := sa (.inr rfl); omega)]
    exact ex_sum hN .i .frank .frank ha hb rfl rfl rfl k
  case i.perfect =>
    rw [grow_sum (a := a) (b := b) _ rfl (by have := sa (.inr rfl); omega)]
    exact ex_sum hN .i .perfect .perfect ha hb rfl rfl rfl k
  case i.faulted => exact ex_IL hN .faulted hN.vf rfl (sa (.inr rfl)) rfl k
  case i.void => exact ex_IL hN .void hN.vv rfl (sa (.inr rfl)) rfl k
  case perfect.frank =>
    rw [grow_sum (a := a) (b := b) _ rfl (by omega)]
    exact ex_sum hN .perfect .frank .frank ha hb rfl rfl rfl k
  case perfect.perfect =>
    rw [grow_sum (a := a) (b := b) _ rfl rfl]
    exact ex_sum hN .perfect .perfect .perfect ha hb rfl rfl rfl k
  all_goals simp [Reach, outcomes]

open Classical in
/-- **C73 (partial)** For every pair of clusters of which one can move, other than a perfect loop with a faulted loop or a void: each cluster that some member of the first and some
member of the second can make, of one of the announced kinds, is the product of exactly one production, and no other cluster is a product. Missing: perfect with faulted and void,
whose loop is wrong (see `Verif.Network.ProductsProps`). -/
theorem alloy_exact_partial (hN : Layout N) (hm : m1 = true ∨ m2 = true) (c1 c2 : Cl AK) (h1 : Ok c1) (h2 : Ok c2)
    (hp : ¬ on c1 c2 .perfect .faulted) (hp' : ¬ on c1 c2 .void .perfect) (k : ℕ) :
    (alloyPair N m1 m2 c1 c2).prods.count (some k) = if Reach N c1 c2 k then 1 else 0 := by
  rcases le_total (rank c1.kind) (rank c2.kind) with h | h
  · exact alloy_exact_ordered hN hm c1 c2 h1 h2 h hp hp' k
  · rw [alloy_symm, alloy_exact_ordered hN hm.symm c2 c1 h2 h1 h (fun h => hp ?_) (fun h => hp' ?_) k]
    · exact if_congr (reach_comm N c2 c1 k) rfl rfl
    · rcases h with ⟨h, h'⟩ | ⟨h, h'⟩
      · exact .inr ⟨h', h⟩
      · exact .inl ⟨h', h⟩
    · rcases h with ⟨h, h'⟩ | ⟨h, h'⟩
      · exact .inr ⟨h', h⟩
      · exact .inl ⟨h', h⟩

/-! ### Alloys: recombination without a product -/

theorem grow_none (t : Tiling) (x y : ℤ) : (grow t x y).count none = 0 := by
  rw [grow, prevLoop_count_none, List.count_eq_zero]
  simp [Visit.ofFind_ne_zero]

theorem count_upTo (lo hi s : ℤ) : (upTo lo hi).count s = if lo ≤ s ∧ s ≤ hi then 1 else 0 := by
  have hnd : (upTo lo hi).Nodup := (upTo_sorted lo hi).imp fun h => ne_of_lt h
  split
  · next h => exact List.count_eq_one_of_mem hnd (mem_upTo.mpr h)
  · next h => exact List.count_eq_zero.mpr fun h' => h (mem_upTo.mp h')

theorem sum_ite_count (l : List ℤ) (s : ℤ) : (l.map fun k => if k = s then 1 else 0).sum = l.count s := by
  induction l with
  | nil => rfl
  | cons x l ih => simp only [List.map_cons, List.sum_cons, ih, List.count_cons, beq_iff_eq]; omega

theorem alloyVL_none (tI tP tV : Tiling) (s : ℤ) (p : Ival) : (alloyVL tI tP tV s p).count none = if s ∈ p.pts then 1 else 0 := by
  rw [alloyVL, prevLoop_count_none, List.count_flatMap]
  have e : (List.count Visit.zero ∘ fun k => visitsVL tI tP tV (k - s)) = fun k => if k = s then 1 else 0 := by
    funext k
    simp only [Function.comp, visitsVL]
    by_cases h1 : 0 < k - s
    · rw [if_pos h1, if_neg (show ¬ k = s by omega), List.count_eq_zero]
      simp only [List.mem_cons, List.not_mem_nil, or_false, not_or]
      exact ⟨(Visit.ofFind_ne_zero _).symm, (Visit.ofFind_ne_zero _).symm⟩
    · rw [if_neg h1]
      by_cases h2 : k - s < 0
      · rw [if_pos h2, if_neg (show ¬ k = s by omega), List.count_eq_zero]
        simp only [List.mem_cons, List.not_mem_nil, or_false]
        exact (Visit.ofFind_ne_zero _).symm
      · rw [if_neg h2, if_pos (show k = s by omega)]; rfl
  rw [e, sum_ite_count, count_upTo]
  refine if_congr ?_ rfl rfl
  rw [mem_pts]; omega

theorem alloyIL_none (tV tF : Tiling) (s : ℤ) (p : Ival) : (alloyIL tV tF s p).count none = 0 := by
  rw [alloyIL, prevLoop_count_none, List.count_eq_zero, List.mem_flatMap]
  rintro ⟨k, _, h⟩
  unfold visitsIL at h
  split at h
  · simp only [List.mem_cons, List.not_mem_nil, or_false] at h
    rcases h with h | h <;> exact Visit.ofFind_ne_zero _ h.symm
  · simp at h

/-- The pairs that can recombine, as the comments of the code announce them (AlloyReactionNetwork.tpp:174, 212, 264). -/
def recombines : AK → AK → Bool
  | .v, .i | .i, .v | .v, .perfect | .perfect, .v | .v, .frank | .frank, .v => true
  | _, _ => false

theorem recombine_ordered (hm : m1 = true ∨ m2 = true) (c1 c2 : Cl AK) (h1 : Ok c1) (h2 : Ok c2) (hr : rank c1.kind ≤ rank c2.kind)
    (hp : ¬ on c1 c2 .perfect .faulted) (hp' : ¬ on c1 c2 .void .perfect) [Decidable (∃ n, n ∈ c1.reg.pts ∧ n ∈ c2.reg.pts)] :
    (alloyPair N m1 m2 c1 c2).prods.count none = if recombines c1.kind c2.kind = true ∧ ∃ n, n ∈ c1.reg.pts ∧ n ∈ c2.reg.pts then 1 else 0 := by
  obtain ⟨k1, a⟩ := c1
  obtain ⟨k2, b⟩ := c2
  have hm' : ¬ (m1 = false ∧ m2 = false) := by rcases hm with rfl | rfl <;> simp
  have sa := h1.single
  have sb := h2.single
  dsimp only at sa sb
  rw [alloyPair, if_neg hm']
  cases k1 <;> cases k2 <;> (try (exfalso; simp [rank] at hr; done)) <;> (try (exfalso; revert hp hp'; simp [on]; done)) <;>
    simp only [on, lo, hi, unit, sizeOf, regOf, only, reduceCtorEq, and_self, and_true, and_false, or_true, or_false, if_true, if_false, and_false, add_zero, zero_add,
      grow_none, alloyVL_none, alloyIL_none, recombines, Bool.false_eq_true, true_and, false_and]
  case v.i =>
    rw [prevLoop_count_none, List.count_singleton]
    simp only [beq_iff_eq]
    refine if_congr ?_ rfl rfl
    rw [visitIV_zero]
    constructor
    · intro h
      exact ⟨a.b, (pts_single (sa (.inl rfl))).mpr rfl, (pts_single (sb (.inr rfl))).mpr (by omega)⟩
    · rintro ⟨n, h1, h2⟩
      rw [pts_single (sa (.inl rfl))] at h1
      rw [pts_single (sb (.inr rfl))] at h2
      omega
  case v.perfect =>
    refine if_congr ⟨fun h => ⟨a.b, (pts_single (sa (.inl rfl))).mpr rfl, h⟩, ?_⟩ rfl rfl
    rintro ⟨n, h1, h2⟩
    rw [pts_single (sa (.inl rfl))] at h1
    exact h1 ▸ h2
  case v.frank =>
    refine if_congr ⟨fun h => ⟨a.b, (pts_single (sa (.inl rfl))).mpr rfl, h⟩, ?_⟩ rfl rfl
    rintro ⟨n, h1, h2⟩
    rw [pts_single (sa (.inl rfl))] at h1
    exact h1 ▸ h2
  case v.v => simp [List.count_eq_zero]
  case i.i => simp [List.count_eq_zero]
  all_goals rfl

open Classical in
/-- **C73 (partial)** A vacancy cluster recombines without a product with an interstitial cluster or an interstitial loop exactly when they have a size in common, and then once;
no other pair (perfect loops with faulted loops and voids left aside) has a production without a product. -/
theorem alloy_recombine_partial (hm : m1 = true ∨ m2 = true) (c1 c2 : Cl AK) (h1 : Ok c1) (h2 : Ok c2)
    (hp : ¬ on c1 c2 .perfect .faulted) (hp' : ¬ on c1 c2 .void .perfect) :
    (alloyPair N m1 m2 c1 c2).prods.count none = if recombines c1.kind c2.kind = true ∧ ∃ n, n ∈ c1.reg.pts ∧ n ∈ c2.reg.pts then 1 else 0 := by
  rcases le_total (rank c1.kind) (rank c2.kind) with h | h
  · exact recombine_ordered hm c1 c2 h1 h2 h hp hp'
  · rw [alloy_symm, recombine_ordered hm.symm c2 c1 h2 h1 h (fun h => hp ?_) (fun h => hp' ?_)]
    · have e : recombines c2.kind c1.kind = recombines c1.kind c2.kind := by cases c1.kind <;> cases c2.kind <;> rfl
      rw [e]
      exact if_congr (and_congr_right fun _ => exists_congr fun n => and_comm) rfl rfl
    · rcases h with ⟨h, h'⟩ | ⟨h, h'⟩
      · exact .inr ⟨h', h⟩
      · exact .inl ⟨h', h⟩
    · rcases h with ⟨h, h'⟩ | ⟨h, h'⟩
      · exact .inr ⟨h', h⟩
      · exact .inl ⟨h', h⟩

/-- Two clusters that cannot move do not react. -/
theorem alloy_immobile (c1 c2 : Cl AK) : alloyPair N false false c1 c2 = ⟨[], []⟩ := rfl

/-! ### Alloys: dissociations -/

theorem filterMap_count (l : List (Option ℕ)) (k : ℕ) : (l.filterMap id).count k = l.count (some k) := by
  induction l with
  | nil => rfl
  | cons x l ih =>
    cases x with
    | none => simpa using ih
    | some y =>
      have e : List.filterMap id (some y :: l) = y :: List.filterMap id l := rfl
      rw [e, List.count_cons, List.count_cons, ih]
      simp

theorem diss_count (b : Bool) (l : List (Option ℕ)) (k : ℕ) {P : Prop} [Decidable P] (h : b = true ↔ P) :
    (dissIf b l).count k = if P then l.count (some k) else 0 := by
  unfold dissIf
  by_cases hP : P
  · rw [if_pos hP, if_pos (h.mpr hP), filterMap_count]
  · rw [if_neg hP, if_neg (fun h' => hP (h.mp h'))]; rfl

/-- **C73** A cluster dissociates into the pair exactly when both are vacancy clusters, voids or faulted loops, one of them is a single vacancy,
and the cluster is a product of the pair. -/
theorem alloy_diss (c1 c2 : Cl AK) (h1 : Ok c1) (h2 : Ok c2) (k : ℕ) :
    (alloyPair N m1 m2 c1 c2).diss.count k =
      if vac c1.kind = true ∧ vac c2.kind = true ∧ ((c1.kind = .v ∧ c1.reg = ⟨1, 2⟩) ∨ (c2.kind = .v ∧ c2.reg = ⟨1, 2⟩))
      then (alloyPair N m1 m2 c1 c2).prods.count (some k) else 0 := by
  obtain ⟨k1, ⟨a, a'⟩⟩ := c1
  obtain ⟨k2, ⟨b, b'⟩⟩ := c2
  have sa := h1.single
  have sb := h2.single
  dsimp only at sa sb
  have ea : a' = a + 1 → ((⟨a, a'⟩ : Ival) = ⟨1, 2⟩ ↔ a = 1) := by
    intro h; rw [Ival.mk.injEq]; omega
  have eb : b' = b + 1 → ((⟨b, b'⟩ : Ival) = ⟨1, 2⟩ ↔ b = 1) := by
    intro h; rw [Ival.mk.injEq]; omega
  by_cases hm : m1 = false ∧ m2 = false
  · simp [alloyPair, hm, only]
  rw [alloyPair, if_neg hm]
  cases k1 <;> cases k2 <;>
    simp only [on, lo, hi, unit, sizeOf, regOf, only, reduceCtorEq, and_self, and_true, and_false, or_true, or_false, if_true, if_false, and_false, add_zero, zero_add,
      vac, Bool.false_eq_true, true_and, false_and, false_or, List.count_nil]
  case v.v =>
    rw [count_map_some]
    have e := or_congr (ea (sa (.inl rfl))) (eb (sb (.inl rfl)))
    by_cases h : a = 1 ∨ b = 1
    · rw [if_pos (e.mpr h), if_pos (by simpa using h)]
    · rw [if_neg (fun h' => h (e.mp h')), if_neg (by simpa using h)]; rfl
  case v.void => exact diss_count _ _ _ (by rw [ea (sa (.inl rfl))]; simp)
  case v.faulted => exact diss_count _ _ _ (by rw [ea (sa (.inl rfl))]; simp)
  case void.v => exact diss_count _ _ _ (by rw [eb (sb (.inl rfl))]; simp)
  case faulted.v => exact diss_count _ _ _ (by rw [eb (sb (.inl rfl))]; simp)

/-! ### Alloys: perfect loops with faulted loops and voids -/

theorem pf_mem (hN : Layout N) (hsmall : ∀ s x k, (N.t s).find x = some k → x < 2 ^ 31) (s : AK) (hs : s = .faulted ∨ s = .void) (f p : Ival)
    (hf : f.b < f.e) (hp : p.b < p.e) (f0 : 0 < f.b) (p0 : 0 < p.b) (f1 : f.e < 2 ^ 30) (p1 : p.e < 2 ^ 30) (k : ℕ)
    (h : some k ∈ prevLoop none ((upTo (wrap (f.b - p.e + 1)) (wrap (f.e - p.b - 1) - 1)).flatMap (visitsPF (N.t .v) (N.t s) (N.t .i) (N.t .perfect)))) :
    ∃ x, f.b - p.e + 1 ≤ x ∧ x < f.e - p.b - 1 ∧ ((N.t .v).find x = some k ∨ (N.t s).find x = some k) := by
  obtain ⟨x, hx, hv⟩ := List.mem_flatMap.mp (prevLoop_mem h)
  rw [mem_upTo] at hx
  have hw : ∀ y, 0 ≤ wrap y := fun y => by unfold wrap; omega
  have hx0 := hw (f.b - p.e + 1)
  unfold visitsPF at hv
  by_cases h0 : 0 < x
  · rw [if_pos h0] at hv
    have hit : (N.t .v).find x = some k ∨ (N.t s).find x = some k := by
      simp only [List.mem_cons, List.not_mem_nil, or_false] at hv
      rcases hv with hv | hv
      · exact .inl (Visit.ofFind_eq_hit.mp hv.symm)
      · exact .inr (Visit.ofFind_eq_hit.mp hv.symm)
    have hlt : x < 2 ^ 31 := by rcases hit with h | h <;> exact hsmall _ _ _ h
    by_cases hmin : 0 ≤ f.b - p.e + 1
    · rw [wrap_of_nonneg hmin (by omega), wrap_of_nonneg (by omega) (by omega)] at hx
      exact ⟨x, by omega, by omega, hit⟩
    · rw [wrap_of_neg (x := f.b - p.e + 1) (by omega) (by omega)] at hx
      omega
  · rw [if_neg h0, if_neg (by omega)] at hv
    simp at hv

theorem pf_reach (hN : Layout N) (hsmall : ∀ s x k, (N.t s).find x = some k → x < 2 ^ 31) (s : AK) (hs : s = .faulted ∨ s = .void) (f p : Ival)
    (hf : f.b < f.e) (hp : p.b < p.e) (f0 : 0 < f.b) (p0 : 0 < p.b) (f1 : f.e < 2 ^ 30) (p1 : p.e < 2 ^ 30) (k : ℕ)
    (h : some k ∈ prevLoop none ((upTo (wrap (f.b - p.e + 1)) (wrap (f.e - p.b - 1) - 1)).flatMap (visitsPF (N.t .v) (N.t s) (N.t .i) (N.t .perfect)))) :
    Reach N ⟨s, f⟩ ⟨.perfect, p⟩ k := by
  obtain ⟨x, hx, hx', hit⟩ := pf_mem hN hsmall s hs f p hf hp f0 p0 f1 p1 k h
  obtain ⟨m, hm, n, hn, e⟩ := (reach_diff f p hf hp x).mp (by omega)
  rcases hit with hit | hit
  · refine ⟨m, hm, n, hn, .v, by rcases hs with rfl | rfl <;> simp [outcomes], x, hN.pos _ _ _ hit, ?_, hit⟩
    rcases hs with rfl | rfl <;> simp [sg, vac] <;> omega
  · refine ⟨m, hm, n, hn, s, by rcases hs with rfl | rfl <;> simp [outcomes], x, hN.pos _ _ _ hit, ?_, hit⟩
    rcases hs with rfl | rfl <;> simp [sg, vac] <;> omega

/-- **C73 (partial)** The products of a perfect loop with a faulted loop or a void are reachable. Missing: not every reachable product is found. -/
theorem alloy_pf_sound_partial (hN : Layout N) (hsmall : ∀ s x k, (N.t s).find x = some k → x < 2 ^ 31) (hm : m1 = true ∨ m2 = true) (c1 c2 : Cl AK)
    (h1 : Ok c1) (h2 : Ok c2) (l1 : c1.reg.e < 2 ^ 30) (l2 : c2.reg.e < 2 ^ 30) (hp : on c1 c2 .perfect .faulted ∨ on c1 c2 .void .perfect) (k : ℕ)
    (h : some k ∈ (alloyPair N m1 m2 c1 c2).prods) : Reach N c1 c2 k := by
  have hm' : ∀ {m1 m2 : Bool}, m1 = true ∨ m2 = true → ¬ (m1 = false ∧ m2 = false) := by
    intro m1 m2 hm; rcases hm with rfl | rfl <;> simp
  obtain ⟨k1, a⟩ := c1
  obtain ⟨k2, b⟩ := c2
  have main : ∀ (m1 m2 : Bool) (s : AK) (hs : s = .faulted ∨ s = .void) (f p : Ival) (hf : Ok ⟨s, f⟩) (hp : Ok ⟨.perfect, p⟩) (hm : m1 = true ∨ m2 = true)
      (l1 : f.e < 2 ^ 30) (l2 : p.e < 2 ^ 30) (h : some k ∈ (alloyPair N m1 m2 ⟨s, f⟩ ⟨.perfect, p⟩).prods), Reach N ⟨s, f⟩ ⟨.perfect, p⟩ k := by
    intro m1 m2 s hs f p hf hp hm l1 l2 h
    refine pf_reach hN hsmall s hs f p hf.lt hp.lt hf.pos hp.pos l1 l2 k ?_
    rw [alloyPair, if_neg (hm' hm)] at h
    rcases hs with rfl | rfl <;> simp [on, lo, hi, only] at h <;>
      rw [show f.b - 1 - p.e + 2 = f.b - p.e + 1 by ring, show f.e + 1 - p.b - 2 = f.e - p.b - 1 by ring] at h <;> exact h
  rcases hp with (⟨e1, e2⟩ | ⟨e1, e2⟩) | (⟨e1, e2⟩ | ⟨e1, e2⟩) <;> dsimp only at e1 e2 <;> subst e1 e2
  · rw [alloy_symm] at h
    exact (reach_comm N _ _ k).mp (main m2 m1 .faulted (.inl rfl) b a h2 h1 hm.symm l2 l1 h)
  · exact main m1 m2 .faulted (.inl rfl) a b h1 h2 hm l1 l2 h
  · exact main m1 m2 .void (.inr rfl) a b h1 h2 hm l1 l2 h
  · rw [alloy_symm] at h
    exact (reach_comm N _ _ k).mp (main m2 m1 .void (.inr rfl) b a h2 h1 hm.symm l2 l1 h)

/-- **C73 (negation)** A single perfect loop never reacts with a single faulted loop or a single void, though the comments announce five outcomes. -/
theorem alloy_pf_never (c1 c2 : Cl AK) (h1 : c1.reg.e = c1.reg.b + 1) (h2 : c2.reg.e = c2.reg.b + 1)
    (hp : on c1 c2 .perfect .faulted ∨ on c1 c2 .void .perfect) : alloyPair N m1 m2 c1 c2 = ⟨[], []⟩ := by
  obtain ⟨k1, a⟩ := c1
  obtain ⟨k2, b⟩ := c2
  have e : ∀ x y : ℤ, x = y → upTo (wrap x) (wrap y - 1) = [] := by
    intro x y h; subst h
    unfold upTo
    rw [show (wrap x - 1 + 1 - wrap x).toNat = 0 by omega]; rfl
  dsimp only at h1 h2
  by_cases hm : m1 = false ∧ m2 = false
  · rw [alloyPair, if_pos hm]; rfl
  rw [alloyPair, if_neg hm]
  rcases hp with (⟨e1, e2⟩ | ⟨e1, e2⟩) | (⟨e1, e2⟩ | ⟨e1, e2⟩) <;> dsimp only at e1 e2 <;> subst e1 e2 <;>
    simp [on, lo, hi, only] <;> rw [e _ _ (by omega)] <;> rfl

/-! ### Alloys: the total rate of a pair of single clusters -/

/-- `n` units of one kind. -/
def comp : AK → ℕ → Select.CA
  | .v, n => ⟨n, 0, 0, 0, 0, 0⟩
  | .void, n => ⟨0, n, 0, 0, 0, 0⟩
  | .faulted, n => ⟨0, 0, n, 0, 0, 0⟩
  | .i, n => ⟨0, 0, 0, n, 0, 0⟩
  | .perfect, n => ⟨0, 0, 0, 0, n, 0⟩
  | .frank, n => ⟨0, 0, 0, 0, 0, n⟩

/-- The clusters are single, and they are those that the generator of the network selects. -/
structure Singles (o : Select.OA) (N : Net AK) : Prop where
  mem : ∀ s x, (∃ k, (N.t s).find x = some k) ↔ 0 < x ∧ ¬ Select.alloyPointBad o (comp s x.toNat)
  single : ∀ s x y k, (N.t s).find x = some k → (N.t s).find y = some k → x = y

/-- The sizes of each kind that the options allow. -/
def Present (o : Select.OA) : AK → ℤ → Prop
  | .v, x => 0 < x ∧ x ≤ o.maxV
  | .i, x => 0 < x ∧ x ≤ o.maxI
  | .perfect, x => 0 < x ∧ o.maxI ≤ x ∧ x ≤ o.maxSize
  | .frank, x => o.maxI < x ∧ x ≤ o.maxSize
  | .faulted, x => o.maxV < x ∧ x ≤ o.maxSize
  | .void, x => o.maxV < x ∧ x ≤ o.maxVoid

variable {o : Select.OA}

theorem present_iff (hS : Singles o N) (s : AK) (x : ℤ) : (∃ k, (N.t s).find x = some k) ↔ Present o s x := by
  rw [hS.mem]
  unfold Select.alloyPointBad
  cases s <;> simp only [Present, comp, Select.nAxis, Select.one, gt_iff_lt, lt_irrefl, if_false, Nat.not_lt_zero, false_and, false_or, or_false, zero_add, add_zero] <;>
    constructor <;> intro h <;> (try split_ifs at h) <;> (try split_ifs) <;> omega

theorem singles_layout (hS : Singles o N) : Layout N := by
  have pos : ∀ s x k, (N.t s).find x = some k → 0 < x := fun s x k h => ((hS.mem s x).mp ⟨k, h⟩).1
  have l : ∀ s s', s ≠ s' → LoopLayout (N.t s) (N.t s') := by
    intro s s' h
    refine ⟨net_disj N h, hS.single s, fun x y z k hx hz h1 h2 => ?_⟩
    have := hS.single s' x z k hx hz
    omega
  exact ⟨pos, l _ _ (by decide), l _ _ (by decide), l _ _ (by decide), l _ _ (by decide)⟩

/-- The single cluster of kind `s` and size `x`. -/
def one (s : AK) (x : ℤ) : Cl AK := ⟨s, ⟨x, x + 1⟩⟩

theorem rateFactor_symm (N : Net AK) (c1 c2 : Cl AK) (p : Option ℕ) : rateFactor N c1 c2 p = rateFactor N c2 c1 p := by
  unfold rateFactor
  have e : ∀ s : AK, (c1.kind = s ∧ c2.kind = s ∧ (∀ k ∈ p, N.kindOf k ≠ s)) ↔ (c2.kind = s ∧ c1.kind = s ∧ (∀ k ∈ p, N.kindOf k ≠ s)) := by tauto
  rw [if_congr (e .i) rfl (if_congr (e .v) rfl rfl)]

theorem total_symm (N : Net AK) (m1 m2 : Bool) (c1 c2 : Cl AK) : total N m1 m2 c1 c2 = total N m2 m1 c2 c1 := by
  unfold total
  rw [alloy_symm N m1 m2, show rateFactor N c1 c2 = rateFactor N c2 c1 from funext fun p => rateFactor_symm N c1 c2 p]

theorem total_length (c1 c2 : Cl AK) (h1 : ¬ (c1.kind = .i ∧ c2.kind = .i)) (h2 : ¬ (c1.kind = .v ∧ c2.kind = .v)) :
    total N m1 m2 c1 c2 = ((alloyPair N m1 m2 c1 c2).prods.length : ℚ) := by
  have e : rateFactor N c1 c2 = fun _ => 1 := by
    funext p
    unfold rateFactor
    rw [if_neg (fun h => h1 ⟨h.1, h.2.1⟩), if_neg (fun h => h2 ⟨h.1, h.2.1⟩)]
  unfold total
  rw [e]
  simp

theorem upTo_self (x : ℤ) : upTo x x = [x] := by
  unfold upTo
  rw [show (x + 1 - x).toNat = 1 by omega]
  simp

open Classical in
theorem grow_length (hS : Singles o N) (s : AK) (x y : ℤ) (h : x = y) : (grow (N.t s) x y).length = if Present o s x then 1 else 0 := by
  subst h
  rw [grow, upTo_self]
  by_cases hp : Present o s x
  · rw [if_pos hp]
    obtain ⟨k, hk⟩ := (present_iff hS s x).mpr hp
    simp [hk, Visit.ofFind, prevLoop]
  · rw [if_neg hp]
    have : (N.t s).find x = none := by
      cases h : (N.t s).find x with
      | none => rfl
      | some k => exact absurd ((present_iff hS s x).mp ⟨k, h⟩) hp
    simp [this, Visit.ofFind, prevLoop]

open Classical in
theorem two_length (hS : Singles o N) (s s' : AK) (h : s ≠ s') (x : ℤ) :
    (prevLoop none [.ofFind ((N.t s).find x), .ofFind ((N.t s').find x)]).length = (if Present o s x then 1 else 0) + if Present o s' x then 1 else 0 := by
  have e : ∀ s, (N.t s).find x = none ↔ ¬ Present o s x := by
    intro s
    rw [← present_iff hS]
    cases (N.t s).find x <;> simp
  rcases e1 : (N.t s).find x with _ | k <;> rcases e2 : (N.t s').find x with _ | k'
  · rw [if_neg ((e s).mp e1), if_neg ((e s').mp e2)]; rfl
  · rw [if_neg ((e s).mp e1), if_pos ((present_iff hS s' x).mp ⟨k', e2⟩)]; rfl
  · rw [if_pos ((present_iff hS s x).mp ⟨k, e1⟩), if_neg ((e s').mp e2)]; rfl
  · rw [if_pos ((present_iff hS s x).mp ⟨k, e1⟩), if_pos ((present_iff hS s' x).mp ⟨k', e2⟩)]
    have : k ≠ k' := by
      rintro rfl
      exact h ((find_kind N e1).symm.trans (find_kind N e2))
    simp [Visit.ofFind, prevLoop, this]

open Classical in
theorem one_length (hS : Singles o N) (s : AK) (x : ℤ) :
    (prevLoop none [.ofFind ((N.t s).find x)]).length = if Present o s x then 1 else 0 := by
  rw [← grow_length hS s x x rfl, grow, upTo_self]; rfl

open Classical in
theorem three_total (hS : Singles o N) (f : Option ℕ → ℚ) (s s2 s3 : AK) (h2 : s2 ≠ s) (h3 : s3 ≠ s) (hf : ∀ k, f (some k) = if N.kindOf k = s then 1 else 1 / 2) (x : ℤ) :
    ((([(N.t s).find x, (N.t s2).find x, (N.t s3).find x].filterMap id).map some).map f).sum =
      (if Present o s x then 1 else 0) + (if Present o s2 x then 1 / 2 else 0) + (if Present o s3 x then 1 / 2 else 0) := by
  have e : ∀ s, (N.t s).find x = none ↔ ¬ Present o s x := by
    intro s
    rw [← present_iff hS]
    cases (N.t s).find x <;> simp
  have p : ∀ s k, (N.t s).find x = some k → Present o s x := fun s k h => (present_iff hS s x).mp ⟨k, h⟩
  have g1 : ∀ k, (N.t s).find x = some k → f (some k) = 1 := fun k h => by rw [hf, if_pos (find_kind N h)]
  have g2 : ∀ k, (N.t s2).find x = some k → f (some k) = 1 / 2 := fun k h => by rw [hf, if_neg (by rw [find_kind N h]; exact h2)]
  have g3 : ∀ k, (N.t s3).find x = some k → f (some k) = 1 / 2 := fun k h => by rw [hf, if_neg (by rw [find_kind N h]; exact h3)]
  have u1 : ((((N.t s).find x).toList.map some).map f).sum = if Present o s x then 1 else 0 := by
    rcases e1 : (N.t s).find x with _ | k
    · rw [if_neg ((e s).mp e1)]; rfl
    · rw [if_pos (p s k e1)]; simp [g1 k e1]
  have u2 : ((((N.t s2).find x).toList.map some).map f).sum = if Present o s2 x then 1 / 2 else 0 := by
    rcases e1 : (N.t s2).find x with _ | k
    · rw [if_neg ((e s2).mp e1)]; rfl
    · rw [if_pos (p s2 k e1)]; simp [g2 k e1]
  have u3 : ((((N.t s3).find x).toList.map some).map f).sum = if Present o s3 x then 1 / 2 else 0 := by
    rcases e1 : (N.t s3).find x with _ | k
    · rw [if_neg ((e s3).mp e1)]; rfl
    · rw [if_pos (p s3 k e1)]; simp [g3 k e1]
  have l : [(N.t s).find x, (N.t s2).find x, (N.t s3).find x].filterMap id = ((N.t s).find x).toList ++ ((N.t s2).find x).toList ++ ((N.t s3).find x).toList := by
    rcases (N.t s).find x with _ | a <;> rcases (N.t s2).find x with _ | b <;> rcases (N.t s3).find x with _ | c <;> rfl
  rw [l, List.map_append, List.map_append, List.map_append, List.map_append, List.sum_append, List.sum_append, u1, u2, u3]

open Classical in
/-- The total rate of a pair of single clusters, kind by kind; `z` is its signed number of vacancies. -/
theorem total_table (hS : Singles o N) (hm : m1 = true ∨ m2 = true) (s1 s2 : AK) (hr : rank s1 ≤ rank s2) (x y : ℤ) (hx : 0 < x) (hy : 0 < y) :
    total N m1 m2 (one s1 x) (one s2 y) =
      match s1, s2 with
      | .v, .v => (if Present o .v (x + y) then 1 else 0) + (if Present o .void (x + y) then 1 / 2 else 0) + (if Present o .faulted (x + y) then 1 / 2 else 0)
      | .i, .i => (if Present o .i (x + y) then 1 else 0) + (if Present o .frank (x + y) then 1 / 2 else 0) + (if Present o .perfect (x + y) then 1 / 2 else 0)
      | .v, .i => if x = y then 1 else if y < x then (if Present o .v (x - y) then 1 else 0) else (if Present o .i (y - x) then 1 else 0)
      | .v, .perfect => if x = y then 1 else if y < x then (if Present o .v (x - y) then 1 else 0) else (if Present o .i (y - x) then 1 else 0) + (if Present o .perfect (y - x) then 1 else 0)
      | .v, .frank => if x = y then 1 else if y < x then (if Present o .v (x - y) then 1 else 0) else (if Present o .i (y - x) then 1 else 0) + (if Present o .frank (y - x) then 1 else 0)
      | .v, .void => if Present o .void (x + y) then 1 else 0
      | .v, .faulted => if Present o .faulted (x + y) then 1 else 0
      | .i, .frank => if Present o .frank (x + y) then 1 else 0
      | .i, .perfect => if Present o .perfect (x + y) then 1 else 0
      | .i, .faulted => if x < y then (if Present o .v (y - x) then 1 else 0) + (if Present o .faulted (y - x) then 1 else 0) else 0
      | .i, .void => if x < y then (if Present o .v (y - x) then 1 else 0) + (if Present o .void (y - x) then 1 else 0) else 0
      | .perfect, .frank => if Present o .frank (x + y) then 1 else 0
      | .perfect, .perfect => if Present o .perfect (x + y) then 1 else 0
      | _, _ => 0 := by
  have hm' : ¬ (m1 = false ∧ m2 = false) := by rcases hm with rfl | rfl <;> simp
  have eVL : ∀ s, AK.i ≠ s → ((alloyVL (N.t .i) (N.t s) (N.t .v) x ⟨y, y + 1⟩).length : ℚ) =
      if x = y then 1 else if y < x then (if Present o .v (x - y) then 1 else 0) else (if Present o .i (y - x) then 1 else 0) + (if Present o s (y - x) then 1 else 0) := by
    intro s hs
    rw [alloyVL, show (⟨y, y + 1⟩ : Ival).e - 1 = y from by change y + 1 - 1 = y; omega, upTo_self]
    simp only [List.flatMap_cons, List.flatMap_nil, List.append_nil, visitsVL]
    by_cases h0 : x = y
    · rw [if_neg (by omega), if_neg (by omega), if_pos h0]; simp [prevLoop]
    · rw [if_neg h0]
      by_cases h1 : y < x
      · rw [if_neg (by omega), if_pos (by omega), if_pos h1, one_length hS, show -(y - x) = x - y by ring]
        push_cast; rfl
      · rw [if_pos (by omega), if_neg h1, two_length hS _ _ hs]
        push_cast; rfl
  have eIL : ∀ s, AK.v ≠ s → ((alloyIL (N.t .v) (N.t s) x ⟨y, y + 1⟩).length : ℚ) =
      if x < y then (if Present o .v (y - x) then 1 else 0) + (if Present o s (y - x) then 1 else 0) else 0 := by
    intro s hs
    rw [alloyIL, show (⟨y, y + 1⟩ : Ival).e - 1 = y from by change y + 1 - 1 = y; omega, upTo_self]
    simp only [List.flatMap_cons, List.flatMap_nil, List.append_nil, visitsIL]
    by_cases h1 : x < y
    · rw [if_pos (by omega), if_pos h1, two_length hS _ _ hs]
      push_cast; rfl
    · rw [if_neg (by omega), if_neg h1]; simp [prevLoop]
  have eG : ∀ s u v, u = v → ((grow (N.t s) u v).length : ℚ) = if Present o s u then 1 else 0 := by
    intro s u v h
    rw [grow_length hS s u v h]
    push_cast; rfl
  by_cases hvv : s1 = .v ∧ s2 = .v
  · obtain ⟨rfl, rfl⟩ := hvv
    dsimp only
    rw [← three_total hS (rateFactor N (one .v x) (one .v y)) .v .void .faulted (by decide) (by decide) (fun k => ?_) (x + y)]
    · simp [total, alloyPair, hm', one, lo]
    · simp only [rateFactor, one, reduceCtorEq, false_and, if_false, true_and, Option.mem_def, Option.some.injEq, forall_eq']
      by_cases h : N.kindOf k = .v <;> simp [h]
  by_cases hii : s1 = .i ∧ s2 = .i
  · obtain ⟨rfl, rfl⟩ := hii
    dsimp only
    rw [← three_total hS (rateFactor N (one .i x) (one .i y)) .i .frank .perfect (by decide) (by decide) (fun k => ?_) (x + y)]
    · simp [total, alloyPair, hm', one, lo, on, only]
    · simp only [rateFactor, one, reduceCtorEq, false_and, if_false, true_and, Option.mem_def, Option.some.injEq, forall_eq']
      by_cases h : N.kindOf k = .i <;> simp [h]
  rw [total_length _ _ (by simpa [one] using hii) (by simpa [one] using hvv)]
  have hpf : ∀ s, s = .faulted ∨ s = .void → (alloyPair N m1 m2 (one .perfect x) (one s y)).prods = [] := by
    intro s hs
    rw [alloy_pf_never (one .perfect x) (one s y) rfl rfl]
    rcases hs with rfl | rfl
    · exact .inl (.inl ⟨rfl, rfl⟩)
    · exact .inr (.inr ⟨rfl, rfl⟩)
  cases s1 <;> cases s2 <;> (try (exfalso; simp [rank] at hr; done)) <;> (try (exfalso; simp at hvv hii; done)) <;>
    (try (simp only [hpf _ (.inl rfl), hpf _ (.inr rfl), List.length_nil, Nat.cast_zero]; done)) <;>
    rw [alloyPair, if_neg hm'] <;>
    simp only [one, on, lo, hi, unit, sizeOf, regOf, only, reduceCtorEq, and_self, and_true, and_false, or_true, or_false, if_true, if_false, and_false, add_zero, zero_add, List.length_nil, Nat.cast_zero]
  case v.void => exact eG _ _ _ (by ring)
  case v.faulted => exact eG _ _ _ (by ring)
  case v.perfect => exact eVL _ (by decide)
  case v.frank => exact eVL _ (by decide)
  case i.frank => exact eG _ _ _ (by ring)
  case i.perfect => exact eG _ _ _ (by ring)
  case i.faulted => exact eIL _ (by decide)
  case i.void => exact eIL _ (by decide)
  case perfect.frank => exact eG _ _ _ (by ring)
  case perfect.perfect => exact eG _ _ _ (by ring)
  case v.i =>
    unfold visitIV
    by_cases h0 : x = y
    · rw [if_neg (by omega), if_neg (by omega), if_pos h0]; simp [prevLoop]
    · rw [if_neg h0]
      by_cases h1 : y < x
      · rw [if_pos (by omega), if_pos h1, one_length hS]
        push_cast; rfl
      · rw [if_neg (by omega), if_pos (by omega), if_neg h1, one_length hS, show -(x - y) = y - x by ring]
        push_cast; rfl

/-- The pairs that the loop perfect + faulted or void serves. -/
def pfPair : AK → AK → Bool
  | .perfect, .faulted | .faulted, .perfect | .perfect, .void | .void, .perfect => true
  | _, _ => false

/-- An interstitial cluster with a faulted loop or a void. -/
def ilPair : AK → AK → Bool
  | .i, .faulted | .faulted, .i | .i, .void | .void, .i => true
  | _, _ => false

/-- The pairs with two kinds of interstitial products of which a perfect loop is one. -/
def limitPair : AK → AK → Bool
  | .i, .i | .v, .perfect | .perfect, .v => true
  | _, _ => false

theorem alloy_once_ordered (hS : Singles o N) (hm : m1 = true ∨ m2 = true) (s1 s2 : AK) (hr : rank s1 ≤ rank s2) (x y : ℤ) (hx : Present o s1 x) (hy : Present o s2 y)
    (hrule : outcomes s1 s2 ≠ []) (hpf : pfPair s1 s2 = false)
    (hgrow : vac s1 = true → vac s2 = true → x + y ≤ o.maxSize ∧ x + y ≤ o.maxVoid) (hgrow' : vac s1 = false → vac s2 = false → x + y ≤ o.maxSize)
    (hil : ilPair s1 s2 = true → 0 < sg s1 x + sg s2 y) (hlim : limitPair s1 s2 = true → sg s1 x + sg s2 y ≠ -o.maxI) :
    total N m1 m2 (one s1 x) (one s2 y) = 1 := by
  have hx0 : 0 < x := ((hS.mem s1 x).mp ((present_iff hS s1 x).mpr hx)).1
  have hy0 : 0 < y := ((hS.mem s2 y).mp ((present_iff hS s2 y).mpr hy)).1
  rw [total_table hS hm s1 s2 hr x y hx0 hy0]
  cases s1 <;> cases s2 <;> (try (exfalso; simp [rank] at hr; done)) <;> (try (exfalso; simp [outcomes] at hrule; done)) <;>
    (try (exfalso; simp [pfPair] at hpf; done)) <;>
    simp only [vac, sg, ilPair, limitPair, if_true, Bool.false_eq_true, if_false, forall_const, false_imp_iff, reduceCtorEq] at hgrow hgrow' hil hlim ⊢ <;>
    split_ifs <;> (try simp only [Present] at *) <;> first | (exfalso; omega) | norm_num

/-- **C73 (partial)** In a network of single clusters, two clusters of which one can move meet with one outcome: the rates of all their reactions add up to the rate at which
they meet. This holds for every pair with a rule provided the sum of their sizes does not leave the network, except: perfect loops with faulted loops and voids (`alloy_pf_never`),
an interstitial cluster with a faulted loop or void that is not larger (`alloy_il_lost`), and two interstitial clusters, or a vacancy cluster and a perfect loop, whose net size is exactly
that of the largest interstitial cluster (`alloy_limit_ii`, `alloy_limit_vp`). -/
theorem alloy_once_partial (hS : Singles o N) (hm : m1 = true ∨ m2 = true) (s1 s2 : AK) (x y : ℤ) (hx : Present o s1 x) (hy : Present o s2 y)
    (hrule : outcomes s1 s2 ≠ []) (hpf : pfPair s1 s2 = false)
    (hgrow : vac s1 = true → vac s2 = true → x + y ≤ o.maxSize ∧ x + y ≤ o.maxVoid) (hgrow' : vac s1 = false → vac s2 = false → x + y ≤ o.maxSize)
    (hil : ilPair s1 s2 = true → 0 < sg s1 x + sg s2 y) (hlim : limitPair s1 s2 = true → sg s1 x + sg s2 y ≠ -o.maxI) :
    total N m1 m2 (one s1 x) (one s2 y) = 1 := by
  rcases le_total (rank s1) (rank s2) with h | h
  · exact alloy_once_ordered hS hm s1 s2 h x y hx hy hrule hpf hgrow hgrow' hil hlim
  · rw [total_symm]
    have e1 : pfPair s2 s1 = pfPair s1 s2 := by cases s1 <;> cases s2 <;> rfl
    have e2 : ilPair s2 s1 = ilPair s1 s2 := by cases s1 <;> cases s2 <;> rfl
    have e3 : limitPair s2 s1 = limitPair s1 s2 := by cases s1 <;> cases s2 <;> rfl
    refine alloy_once_ordered hS hm.symm s2 s1 h y x hy hx (by rwa [outcomes_comm]) (by rwa [e1]) (fun a b => ?_) (fun a b => ?_) (fun a => ?_) (fun a => ?_)
    · have := hgrow b a; omega
    · have := hgrow' b a; omega
    · rw [e2] at a; have := hil a; omega
    · rw [e3] at a; have := hlim a; omega

/-- **C73 (negation)** Two interstitial clusters that add up to the largest interstitial cluster have two outcomes, the interstitial cluster at the full rate and the perfect loop of the
same size at half the rate: they disappear one and a half times as fast as they meet. -/
theorem alloy_limit_ii (hS : Singles o N) (hm : m1 = true ∨ m2 = true) (x y : ℤ) (hx : Present o .i x) (hy : Present o .i y) (h : x + y = o.maxI) (hmax : o.maxI ≤ o.maxSize) :
    total N m1 m2 (one .i x) (one .i y) = 3 / 2 := by
  simp only [Present] at hx hy
  rw [total_table hS hm .i .i (by decide) x y hx.1 hy.1]
  dsimp only
  split_ifs <;> (try simp only [Present] at *) <;> first | (exfalso; omega) | norm_num

/-- **C73 (negation)** A vacancy cluster and a perfect loop that leave exactly the size of the largest interstitial cluster have two outcomes at the full rate each: they disappear
twice as fast as they meet. -/
theorem alloy_limit_vp (hS : Singles o N) (hm : m1 = true ∨ m2 = true) (x y : ℤ) (hx : Present o .v x) (hy : Present o .perfect y) (h : y - x = o.maxI) (hI : 0 < o.maxI) :
    total N m1 m2 (one .v x) (one .perfect y) = 2 := by
  simp only [Present] at hx hy
  rw [total_table hS hm .v .perfect (by decide) x y hx.1 hy.1]
  dsimp only
  split_ifs <;> (try simp only [Present] at *) <;> first | (exfalso; omega) | norm_num

/-- **C73 (negation)** An interstitial cluster that is at least as large as a faulted loop or a void does not react with it at all, while a vacancy cluster that is at least as large as a
perfect or Frank loop does. -/
theorem alloy_il_lost (hS : Singles o N) (hm : m1 = true ∨ m2 = true) (x y : ℤ) (hx : 0 < x) (hy : 0 < y) (h : y ≤ x) :
    total N m1 m2 (one .i x) (one .faulted y) = 0 ∧ total N m1 m2 (one .i x) (one .void y) = 0 ∧
    (Present o .v x → total N m1 m2 (one .v x) (one .perfect y) = 1 ∧ total N m1 m2 (one .v x) (one .frank y) = 1) := by
  rw [total_table hS hm .i .faulted (by decide) x y hx hy, total_table hS hm .i .void (by decide) x y hx hy, total_table hS hm .v .perfect (by decide) x y hx hy,
    total_table hS hm .v .frank (by decide) x y hx hy]
  dsimp only
  rw [if_neg (by omega), if_neg (by omega)]
  refine ⟨rfl, rfl, fun hv => ?_⟩
  split_ifs <;> (try simp only [Present] at *) <;> first | (exfalso; omega) | norm_num

/-- **C73 (negation)** Two vacancy clusters whose sum is in reach of the faulted loops but not of the voids, or the other way round, react at half the rate at which they meet. -/
theorem alloy_half (hS : Singles o N) (hm : m1 = true ∨ m2 = true) (x y : ℤ) (hx : Present o .v x) (hy : Present o .v y) (h : o.maxV < x + y)
    (hone : (x + y ≤ o.maxSize ∧ o.maxVoid < x + y) ∨ (x + y ≤ o.maxVoid ∧ o.maxSize < x + y)) :
    total N m1 m2 (one .v x) (one .v y) = 1 / 2 := by
  simp only [Present] at hx hy
  rw [total_table hS hm .v .v (by decide) x y hx.1 hy.1]
  dsimp only
  split_ifs <;> (try simp only [Present] at *) <;> first | (exfalso; omega) | norm_num

/-- **C73** Only clusters that can move have a sink reaction; a cluster has at most one; among the clusters that can move exactly the single vacancy clusters, interstitial clusters and
perfect loops have one. A group of perfect loops has none. -/
theorem alloy_sinks (m : Bool) (c : Cl AK) :
    alloySinks m c = if m = true ∧ (c.kind = .i ∨ c.kind = .v ∨ c.kind = .perfect) ∧ c.reg.e = c.reg.b + 1 then 1 else 0 := by
  obtain ⟨s, r⟩ := c
  unfold alloySinks simplex
  cases m <;> cases s <;> by_cases h : r.e = r.b + 1 <;> simp [h]

theorem zr_sinks (m : Bool) (c : Cl ZK) :
    zrSinks m c = if m = true ∧ (c.kind = .i ∨ c.kind = .v) ∧ c.reg.e = c.reg.b + 1 then 1 else 0 := by
  obtain ⟨s, r⟩ := c
  unfold zrSinks simplex
  cases m <;> cases s <;> by_cases h : r.e = r.b + 1 <;> simp [h]

/-! ### Alloys: a network -/

instance (o : Select.OA) (s : AK) (x : ℤ) : Decidable (Present o s x) := by
  cases s <;> exact inferInstanceAs (Decidable (_ ∧ _))

/-- The rank of a kind read back. -/
def kindAt : ℕ → AK
  | 0 => .v | 1 => .i | 2 => .perfect | 3 => .void | 4 => .faulted | _ => .frank

theorem present_pos {o : Select.OA} {s : AK} {x : ℤ} (h : Present o s x) : 0 < x := by
  cases s <;> simp only [Present] at h <;> omega

/-- The network of single clusters of the options `o`: the cluster of kind `s` and size `x` has the number `6 x + rank s`. -/
def optNet (o : Select.OA) : Net AK where
  t s :=
    { find := fun x => if Present o s x then some (6 * x.toNat + rank s) else none
      ids := {k | k % 6 = rank s ∧ Present o s ((k / 6 : ℕ) : ℤ)}
      reg := fun k => ⟨((k / 6 : ℕ) : ℤ), ((k / 6 : ℕ) : ℤ) + 1⟩
      spec := by
        intro x k
        have hr : rank s < 6 := by cases s <;> decide
        simp only [Set.mem_ofPred_eq]
        constructor
        · intro h
          split at h
          · next hp =>
            have h0 := present_pos hp
            rw [Option.some.injEq] at h
            have e : ((k / 6 : ℕ) : ℤ) = x := by omega
            refine ⟨⟨by omega, by rw [e]; exact hp⟩, by omega, by omega⟩
          · simp at h
        · rintro ⟨⟨h1, h2⟩, h3, h4⟩
          have e : ((k / 6 : ℕ) : ℤ) = x := by omega
          rw [e] at h2
          rw [if_pos h2, Option.some.injEq]
          omega
      nonneg := by intro k _; dsimp only; omega }
  kindOf k := kindAt (k % 6)
  spec := by
    intro s k hk
    have h : k % 6 = rank s := hk.1
    rw [h]
    cases s <;> rfl

theorem optNet_singles (o : Select.OA) : Singles o (optNet o) := by
  have hp : ∀ s x, (∃ k, ((optNet o).t s).find x = some k) ↔ Present o s x := by
    intro s x
    change (∃ k, (if Present o s x then some (6 * x.toNat + rank s) else none) = some k) ↔ _
    by_cases h : Present o s x <;> simp [h]
  refine ⟨fun s x => ?_, fun s x y k hx hy => ?_⟩
  · rw [hp]
    unfold Select.alloyPointBad
    cases s <;> simp only [Present, comp, Select.nAxis, Select.one, gt_iff_lt, lt_irrefl, if_false, Nat.not_lt_zero, false_and, false_or, or_false, zero_add, add_zero] <;>
      constructor <;> intro h <;> (try split_ifs at h) <;> (try split_ifs) <;> omega
  · have hx' := (hp s x).mp ⟨k, hx⟩
    have hy' := (hp s y).mp ⟨k, hy⟩
    have := present_pos hx'
    have := present_pos hy'
    change (if Present o s x then some (6 * x.toNat + rank s) else none) = some k at hx
    change (if Present o s y then some (6 * y.toNat + rank s) else none) = some k at hy
    rw [if_pos hx', Option.some.injEq] at hx
    rw [if_pos hy', Option.some.injEq] at hy
    omega

/-- Options with vacancies up to 4, interstitials up to 6, loops up to 40, voids up to 30. -/
def exOpts : Select.OA := ⟨4, 6, 40, 30, 100, 0⟩

/-- Non-vacuity of the theorems about single clusters: V_3 + V_4 turns into the void and the faulted loop of size 7, half each, and neither is a single vacancy. -/
example : total (optNet exOpts) true true (one .v 3) (one .v 4) = 1 := by
  refine alloy_once_partial (optNet_singles _) (.inl rfl) .v .v 3 4 ?_ ?_ (by decide) rfl ?_ ?_ ?_ ?_ <;> decide

example : alloyPair (optNet exOpts) true true (one .v 3) (one .v 4) = ⟨[some 45, some 46], []⟩ := by decide +kernel

example : alloyPair (optNet exOpts) true false (one .v 1) (one .void 7) = ⟨[some 51], [51]⟩ := by decide +kernel

/-- I_2 + I_4 with `maxI` = 6: I_6 and Perfect_6. -/
example : alloyPair (optNet exOpts) true true (one .i 2) (one .i 4) = ⟨[some 37, some 38], []⟩ ∧ total (optNet exOpts) true true (one .i 2) (one .i 4) = 3 / 2 :=
  ⟨by decide +kernel, alloy_limit_ii (optNet_singles _) (.inl rfl) 2 4 (by decide) (by decide) rfl (by decide)⟩

example : total (optNet exOpts) true true (one .v 2) (one .perfect 8) = 2 :=
  alloy_limit_vp (optNet_singles _) (.inl rfl) 2 8 (by decide) (by decide) rfl (by decide)

/-- I_6 and the faulted loop of size 5 meet without a reaction. -/
example : Present exOpts .i 6 ∧ Present exOpts .faulted 5 ∧ alloyPair (optNet exOpts) true true (one .i 6) (one .faulted 5) = ⟨[], []⟩ :=
  ⟨by decide, by decide, by decide +kernel⟩

example : Layout (optNet exOpts) := singles_layout (optNet_singles _)

/-! ### Zirconium -/

/-- Vacancies and basal clusters count positively, interstitials negatively. -/
def zsg : ZK → ℤ → ℤ
  | .i, n => -n
  | _, n => n

/-- The kind of a product of `n` units, as the comments of the code announce it (ZrReactionNetwork.tpp:86, 126, 151, 192, 248, 292; basal clusters that lose members
turn into vacancy clusters at size 9). -/
def zAllowed : ZK → ZK → ZK → ℤ → Prop
  | .v, .v, s, _ => s = .v
  | .basal, .basal, s, _ => s = .basal
  | .v, .basal, s, n | .basal, .v, s, n => (s = .basal ∧ 9 < n) ∨ (s = .v ∧ n ≤ 9)
  | .i, .basal, s, n | .basal, .i, s, n => (s = .basal ∧ 9 < n) ∨ (s = .v ∧ n ≤ 9) ∨ s = .i
  | .v, .i, s, _ | .i, .v, s, _ => s = .v ∨ s = .i
  | .i, .i, s, _ => s = .i

/-- Some member of the first cluster and some member of the second one make a member of the cluster `k`, of the announced kind. -/
def ZReach (N : Net ZK) (c1 c2 : Cl ZK) (k : ℕ) : Prop :=
  ∃ a ∈ c1.reg.pts, ∃ b ∈ c2.reg.pts, ∃ s n, zAllowed c1.kind c2.kind s n ∧ 0 < n ∧ zsg s n = zsg c1.kind a + zsg c2.kind b ∧ (N.t s).find n = some k

theorem zreach_comm (N : Net ZK) (c1 c2 : Cl ZK) (k : ℕ) : ZReach N c1 c2 k ↔ ZReach N c2 c1 k := by
  have e : ∀ s1 s2 s n, zAllowed s1 s2 s n → zAllowed s2 s1 s n := by
    intro s1 s2 s n h; cases s1 <;> cases s2 <;> exact h
  constructor
  · rintro ⟨a, ha, b, hb, s, n, h, h0, h1, h2⟩
    exact ⟨b, hb, a, ha, s, n, e _ _ _ _ h, h0, by omega, h2⟩
  · rintro ⟨a, ha, b, hb, s, n, h, h0, h1, h2⟩
    exact ⟨b, hb, a, ha, s, n, e _ _ _ _ h, h0, by omega, h2⟩

variable {Z : Net ZK}

theorem zrVV_prods (u : Bool) (p : Option ℕ) (xs : List ℤ) :
    (zrVVLoop Z u p xs).prods = prevLoop p (xs.map fun x => .ofFind ((Z.t .v).find x)) := by
  induction xs generalizing p with
  | nil => rfl
  | cons x xs ih =>
    rw [zrVVLoop, List.map_cons]
    rcases e : (Z.t .v).find x with _ | k
    · exact ih p
    · dsimp only [Visit.ofFind, prevLoop]
      by_cases h : p = some k
      · rw [if_pos h, if_pos h]; exact ih p
      · rw [if_neg h, if_neg h]
        exact congrArg (some k :: ·) (ih (some k))

open Classical in
theorem zr_exact_ordered (hpos : ∀ s x k, (Z.t s).find x = some k → 0 < x) (hm : m1 = true ∨ m2 = true) (c1 c2 : Cl ZK)
    (h1 : c1.reg.b < c1.reg.e) (h2 : c2.reg.b < c2.reg.e) (p1 : 0 < c1.reg.b) (p2 : 0 < c2.reg.b)
    (hr : c1.kind = c2.kind ∨ (c1.kind = .v ∧ c2.kind = .basal) ∨ (c1.kind = .basal ∧ c2.kind = .i) ∨ (c1.kind = .v ∧ c2.kind = .i)) (k : ℕ) :
    (zrPair Z m1 m2 c1 c2).prods.count (some k) = if ZReach Z c1 c2 k then 1 else 0 := by
  have hm' : ¬ (m1 = false ∧ m2 = false) := by rcases hm with rfl | rfl <;> simp
  obtain ⟨k1, a⟩ := c1
  obtain ⟨k2, b⟩ := c2
  dsimp only at h1 h2 p1 p2
  have dBV : Disjoint (Z.t .basal).ids (Z.t .v).ids := net_disj Z (by decide)
  have dBI : Disjoint (Z.t .basal).ids (Z.t .i).ids := net_disj Z (by decide)
  have dVI : Disjoint (Z.t .v).ids (Z.t .i).ids := net_disj Z (by decide)
  have same : ∀ s, zAllowed s s s 0 → (∀ s' n, zAllowed s s s' n → s' = s) → (∀ n, zAllowed s s s n) →
      (grow (Z.t s) (a.b + b.b) (a.e + b.e - 2)).count (some k) = if ZReach Z ⟨s, a⟩ ⟨s, b⟩ k then 1 else 0 := by
    intro s _ hs hs'
    rw [show grow (Z.t s) (a.b + b.b) (a.e + b.e - 2) = sameKind (Z.t s) a b from rfl, sameKind_exact _ _ _ h1 h2]
    refine if_congr ?_ rfl rfl
    constructor
    · rintro ⟨m, hm, n, hn, h⟩
      exact ⟨m, hm, n, hn, s, m + n, hs' _, hpos _ _ _ h, by cases s <;> simp [zsg]; omega, h⟩
    · rintro ⟨m, hm, n, hn, s', x, h, _, e, hf⟩
      obtain rfl := hs _ _ h
      refine ⟨m, hm, n, hn, ?_⟩
      have : m + n = x := by cases s' <;> simp [zsg] at e <;> omega
      rwa [this]
  rw [zrPair, if_neg hm']
  cases k1 <;> cases k2 <;> (try (exfalso; simp at hr; done)) <;>
    simp only [on, lo, hi, unit, only, reduceCtorEq, and_self, and_true, and_false, or_true, or_false, if_true, if_false, and_false, add_zero, zero_add]
  case v.v => rw [zrVV_prods]; exact same .v rfl (fun _ _ h => h) (fun _ => rfl)
  case basal.basal => exact same .basal rfl (fun _ _ h => h) (fun _ => rfl)
  case i.i => exact same .i rfl (fun _ _ h => h) (fun _ => rfl)
  case v.basal =>
    have e := zrVB_exact (Z.t .basal) (Z.t .v) dBV a b h1 h2 k
    rw [zrVB] at e
    rw [show a.b + b.b = a.b + 0 + 0 + b.b by ring, show a.e + 1 + 1 + b.e - 4 = a.e + 1 + 1 + b.e - 4 from rfl, e]
    refine if_congr ?_ rfl rfl
    simp only [ZReach, zAllowed, zsg]
    constructor
    · rintro ⟨m, hm, n, hn, ⟨h, h'⟩ | ⟨h, h'⟩⟩
      · exact ⟨m, hm, n, hn, .basal, m + n, .inl ⟨rfl, h⟩, by omega, rfl, h'⟩
      · exact ⟨m, hm, n, hn, .v, m + n, .inr ⟨rfl, h⟩, hpos _ _ _ h', rfl, h'⟩
    · rintro ⟨m, hm, n, hn, s, x, ⟨rfl, h⟩ | ⟨rfl, h⟩, _, e, hf⟩
      · obtain rfl : x = m + n := e
        exact ⟨m, hm, n, hn, .inl ⟨h, hf⟩⟩
      · obtain rfl : x = m + n := e
        exact ⟨m, hm, n, hn, .inr ⟨h, hf⟩⟩
  case basal.i =>
    have e := (zrIB_exact (Z.t .basal) (Z.t .v) (Z.t .i) dVI dBV dBI a b h1 h2).1 k
    rw [zrIB] at e
    rw [show a.b - 1 - b.e + 2 = a.b + 0 - b.e - 1 + 2 by ring, show a.e + 1 - 2 - 0 - b.b = a.e + 1 - 2 - b.b - 0 by ring, e]
    refine if_congr ?_ rfl rfl
    simp only [ReachIB, ZReach, zAllowed, zsg]
    constructor
    · rintro ⟨m, hm, n, hn, ⟨h, h'⟩ | ⟨h, h'', h'⟩ | ⟨h, h'⟩⟩
      · exact ⟨m, hm, n, hn, .basal, m - n, .inl ⟨rfl, by omega⟩, by omega, by simp only; ring, h'⟩
      · exact ⟨m, hm, n, hn, .v, m - n, .inr (.inl ⟨rfl, by omega⟩), by omega, by simp only; ring, h'⟩
      · exact ⟨m, hm, n, hn, .i, n - m, .inr (.inr rfl), by omega, by simp only; ring, h'⟩
    · rintro ⟨m, hm, n, hn, s, x, ⟨rfl, h⟩ | ⟨rfl, h⟩ | rfl, h0, e, hf⟩
      · obtain rfl : x = m - n := by simp only at e; omega
        exact ⟨m, hm, n, hn, .inl ⟨by omega, hf⟩⟩
      · obtain rfl : x = m - n := by simp only at e; omega
        exact ⟨m, hm, n, hn, .inr (.inl ⟨by omega, by omega, hf⟩)⟩
      · obtain rfl : x = n - m := by simp only at e; omega
        exact ⟨m, hm, n, hn, .inr (.inr ⟨by omega, hf⟩)⟩
  case v.i =>
    have e := (zrIV_exact (Z.t .v) (Z.t .i) dVI a b h1 h2).1 k
    rw [zrIV] at e
    rw [show a.b - 1 - b.e + 2 = a.b + 0 - b.e - 1 + 2 by ring, show a.e + 1 - 2 - 0 - b.b = a.e + 1 - 2 - b.b - 0 by ring, e]
    refine if_congr ?_ rfl rfl
    simp only [ReachIV, ZReach, zAllowed, zsg]
    constructor
    · rintro ⟨m, hm, n, hn, ⟨h, h'⟩ | ⟨h, h'⟩⟩
      · exact ⟨m, hm, n, hn, .v, m - n, .inl rfl, by omega, by simp only; ring, h'⟩
      · exact ⟨m, hm, n, hn, .i, n - m, .inr rfl, by omega, by simp only; ring, h'⟩
    · rintro ⟨m, hm, n, hn, s, x, rfl | rfl, h0, e, hf⟩
      · obtain rfl : x = m - n := by simp only at e; omega
        exact ⟨m, hm, n, hn, .inl ⟨by omega, hf⟩⟩
      · obtain rfl : x = n - m := by simp only at e; omega
        exact ⟨m, hm, n, hn, .inr ⟨by omega, hf⟩⟩

open Classical in
/-- **C73** Zirconium: for every pair of clusters of which one can move, each cluster that some member of the first and some member of the second can make, of the announced
kind, is the product of exactly one production, and no other cluster is a product. -/
theorem zr_exact (hpos : ∀ s x k, (Z.t s).find x = some k → 0 < x) (hm : m1 = true ∨ m2 = true) (c1 c2 : Cl ZK)
    (h1 : c1.reg.b < c1.reg.e) (h2 : c2.reg.b < c2.reg.e) (p1 : 0 < c1.reg.b) (p2 : 0 < c2.reg.b) (k : ℕ) :
    (zrPair Z m1 m2 c1 c2).prods.count (some k) = if ZReach Z c1 c2 k then 1 else 0 := by
  by_cases hr : c1.kind = c2.kind ∨ (c1.kind = .v ∧ c2.kind = .basal) ∨ (c1.kind = .basal ∧ c2.kind = .i) ∨ (c1.kind = .v ∧ c2.kind = .i)
  · exact zr_exact_ordered hpos hm c1 c2 h1 h2 p1 p2 hr k
  · rw [zr_symm, zr_exact_ordered hpos hm.symm c2 c1 h2 h1 p2 p1 ?_ k]
    · exact if_congr (zreach_comm Z c2 c1 k) rfl rfl
    · revert hr
      cases c1.kind <;> cases c2.kind <;> simp

open Classical in
/-- **C73** Zirconium: vacancy or basal clusters and interstitial clusters recombine without a product exactly when they have a size in common, and then once; no other pair does. -/
theorem zr_recombine (hm : m1 = true ∨ m2 = true) (c1 c2 : Cl ZK) (h1 : c1.reg.b < c1.reg.e) (h2 : c2.reg.b < c2.reg.e) :
    (zrPair Z m1 m2 c1 c2).prods.count none =
      if (c1.kind = .i ∧ c2.kind ≠ .i ∨ c1.kind ≠ .i ∧ c2.kind = .i) ∧ ∃ n, n ∈ c1.reg.pts ∧ n ∈ c2.reg.pts then 1 else 0 := by
  have dBV : Disjoint (Z.t .basal).ids (Z.t .v).ids := net_disj Z (by decide)
  have dBI : Disjoint (Z.t .basal).ids (Z.t .i).ids := net_disj Z (by decide)
  have dVI : Disjoint (Z.t .v).ids (Z.t .i).ids := net_disj Z (by decide)
  have main : ∀ (m1 m2 : Bool) (s : ZK) (a b : Ival), m1 = true ∨ m2 = true → s ≠ .i → a.b < a.e → b.b < b.e →
      (zrPair Z m1 m2 ⟨s, a⟩ ⟨.i, b⟩).prods.count none = if ∃ n, n ∈ a.pts ∧ n ∈ b.pts then 1 else 0 := by
    intro m1 m2 s a b hm hs h1 h2
    have hm' : ¬ (m1 = false ∧ m2 = false) := by rcases hm with rfl | rfl <;> simp
    rw [zrPair, if_neg hm']
    cases s <;> simp only [on, lo, hi, unit, only, reduceCtorEq, and_self, and_true, and_false, or_true, or_false, if_true, if_false, and_false, add_zero, zero_add]
    · have e := (zrIV_exact (Z.t .v) (Z.t .i) dVI a b h1 h2).2
      rw [zrIV] at e
      rw [show a.b - 1 - b.e + 2 = a.b + 0 - b.e - 1 + 2 by ring, show a.e + 1 - 2 - 0 - b.b = a.e + 1 - 2 - b.b - 0 by ring, e]
    · have e := (zrIB_exact (Z.t .basal) (Z.t .v) (Z.t .i) dVI dBV dBI a b h1 h2).2
      rw [zrIB] at e
      rw [show a.b - 1 - b.e + 2 = a.b + 0 - b.e - 1 + 2 by ring, show a.e + 1 - 2 - 0 - b.b = a.e + 1 - 2 - b.b - 0 by ring, e]
    · exact absurd rfl hs
  have hm' : ¬ (m1 = false ∧ m2 = false) := by rcases hm with rfl | rfl <;> simp
  obtain ⟨k1, a⟩ := c1
  obtain ⟨k2, b⟩ := c2
  dsimp only at h1 h2
  have sw : (∃ n, n ∈ b.pts ∧ n ∈ a.pts) ↔ ∃ n, n ∈ a.pts ∧ n ∈ b.pts := exists_congr fun n => and_comm
  have vb : ∀ xs : List ℤ, (prevLoop none (xs.map (visitVB (Z.t .basal) (Z.t .v)))).count none = 0 := by
    intro xs
    rw [prevLoop_count_none, List.count_eq_zero, List.mem_map]
    rintro ⟨x, _, h⟩
    unfold visitVB at h
    split at h <;> exact Visit.ofFind_ne_zero _ h
  by_cases hk2 : k2 = .i
  · subst hk2
    by_cases hk1 : k1 = .i
    · subst hk1
      rw [if_neg (by simp), zrPair, if_neg hm']
      simp only [on, reduceCtorEq, and_false, or_self, if_false, and_self, if_true, false_and]
      exact grow_none _ _ _
    · rw [main m1 m2 k1 a b hm hk1 h1 h2]
      exact if_congr (by simp [hk1]) rfl rfl
  · by_cases hk1 : k1 = .i
    · subst hk1
      rw [zr_symm, main m2 m1 k2 b a hm.symm hk2 h2 h1]
      exact if_congr (by rw [sw]; simp [hk2]) rfl rfl
    · rw [if_neg (by simp [hk1, hk2]), zrPair, if_neg hm']
      cases k1 <;> cases k2 <;> (try exact absurd rfl hk1) <;> (try exact absurd rfl hk2) <;>
        simp only [on, only, reduceCtorEq, and_self, and_true, and_false, or_true, or_false, if_true, if_false, and_false, grow_none, vb]
      rw [zrVV_prods]
      exact grow_none _ _ _

/-- Zirconium: two clusters that cannot move do not react. -/
theorem zr_immobile (c1 c2 : Cl ZK) : zrPair Z false false c1 c2 = ⟨[], []⟩ := rfl

/-! ### Zirconium: dissociations -/

theorem zrVV_diss_v (u : Bool) (k : ℕ) (hk : Z.kindOf k ≠ .basal) (p : Option ℕ) (xs : List ℤ) :
    (zrVVLoop Z u p xs).diss.count k = if u = true then (zrVVLoop Z u p xs).prods.count (some k) else 0 := by
  induction xs generalizing p with
  | nil => simp [zrVVLoop]
  | cons x xs ih =>
    rw [zrVVLoop]
    rcases e : (Z.t .v).find x with _ | j
    · exact ih p
    · dsimp only
      by_cases h : p = some j
      · rw [if_pos h]; exact ih p
      · rw [if_neg h]
        have hs : (if x = 9 ∧ u = true then (match (Z.t .basal).find x with
          | none => []
          | some b => if b = j then [] else [b]) else [] : List ℕ).count k = 0 := by
          rw [List.count_eq_zero]
          intro hmem
          split at hmem
          · rcases eb : (Z.t .basal).find x with _ | b
            · rw [eb] at hmem; simp at hmem
            · rw [eb] at hmem
              dsimp only at hmem
              split at hmem
              · simp at hmem
              · rw [List.mem_singleton] at hmem
                subst hmem
                exact hk (find_kind Z eb)
          · simp at hmem
        dsimp only
        rw [List.count_append, List.count_append]
        refine (congrArg₂ (· + ·) (congrArg₂ (· + ·) rfl hs) (ih _)).trans ?_
        clear hs
        cases u <;> simp [List.count_cons] <;> omega

theorem grow_kind {κ : Type} (N : Net κ) (s : κ) (x y : ℤ) (k : ℕ) (h : some k ∈ grow (N.t s) x y) : N.kindOf k = s := by
  obtain ⟨z, _, hz⟩ := List.mem_map.mp (prevLoop_mem h)
  exact find_kind N (Visit.ofFind_eq_hit.mp hz)

/-- **C73** Zirconium, all dissociations except those of basal clusters into two vacancy clusters: a cluster dissociates into the pair exactly when it is a product of the pair and
the pair is two vacancy clusters or two interstitial clusters of which one begins at size 1, or a vacancy cluster beginning at size 1 and a basal cluster, the product being basal. -/
theorem zr_diss (c1 c2 : Cl ZK) (k : ℕ) (hk : c1.kind = .v → c2.kind = .v → Z.kindOf k ≠ .basal) :
    (zrPair Z m1 m2 c1 c2).diss.count k =
      if (c1.kind = c2.kind ∧ c1.kind ≠ .basal ∧ (c1.reg.b = 1 ∨ c2.reg.b = 1)) ∨
        (Z.kindOf k = .basal ∧ (c1.kind = .v ∧ c1.reg.b = 1 ∧ c2.kind = .basal ∨ c1.kind = .basal ∧ c2.kind = .v ∧ c2.reg.b = 1))
      then (zrPair Z m1 m2 c1 c2).prods.count (some k) else 0 := by
  obtain ⟨k1, a⟩ := c1
  obtain ⟨k2, b⟩ := c2
  by_cases hm : m1 = false ∧ m2 = false
  · simp [zrPair, hm, only]
  rw [zrPair, if_neg hm]
  have bo : ∀ (u : Bool) (l : List (Option ℕ)), (if u then basalOnly Z l else []).count k = if u = true ∧ Z.kindOf k = .basal then l.count (some k) else 0 := by
    intro u l
    cases u
    · simp
    · by_cases hb : Z.kindOf k = .basal
      · simp only [if_true, hb, and_self, basalOnly, ← filterMap_count]
        rw [List.count_filter (by simpa using hb)]
      · simp only [if_true, hb, and_false, if_false, List.count_eq_zero, basalOnly, List.mem_filter]
        simp [hb]
  cases k1 <;> cases k2 <;>
    simp only [on, lo, hi, unit, only, reduceCtorEq, and_self, and_true, and_false, or_true, or_false, if_true, if_false, and_false, add_zero, zero_add, true_and, false_and, false_or,
      ne_eq, not_true_eq_false, not_false_eq_true, List.count_nil, bo]
  case v.v =>
    rw [zrVV_diss_v _ k (hk rfl rfl)]
    by_cases h : a.b = 1 ∨ b.b = 1
    · rw [if_pos h, if_pos (by simpa using h)]
    · rw [if_neg h, if_neg (by simpa using h)]
  case i.i => exact diss_count _ _ _ (by simp)
  case v.basal => 
    refine if_congr ?_ rfl rfl
    simp [and_comm]
  case basal.v =>
    refine if_congr ?_ rfl rfl
    simp [and_comm]

theorem special_stuck (u : Bool) (j q : ℕ) (hj : (Z.t .v).find 9 = some j) (hq : Z.kindOf q = .basal) (x0 : ℤ) (hx0 : (Z.t .v).find x0 = some j) (xs : List ℤ)
    (hs : xs.Pairwise (· < ·)) (h0 : ∀ x ∈ xs, x0 < x) (p : Option ℕ) (hp : p = some j ∨ ∀ x ∈ xs, 9 < x) : (zrVVLoop Z u p xs).diss.count q = 0 := by
  induction xs generalizing p with
  | nil => rfl
  | cons x xs ih =>
    have hs' := List.pairwise_cons.mp hs
    have h0' : ∀ y ∈ xs, x0 < y := fun y hy => h0 y (List.mem_cons_of_mem _ hy)
    rw [zrVVLoop]
    rcases e : (Z.t .v).find x with _ | i
    · refine ih hs'.2 h0' p ?_
      rcases hp with hp | hp
      · exact .inl hp
      · exact .inr fun y hy => hp y (List.mem_cons_of_mem _ hy)
    · dsimp only
      by_cases h : p = some i
      · rw [if_pos h]
        refine ih hs'.2 h0' p ?_
        rcases hp with hp | hp
        · exact .inl hp
        · exact .inr fun y hy => hp y (List.mem_cons_of_mem _ hy)
      · rw [if_neg h]
        have hgt : 9 < x := by
          rcases hp with hp | hp
          · by_contra hle
            have := find_between (Z.t .v) hx0 hj (le_of_lt (h0 x List.mem_cons_self)) (by omega)
            rw [e] at this
            exact h (by rw [hp, Option.some.inj this])
          · exact hp x List.mem_cons_self
        have ih' := ih hs'.2 h0' (some i) (.inr fun y hy => lt_trans hgt (hs'.1 y hy))
        have hi : i ≠ q := by
          rintro rfl
          have := find_kind Z e
          rw [hq] at this
          exact absurd this (by decide)
        have hn : ¬ (x = 9 ∧ u = true) := by omega
        simp only [if_neg hn, List.append_nil, List.count_append, ih', add_zero, List.count_eq_zero]
        cases u <;> simp [Ne.symm hi]

theorem special_count (u : Bool) (q : ℕ) (hq : Z.kindOf q = .basal) (xs : List ℤ) (hs : xs.Pairwise (· < ·)) (p : Option ℕ)
    (hp : ∀ j, (Z.t .v).find 9 = some j → p ≠ some j) :
    (zrVVLoop Z u p xs).diss.count q = if u = true ∧ 9 ∈ xs ∧ (Z.t .basal).find 9 = some q ∧ ∃ j, (Z.t .v).find 9 = some j ∧ ∀ x ∈ xs, x < 9 → (Z.t .v).find x ≠ some j then 1 else 0 := by
  classical
  induction xs generalizing p with
  | nil => simp [zrVVLoop]
  | cons x xs ih =>
    have hs' := List.pairwise_cons.mp hs
    rw [zrVVLoop]
    have vq : ∀ i y, (Z.t .v).find y = some i → i ≠ q := by
      rintro i y h rfl
      have := find_kind Z h
      rw [hq] at this
      exact absurd this (by decide)
    rcases e : (Z.t .v).find x with _ | i
    · dsimp only
      rw [ih hs'.2 p hp]
      refine if_congr ?_ rfl rfl
      refine and_congr_right fun _ => ?_
      constructor
      · rintro ⟨h9, hb, j, hj, hl⟩
        refine ⟨List.mem_cons_of_mem _ h9, hb, j, hj, fun y hy hy' => ?_⟩
        rcases List.mem_cons.mp hy with rfl | hy
        · rw [e]; simp
        · exact hl y hy hy'
      · rintro ⟨h9, hb, j, hj, hl⟩
        refine ⟨?_, hb, j, hj, fun y hy => hl y (List.mem_cons_of_mem _ hy)⟩
        rcases List.mem_cons.mp h9 with h9 | h9
        · rw [h9, e] at hj; simp at hj
        · exact h9
    · dsimp only
      by_cases h : p = some i
      · rw [if_pos h, ih hs'.2 p hp]
        refine if_congr ?_ rfl rfl
        refine and_congr_right fun _ => ?_
        constructor
        · rintro ⟨h9, hb, j, hj, hl⟩
          refine ⟨List.mem_cons_of_mem _ h9, hb, j, hj, fun y hy hy' => ?_⟩
          rcases List.mem_cons.mp hy with rfl | hy
          · rw [e]; rintro h'
            exact hp j hj (h.trans h')
          · exact hl y hy hy'
        · rintro ⟨h9, hb, j, hj, hl⟩
          refine ⟨?_, hb, j, hj, fun y hy => hl y (List.mem_cons_of_mem _ hy)⟩
          rcases List.mem_cons.mp h9 with h9 | h9
          · subst h9
            exact absurd h (hp i e)
          · exact h9
      · rw [if_neg h]
        have c0 : (if u = true then [i] else [] : List ℕ).count q = 0 := by
          rw [List.count_eq_zero]
          cases u <;> simp [Ne.symm (vq i x e)]
        simp only [List.count_append, c0, zero_add]
        by_cases hx : x = 9
        · subst hx
          have hrest : ∀ y ∈ xs, (9 : ℤ) < y := hs'.1
          rw [special_stuck u i q e hq 9 e xs hs'.2 hrest (some i) (.inl rfl), add_zero]
          have hn : ∀ y ∈ (9 : ℤ) :: xs, y < 9 → (Z.t .v).find y ≠ some i := by
            intro y hy hy'
            rcases List.mem_cons.mp hy with rfl | hy
            · exact absurd hy' (lt_irrefl _)
            · have := hrest y hy; omega
          by_cases hu : u = true
          · rw [if_pos ⟨rfl, hu⟩]
            rcases eb : (Z.t .basal).find 9 with _ | b
            · simp
            · have hbi : b ≠ i := by
                rintro rfl
                have h1 := find_kind Z eb
                rw [find_kind Z e] at h1
                exact absurd h1 (by decide)
              dsimp only
              rw [if_neg hbi, List.count_singleton]
              refine if_congr ?_ rfl rfl
              constructor
              · intro hbq
                have : b = q := by simpa using hbq
                exact ⟨hu, List.mem_cons_self, by rw [this], i, e, hn⟩
              · rintro ⟨_, _, hb, _⟩
                simpa using hb
          · rw [if_neg (by simp [hu]), if_neg (by simp [hu])]; rfl
        · rw [if_neg (by simp [hx]), List.count_nil, zero_add]
          by_cases hij : (Z.t .v).find 9 = some i
          · by_cases hlt : x < 9
            · rw [special_stuck u i q hij hq x e xs hs'.2 hs'.1 (some i) (.inl rfl), if_neg]
              rintro ⟨_, _, _, j, hj, hl⟩
              rw [hij] at hj
              obtain rfl := Option.some.inj hj
              exact hl x List.mem_cons_self hlt e
            · rw [special_stuck u i q hij hq 9 hij xs hs'.2 (fun y hy => by have := hs'.1 y hy; omega) (some i) (.inl rfl), if_neg]
              rintro ⟨_, h9, _⟩
              rcases List.mem_cons.mp h9 with h9 | h9
              · exact hx h9.symm
              · have := hs'.1 9 h9; omega
          · rw [ih hs'.2 (some i) (fun j hj h' => hij (by rw [hj, h']))]
            refine if_congr ?_ rfl rfl
            refine and_congr_right fun _ => ?_
            constructor
            · rintro ⟨h9, hb, j, hj, hl⟩
              refine ⟨List.mem_cons_of_mem _ h9, hb, j, hj, fun y hy hy' => ?_⟩
              rcases List.mem_cons.mp hy with rfl | hy
              · rw [e]; rintro h'
                exact hij (by rw [hj, h'])
              · exact hl y hy hy'
            · rintro ⟨h9, hb, j, hj, hl⟩
              refine ⟨?_, hb, j, hj, fun y hy => hl y (List.mem_cons_of_mem _ hy)⟩
              rcases List.mem_cons.mp h9 with h9 | h9
              · exact absurd h9.symm hx
              · exact h9

open Classical in
/-- **C73** Zirconium: the basal cluster of size 9 dissociates into two vacancy clusters exactly when one of them begins at size 1, they can add up to 9, there is a
vacancy cluster of size 9, and that cluster contains no smaller sum of the two; no other basal cluster dissociates into two vacancy clusters. -/
theorem zr_basal9 (hm : m1 = true ∨ m2 = true) (a b : Ival) (h1 : a.b < a.e) (h2 : b.b < b.e) (q : ℕ) (hq : Z.kindOf q = .basal) :
    (zrPair Z m1 m2 ⟨.v, a⟩ ⟨.v, b⟩).diss.count q =
      if (a.b = 1 ∨ b.b = 1) ∧ (∃ m ∈ a.pts, ∃ n ∈ b.pts, m + n = 9) ∧ (Z.t .basal).find 9 = some q ∧
        ∃ j, (Z.t .v).find 9 = some j ∧ ∀ m ∈ a.pts, ∀ n ∈ b.pts, m + n < 9 → (Z.t .v).find (m + n) ≠ some j then 1 else 0 := by
  have hm' : ¬ (m1 = false ∧ m2 = false) := by rcases hm with rfl | rfl <;> simp
  rw [zrPair, if_neg hm']
  simp only [lo, hi, and_self, if_true, unit]
  rw [special_count _ q hq _ (upTo_sorted _ _) none (by simp)]
  refine if_congr ?_ rfl rfl
  refine and_congr (by simp) (and_congr ?_ (and_congr_right fun _ => exists_congr fun j => and_congr_right fun _ => ?_))
  · rw [mem_upTo, reach_sum a b h1 h2]
  · constructor
    · intro h m hm n hn hlt
      exact h _ (mem_upTo.mpr ((reach_sum a b h1 h2 _).mpr ⟨m, hm, n, hn, rfl⟩)) hlt
    · intro h x hx hlt
      obtain ⟨m, hm, n, hn, rfl⟩ := (reach_sum a b h1 h2 _).mp (mem_upTo.mp hx)
      exact h m hm n hn hlt

/-- **C73 (negation)** Without a vacancy cluster of size 9 the basal cluster of size 9 never dissociates. -/
theorem zr_basal9_stuck (hv : (Z.t .v).find 9 = none) (q : ℕ) (hq : ∀ x, (Z.t .basal).find x = some q ↔ x = 9) (c1 c2 : Cl ZK) (h1 : c1.reg.b < c1.reg.e) (h2 : c2.reg.b < c2.reg.e) :
    (zrPair Z m1 m2 c1 c2).diss.count q = 0 := by
  classical
  have hk : Z.kindOf q = .basal := find_kind Z ((hq 9).mpr rfl)
  by_cases hm : m1 = false ∧ m2 = false
  · simp [zrPair, hm, only]
  have hm' : m1 = true ∨ m2 = true := by cases m1 <;> cases m2 <;> simp at hm ⊢
  obtain ⟨k1, a⟩ := c1
  obtain ⟨k2, b⟩ := c2
  dsimp only at h1 h2
  by_cases hvv : k1 = .v ∧ k2 = .v
  · obtain ⟨rfl, rfl⟩ := hvv
    rw [zr_basal9 hm' a b h1 h2 q hk, if_neg]
    rintro ⟨_, _, _, j, hj, _⟩
    rw [hv] at hj
    simp at hj
  · rw [zr_diss ⟨k1, a⟩ ⟨k2, b⟩ q (fun e1 e2 => absurd ⟨e1, e2⟩ hvv)]
    have vb : ∀ xs : List ℤ, (prevLoop none (xs.map (visitVB (Z.t .basal) (Z.t .v)))).count (some q) = 0 := by
      intro xs
      rw [List.count_eq_zero]
      intro hmem
      obtain ⟨x, _, hx⟩ := List.mem_map.mp (prevLoop_mem hmem)
      unfold visitVB at hx
      split at hx
      · have := (hq x).mp (Visit.ofFind_eq_hit.mp hx); omega
      · have := find_kind Z (Visit.ofFind_eq_hit.mp hx)
        rw [hk] at this
        exact absurd this (by decide)
    have ii : ∀ x y, (grow (Z.t .i) x y).count (some q) = 0 := by
      intro x y
      rw [List.count_eq_zero]
      intro hmem
      have := grow_kind Z .i x y q hmem
      rw [hk] at this
      exact absurd this (by decide)
    rw [zrPair, if_neg hm]
    cases k1 <;> cases k2 <;> (try (exfalso; simp at hvv; done)) <;>
      simp only [on, only, reduceCtorEq, and_self, and_true, and_false, or_true, or_false, if_true, if_false, and_false, vb, ii, ite_self, ne_eq, not_true_eq_false, false_and]

/-! ### Zirconium: examples -/

/-- Vacancy clusters of sizes 1 to 12, basal clusters of sizes 9 to 18 and interstitials of sizes 1 to 5, one size each; `v` says whether the vacancy cluster of size 9 is there. -/
def zrPresent (v : Bool) : ZK → ℤ → Prop
  | .v, x => 1 ≤ x ∧ x ≤ 12 ∧ (x = 9 → v = true)
  | .basal, x => 9 ≤ x ∧ x ≤ 18
  | .i, x => 1 ≤ x ∧ x ≤ 5

instance (v : Bool) : ∀ s x, Decidable (zrPresent v s x)
  | .v, _ => inferInstanceAs (Decidable (_ ∧ _ ∧ _))
  | .basal, _ => inferInstanceAs (Decidable (_ ∧ _))
  | .i, _ => inferInstanceAs (Decidable (_ ∧ _))

theorem zrPresent_pos {v : Bool} {s : ZK} {x : ℤ} (h : zrPresent v s x) : 1 ≤ x := by
  cases s <;> simp only [zrPresent] at h <;> omega

def zrRank : ZK → ℕ
  | .v => 0 | .basal => 1 | .i => 2

def zrKind (k : ℕ) : ZK := if k % 3 = 0 then .v else if k % 3 = 1 then .basal else .i

def zrNet (v : Bool) : Net ZK where
  t s :=
    { find := fun x => if zrPresent v s x then some (3 * x.toNat + zrRank s) else none
      ids := {k | k % 3 = zrRank s ∧ zrPresent v s ((k / 3 : ℕ) : ℤ)}
      reg := fun k => ⟨((k / 3 : ℕ) : ℤ), ((k / 3 : ℕ) : ℤ) + 1⟩
      spec := by
        intro x k
        have hr : zrRank s < 3 := by cases s <;> decide
        simp only [Set.mem_ofPred_eq]
        constructor
        · intro h
          split at h
          · next hp =>
            have h1 := zrPresent_pos hp
            obtain rfl := Option.some.inj h
            have h2 : (((3 * x.toNat + zrRank s) / 3 : ℕ) : ℤ) = x := by omega
            exact ⟨⟨by omega, by rw [h2]; exact hp⟩, by omega, by omega⟩
          · simp at h
        · rintro ⟨⟨h1, h2⟩, h3, h4⟩
          obtain rfl : x = ((k / 3 : ℕ) : ℤ) := by omega
          rw [if_pos h2]
          congr 1
          omega
      nonneg := fun k _ => Int.natCast_nonneg _ }
  kindOf := zrKind
  spec := by
    rintro s k ⟨h, _⟩
    cases s <;> simp only [zrRank] at h <;> simp [zrKind, h]

/-- The cluster of one size. -/
def zone (s : ZK) (x : ℤ) : Cl ZK := ⟨s, ⟨x, x + 1⟩⟩

/-- V_1 + V_8: the vacancy cluster of size 9, which dissociates, and so does the basal cluster of size 9. -/
example : zrPair (zrNet true) true true (zone .v 1) (zone .v 8) = ⟨[some 27], [27, 28]⟩ := by decide +kernel

/-- V_1 + Basal_9: Basal_10; V_1 + Basal_10 likewise. -/
example : zrPair (zrNet true) true false (zone .v 1) (zone .basal 9) = ⟨[some 31], [31]⟩ := by decide +kernel

/-- I_2 + Basal_10: V_8; I_3 + V_3: nothing left; two clusters that do not move: no reaction. -/
example : zrPair (zrNet true) true false (zone .i 2) (zone .basal 10) = ⟨[some 24], []⟩ ∧ zrPair (zrNet true) true false (zone .i 3) (zone .v 3) = ⟨[none], []⟩ ∧
    zrPair (zrNet true) false false (zone .i 3) (zone .v 3) = ⟨[], []⟩ := by decide +kernel

/-- The hypotheses of `zr_basal9_stuck`. -/
example (c1 c2 : Cl ZK) (h1 : c1.reg.b < c1.reg.e) (h2 : c2.reg.b < c2.reg.e) : (zrPair (zrNet false) true true c1 c2).diss.count 28 = 0 := by
  refine zr_basal9_stuck (by decide +kernel) 28 (fun x => ?_) c1 c2 h1 h2
  rw [((zrNet false).t .basal).spec]
  change (28 % 3 = 1 ∧ zrPresent false .basal (9 : ℤ)) ∧ (9 : ℤ) ≤ x ∧ x < (9 : ℤ) + 1 ↔ _
  have : zrPresent false .basal (9 : ℤ) := by decide
  constructor
  · rintro ⟨_, _, _⟩; omega
  · rintro rfl; exact ⟨⟨rfl, this⟩, by omega, by omega⟩

end Xolotl.Network.Pairs
