import Verif.Network.Dispatch
import Verif.Network.ProductsProps
import Mathlib.Tactic.IntervalCases

/-!
# C74: the reactions of a pair of clusters in tungsten, iron and fuel
-/

set_option linter.unusedSectionVars false

namespace Xolotl.Network.Dispatch

open Xolotl.Network Xolotl.Network.Products

variable {σ : Type} [DecidableEq σ] {sp : List σ}

/-- How the clusters of these networks look (`Verif.Network.SelectProps`): an interstitial cluster holds nothing else; any other cluster holds no interstitial, and every other species
is either absent from the whole cluster or present in all of it. Sizes fit in 32 bits. -/
structure Lay (sp : List σ) (c : Clu σ) : Prop where
  v : Small c.v
  i : Small c.i
  g : ∀ l ∈ sp, Small (c.g l)
  kind : (0 < c.i.b ∧ c.v = ⟨0, 1⟩ ∧ ∀ l ∈ sp, c.g l = ⟨0, 1⟩) ∨
    (c.i = ⟨0, 1⟩ ∧ (c.v = ⟨0, 1⟩ ∨ 0 < c.v.b) ∧ (∀ l ∈ sp, c.g l = ⟨0, 1⟩ ∨ 0 < (c.g l).b) ∧ (0 < c.v.b ∨ ∃ l ∈ sp, 0 < (c.g l).b))

/-- Cluster `p` holds the result of joining some member of `c1` and some member of `c2`: the gas adds up and so does the number of vacancies less interstitials. -/
def Reach (sp : List σ) (c1 c2 p : Clu σ) : Prop :=
  ∃ x1 v1 i1 x2 v2 i2 x v i, c1.Mem sp x1 v1 i1 ∧ c2.Mem sp x2 v2 i2 ∧ p.Mem sp x v i ∧ (∀ l ∈ sp, x l = x1 l + x2 l) ∧ v - i = v1 + v2 - i1 - i2

/-- Some member of `c1` and some member of `c2` leave nothing. -/
def Annihilate (sp : List σ) (c1 c2 : Clu σ) : Prop :=
  ∃ x1 v1 i1 x2 v2 i2, c1.Mem sp x1 v1 i1 ∧ c2.Mem sp x2 v2 i2 ∧ (∀ l ∈ sp, x1 l + x2 l = 0) ∧ v1 + v2 = i1 + i2

/-- Some pairs of members have more interstitials than vacancies, others do not. -/
def Straddle (c1 c2 : Clu σ) : Prop := c1.v.b + c2.v.b < (c1.i.e - 1) + (c2.i.e - 1) ∧ c1.i.b + c2.i.b ≤ (c1.v.e - 1) + (c2.v.e - 1)

/-! ### Preliminaries -/

theorem onI_of {c : Clu σ} (h : Lay sp c) (hi : 0 < c.i.b) : onI sp c ∧ c.v = ⟨0, 1⟩ ∧ ∀ l ∈ sp, c.g l = ⟨0, 1⟩ := by
  rcases h.kind with ⟨_, h2, h3⟩ | ⟨h1, _⟩
  · exact ⟨⟨hi, by rw [h2], fun l hl => by rw [h3 l hl]⟩, h2, h3⟩
  · rw [h1] at hi; simp at hi

theorem not_onI_i {c : Clu σ} (h : Lay sp c) (hn : ¬ onI sp c) : c.i = ⟨0, 1⟩ := by
  rcases h.kind with ⟨h1, _⟩ | ⟨h1, _⟩
  · exact absurd (onI_of h h1).1 hn
  · exact h1

theorem onV_of {c : Clu σ} (h : Lay sp c) (hv : onV sp c) : c.i = ⟨0, 1⟩ ∧ ∀ l ∈ sp, c.g l = ⟨0, 1⟩ := by
  rcases h.kind with ⟨h1, _⟩ | ⟨h1, _, h3, _⟩
  · exact absurd hv.2.1 (by omega)
  · refine ⟨h1, fun l hl => (h3 l hl).resolve_right ?_⟩
    have := hv.2.2 l hl; omega

theorem not_both {c : Clu σ} (h1 : onV sp c) (h2 : onI sp c) : False := by
  have := h1.1; have := h2.2.1; omega

/-- A cluster with a member without gas lies on the vacancy or interstitial axis. -/
theorem pure_of {c : Clu σ} (h : Lay sp c) (hz : ∀ l ∈ sp, (c.g l).b ≤ 0) : onI sp c ∨ onV sp c := by
  rcases h.kind with ⟨h1, _⟩ | ⟨h1, _, _, h4⟩
  · exact .inl (onI_of h h1).1
  · refine .inr ⟨?_, by rw [h1], fun l hl => le_antisymm (hz l hl) (h.g l hl).1⟩
    rcases h4 with h4 | ⟨l, hl, h4⟩
    · exact h4
    · exact absurd (hz l hl) (by omega)

theorem gas_zero {c1 c2 : Clu σ} (h1 : Lay sp c1) (h2 : Lay sp c2) {x1 x2 : σ → ℤ} {v1 i1 v2 i2 : ℤ} (m1 : c1.Mem sp x1 v1 i1) (m2 : c2.Mem sp x2 v2 i2)
    (hz : ∀ l ∈ sp, x1 l + x2 l = 0) : (onI sp c1 ∨ onV sp c1) ∧ (onI sp c2 ∨ onV sp c2) := by
  constructor
  · refine pure_of h1 fun l hl => ?_
    have := mem_pts.mp (m1.1 l hl); have := mem_pts.mp (m2.1 l hl); have := hz l hl
    have := (h1.g l hl).1; have := (h2.g l hl).1
    omega
  · refine pure_of h2 fun l hl => ?_
    have := mem_pts.mp (m1.1 l hl); have := mem_pts.mp (m2.1 l hl); have := hz l hl
    have := (h1.g l hl).1; have := (h2.g l hl).1
    omega

theorem shiftV_zero (a b i1 i2 : Ival) : shiftV (boundsV a b i1 i2) 0 = boundsV a b i1 i2 := by
  simp only [shiftV, boundsV, wrap]
  ext <;> simp

theorem mem_goods (N : Net σ sp) {c1 c2 : Clu σ} {s k : ℕ} : k ∈ N.goods c1 c2 s ↔ k < N.n ∧
    ((sp.all fun l => axisGood ((N.cl k).g l) (boundsPlain (c1.g l) (c2.g l))) && axisGood (N.cl k).v (shiftV (boundsV c1.v c2.v c1.i c2.i) s)) = true := by
  rw [Net.goods, List.mem_filter, List.mem_range]

theorem goods_nodup (N : Net σ sp) (c1 c2 : Clu σ) (s : ℕ) : (N.goods c1 c2 s).Nodup := List.nodup_range.filter _

theorem mem_goods_zero (N : Net σ sp) {c1 c2 : Clu σ} {k : ℕ} :
    k ∈ N.goods c1 c2 0 ↔ k < N.n ∧ isGood sp c1.g c2.g (N.cl k).g c1.v c2.v c1.i c2.i (N.cl k).v = true := by
  rw [mem_goods, shiftV_zero]; rfl

/-- The general case finds exactly the clusters that hold a possible result. -/
theorem goods_iff (N : Net σ sp) (hN : ∀ k < N.n, Lay sp (N.cl k)) {c1 c2 : Clu σ} (h1 : Lay sp c1) (h2 : Lay sp c2)
    (hII : ¬ (onI sp c1 ∧ onI sp c2)) (hIV : ¬ pairIV sp c1 c2) (hs : ¬ Straddle c1 c2) (k : ℕ) :
    k ∈ N.goods c1 c2 0 ↔ k < N.n ∧ Reach sp c1 c2 (N.cl k) := by
  rw [mem_goods_zero]
  refine and_congr_right fun hk => ?_
  have hp := hN k hk
  -- a member without gas of both: two vacancy clusters
  have hvv : (onI sp c1 ∨ onV sp c1) → (onI sp c2 ∨ onV sp c2) → onV sp c1 ∧ onV sp c2 := by
    rintro (a | a) (b | b)
    · exact absurd ⟨a, b⟩ hII
    · exact absurd (.inl ⟨a, b⟩) hIV
    · exact absurd (.inr ⟨a, b⟩) hIV
    · exact ⟨a, b⟩
  by_cases hnn : (c1.i.e - 1) + (c2.i.e - 1) ≤ c1.v.b + c2.v.b
  · rw [general_exact_partial sp c1.g c2.g (N.cl k).g c1.v c2.v c1.i c2.i (N.cl k).v h1.g h2.g hp.g h1.v h2.v h1.i h2.i hp.v hnn]
    constructor
    · rintro ⟨a, b, av, bv, ai, bi, hg, h3, h4, h5, h6, h7⟩
      have m1 : c1.Mem sp a av ai := ⟨fun l hl => (hg l hl).1, h3, h5⟩
      have m2 : c2.Mem sp b bv bi := ⟨fun l hl => (hg l hl).2.1, h4, h6⟩
      rcases hp.kind with ⟨e1, e2, e3⟩ | ⟨e1, _⟩
      · exfalso
        have hz : ∀ l ∈ sp, a l + b l = 0 := by
          intro l hl
          have := (hg l hl).2.2
          rw [e3 l hl, mem_pts] at this
          dsimp only at this; omega
        obtain ⟨p1, p2⟩ := gas_zero h1 h2 m1 m2 hz
        obtain ⟨q1, q2⟩ := hvv p1 p2
        have r1 := (onV_of h1 q1).1
        have r2 := (onV_of h2 q2).1
        rw [e2, mem_pts] at h7
        rw [r1, mem_pts] at h5
        rw [r2, mem_pts] at h6
        rw [mem_pts] at h3 h4
        have := q1.1; have := q2.1
        dsimp only at h5 h6 h7
        omega
      · refine ⟨a, av, ai, b, bv, bi, fun l => a l + b l, av + bv - ai - bi, 0, m1, m2, ⟨fun l hl => (hg l hl).2.2, h7, ?_⟩, fun _ _ => rfl, by omega⟩
        rw [e1, mem_pts]; constructor <;> norm_num
    · rintro ⟨x1, v1, i1, x2, v2, i2, x, v, i, m1, m2, m, hx, hv⟩
      refine ⟨x1, x2, v1, v2, i1, i2, fun l hl => ⟨m1.1 l hl, m2.1 l hl, by rw [← hx l hl]; exact m.1 l hl⟩, m1.2.1, m2.2.1, m1.2.2, m2.2.2, ?_⟩
      have hi : i = 0 := by
        rcases hp.kind with ⟨e1, e2, e3⟩ | ⟨e1, _⟩
        · exfalso
          have a1 := mem_pts.mp m1.2.1; have a2 := mem_pts.mp m2.2.1; have a3 := mem_pts.mp m1.2.2; have a4 := mem_pts.mp m2.2.2
          have a5 := mem_pts.mp m.2.1; have a6 := mem_pts.mp m.2.2
          rw [e2] at a5
          dsimp only at a5
          omega
        · have := m.2.2
          rw [e1, mem_pts] at this
          dsimp only at this; omega
      have : v1 + v2 - i1 - i2 = v := by omega
      rw [this]; exact m.2.1
  · have hneg : (c1.v.e - 1) + (c2.v.e - 1) < c1.i.b + c2.i.b := by
      by_contra h; exact hs ⟨by omega, by omega⟩
    have hng := (general_negative_none sp c1.g c2.g (N.cl k).g c1.v c2.v c1.i c2.i (N.cl k).v h1.v h2.v h1.i h2.i hp.v hneg).1
    rw [hng]
    constructor
    · intro h; cases h
    · rintro ⟨x1, v1, i1, x2, v2, i2, x, v, i, m1, m2, m, hx, hv⟩
      exfalso
      have a1 := mem_pts.mp m1.2.1; have a2 := mem_pts.mp m2.2.1; have a3 := mem_pts.mp m1.2.2; have a4 := mem_pts.mp m2.2.2
      have a5 := mem_pts.mp m.2.1; have a6 := mem_pts.mp m.2.2
      have b1 := hp.v.1
      rcases hp.kind with ⟨e1, e2, e3⟩ | ⟨e1, _⟩
      · have hz : ∀ l ∈ sp, x1 l + x2 l = 0 := by
          intro l hl
          have := m.1 l hl
          rw [e3 l hl, mem_pts, hx l hl] at this
          dsimp only at this; omega
        obtain ⟨p1, p2⟩ := gas_zero h1 h2 m1 m2 hz
        obtain ⟨q1, q2⟩ := hvv p1 p2
        have r1 := (onV_of h1 q1).1
        have r2 := (onV_of h2 q2).1
        rw [r1, r2] at hneg
        dsimp only at hneg
        have := h1.v.1; have := h1.v.2.1; have := h2.v.1; have := h2.v.2.1
        omega
      · rw [e1] at a6
        dsimp only at a6
        omega

open Classical in
theorem goods_count (N : Net σ sp) (hN : ∀ k < N.n, Lay sp (N.cl k)) {c1 c2 : Clu σ} (h1 : Lay sp c1) (h2 : Lay sp c2)
    (hII : ¬ (onI sp c1 ∧ onI sp c2)) (hIV : ¬ pairIV sp c1 c2) (hs : ¬ Straddle c1 c2) (k : ℕ) :
    (N.goods c1 c2 0).count k = if k < N.n ∧ Reach sp c1 c2 (N.cl k) then 1 else 0 := by
  rw [(goods_nodup N c1 c2 0).count]
  exact if_congr (goods_iff N hN h1 h2 hII hIV hs k) rfl rfl

theorem one_inj : Function.Injective one := by
  intro a b h; simpa [one] using h

theorem none_inj : Function.Injective fun q : Option ℕ => ((q, none) : Option ℕ × Option ℕ) := by
  intro a b h; simpa using h

theorem count_one (L : List ℕ) (k : ℕ) : (L.map one).count (one k) = L.count k := List.count_map_of_injective _ _ one_inj k

theorem count_none_one (L : List ℕ) : (L.map one).count (none, none) = 0 := by
  rw [List.count_eq_zero]
  simp [one]

theorem count_two (L : List (ℕ × ℕ)) (q : Option ℕ) : (L.map fun q => ((some q.1, some q.2) : Option ℕ × Option ℕ)).count (q, none) = 0 := by
  rw [List.count_eq_zero]
  simp

/-- What joins an interstitial and a vacancy cluster. -/
theorem reach_IV {c1 c2 p : Clu σ} (h1 : Lay sp c1) (h2 : Lay sp c2) (hp : Lay sp p) (a : onV sp c1) (b : onI sp c2) :
    Reach sp c1 c2 p ↔ ∃ m ∈ c1.v.pts, ∃ n ∈ c2.i.pts, (n < m ∧ p.Mem sp (fun _ => 0) (m - n) 0) ∨ (m < n ∧ p.Mem sp (fun _ => 0) 0 (n - m)) := by
  obtain ⟨i1, g1⟩ := onV_of h1 a
  obtain ⟨_, v2, g2⟩ := onI_of h2 b.1
  constructor
  · rintro ⟨x1, v1, i1', x2, v2', i2, x, v, i, m1, m2, m, hx, hv⟩
    have e1 := m1.2.2
    have e2 := m2.2.1
    rw [i1, mem_pts] at e1
    rw [v2, mem_pts] at e2
    dsimp only at e1 e2
    have hx0 : ∀ l ∈ sp, (0 : ℤ) ∈ (p.g l).pts := by
      intro l hl
      have f1 := m1.1 l hl
      have f2 := m2.1 l hl
      rw [g1 l hl, mem_pts] at f1
      rw [g2 l hl, mem_pts] at f2
      have f3 := m.1 l hl
      rw [hx l hl] at f3
      dsimp only at f1 f2
      have : x1 l + x2 l = 0 := by omega
      rwa [this] at f3
    refine ⟨v1, m1.2.1, i2, m2.2.2, ?_⟩
    have hv0 := mem_pts.mp m.2.1
    have hi0 := mem_pts.mp m.2.2
    rcases hp.kind with ⟨k1, k2, _⟩ | ⟨k1, _, _, k4⟩
    · rw [k2] at hv0
      dsimp only at hv0
      refine .inr ⟨by omega, hx0, ?_, ?_⟩
      · rw [k2, mem_pts]; constructor <;> norm_num
      · have : i2 - v1 = i := by omega
        rw [this]; exact m.2.2
    · rw [k1] at hi0
      dsimp only at hi0
      have hpv : 0 < p.v.b := by
        rcases k4 with k4 | ⟨l, hl, k4⟩
        · exact k4
        · have := mem_pts.mp (hx0 l hl); omega
      refine .inl ⟨by omega, hx0, ?_, ?_⟩
      · have : v1 - i2 = v := by omega
        rw [this]; exact m.2.1
      · rw [k1, mem_pts]; constructor <;> norm_num
  · have z1 : ∀ l ∈ sp, (0 : ℤ) ∈ (c1.g l).pts := by intro l hl; rw [g1 l hl, mem_pts]; constructor <;> norm_num
    have z2 : ∀ l ∈ sp, (0 : ℤ) ∈ (c2.g l).pts := by intro l hl; rw [g2 l hl, mem_pts]; constructor <;> norm_num
    have zi : (0 : ℤ) ∈ c1.i.pts := by rw [i1, mem_pts]; constructor <;> norm_num
    have zv : (0 : ℤ) ∈ c2.v.pts := by rw [v2, mem_pts]; constructor <;> norm_num
    rintro ⟨m, hm, n, hn, ⟨_, h⟩ | ⟨_, h⟩⟩
    · exact ⟨fun _ => 0, m, 0, fun _ => 0, 0, n, fun _ => 0, m - n, 0, ⟨z1, hm, zi⟩, ⟨z2, zv, hn⟩, h, fun _ _ => by norm_num, by ring⟩
    · exact ⟨fun _ => 0, m, 0, fun _ => 0, 0, n, fun _ => 0, 0, n - m, ⟨z1, hm, zi⟩, ⟨z2, zv, hn⟩, h, fun _ _ => by norm_num, by ring⟩

theorem reach_II {c1 c2 p : Clu σ} (h1 : Lay sp c1) (h2 : Lay sp c2) (hp : Lay sp p) (a : onI sp c1) (b : onI sp c2) :
    Reach sp c1 c2 p ↔ ∃ m ∈ c1.i.pts, ∃ n ∈ c2.i.pts, p.Mem sp (fun _ => 0) 0 (m + n) := by
  obtain ⟨_, v1, g1⟩ := onI_of h1 a.1
  obtain ⟨_, v2, g2⟩ := onI_of h2 b.1
  constructor
  · rintro ⟨x1, v1', i1, x2, v2', i2, x, v, i, m1, m2, m, hx, hv⟩
    have e1 := m1.2.1
    have e2 := m2.2.1
    rw [v1, mem_pts] at e1
    rw [v2, mem_pts] at e2
    dsimp only at e1 e2
    have hx0 : ∀ l ∈ sp, (0 : ℤ) ∈ (p.g l).pts := by
      intro l hl
      have f1 := m1.1 l hl
      have f2 := m2.1 l hl
      rw [g1 l hl, mem_pts] at f1
      rw [g2 l hl, mem_pts] at f2
      have f3 := m.1 l hl
      rw [hx l hl] at f3
      dsimp only at f1 f2
      have : x1 l + x2 l = 0 := by omega
      rwa [this] at f3
    refine ⟨i1, m1.2.2, i2, m2.2.2, hx0, ?_⟩
    have hv0 := mem_pts.mp m.2.1
    have hi0 := mem_pts.mp m.2.2
    have j1 := mem_pts.mp m1.2.2
    have j2 := mem_pts.mp m2.2.2
    have := a.1
    have := b.1
    have := hp.v.1
    rcases hp.kind with ⟨k1, k2, _⟩ | ⟨k1, _⟩
    · rw [k2] at hv0
      dsimp only at hv0
      have : i1 + i2 = i := by omega
      rw [this]
      refine ⟨?_, m.2.2⟩
      rw [k2, mem_pts]; constructor <;> norm_num
    · rw [k1] at hi0
      dsimp only at hi0
      omega
  · have z1 : ∀ l ∈ sp, (0 : ℤ) ∈ (c1.g l).pts := by intro l hl; rw [g1 l hl, mem_pts]; constructor <;> norm_num
    have z2 : ∀ l ∈ sp, (0 : ℤ) ∈ (c2.g l).pts := by intro l hl; rw [g2 l hl, mem_pts]; constructor <;> norm_num
    have zv1 : (0 : ℤ) ∈ c1.v.pts := by rw [v1, mem_pts]; constructor <;> norm_num
    have zv : (0 : ℤ) ∈ c2.v.pts := by rw [v2, mem_pts]; constructor <;> norm_num
    rintro ⟨m, hm, n, hn, h⟩
    exact ⟨fun _ => 0, 0, m, fun _ => 0, 0, n, fun _ => 0, 0, m + n, ⟨z1, zv1, hm⟩, ⟨z2, zv, hn⟩, h, fun _ _ => by norm_num, by ring⟩

theorem reach_comm {c1 c2 p : Clu σ} : Reach sp c1 c2 p ↔ Reach sp c2 c1 p := by
  constructor <;>
  · rintro ⟨x1, v1, i1, x2, v2, i2, x, v, i, m1, m2, m, hx, hv⟩
    exact ⟨x2, v2, i2, x1, v1, i1, x, v, i, m2, m1, m, fun l hl => by rw [hx l hl, add_comm], by omega⟩

theorem annihilate_comm {c1 c2 : Clu σ} : Annihilate sp c1 c2 ↔ Annihilate sp c2 c1 := by
  constructor <;>
  · rintro ⟨x1, v1, i1, x2, v2, i2, m1, m2, hx, hv⟩
    exact ⟨x2, v2, i2, x1, v1, i1, m2, m1, fun l hl => by rw [add_comm]; exact hx l hl, by omega⟩

/-- Only an interstitial and a vacancy cluster can leave nothing, and they do when they share a size. -/
theorem annihilate_IV {c1 c2 : Clu σ} (h1 : Lay sp c1) (h2 : Lay sp c2) (a : onV sp c1) (b : onI sp c2) :
    Annihilate sp c1 c2 ↔ ∃ m, m ∈ c1.v.pts ∧ m ∈ c2.i.pts := by
  obtain ⟨i1, g1⟩ := onV_of h1 a
  obtain ⟨_, v2, g2⟩ := onI_of h2 b.1
  constructor
  · rintro ⟨x1, v1, i1', x2, v2', i2, m1, m2, hx, hv⟩
    have e1 := m1.2.2
    have e2 := m2.2.1
    rw [i1, mem_pts] at e1
    rw [v2, mem_pts] at e2
    dsimp only at e1 e2
    have : v1 = i2 := by omega
    exact ⟨v1, m1.2.1, by rw [this]; exact m2.2.2⟩
  · rintro ⟨m, hm, hn⟩
    refine ⟨fun _ => 0, m, 0, fun _ => 0, 0, m, ⟨?_, hm, ?_⟩, ⟨?_, ?_, hn⟩, fun _ _ => by norm_num, by ring⟩
    · intro l hl; rw [g1 l hl, mem_pts]; constructor <;> norm_num
    · rw [i1, mem_pts]; constructor <;> norm_num
    · intro l hl; rw [g2 l hl, mem_pts]; constructor <;> norm_num
    · rw [v2, mem_pts]; constructor <;> norm_num

theorem annihilate_pair {c1 c2 : Clu σ} (h1 : Lay sp c1) (h2 : Lay sp c2) (h : Annihilate sp c1 c2) : pairIV sp c1 c2 := by
  obtain ⟨x1, v1, i1, x2, v2, i2, m1, m2, hx, hv⟩ := h
  obtain ⟨p1, p2⟩ := gas_zero h1 h2 m1 m2 hx
  have a1 := mem_pts.mp m1.2.1; have a2 := mem_pts.mp m2.2.1; have a3 := mem_pts.mp m1.2.2; have a4 := mem_pts.mp m2.2.2
  rcases p1 with p1 | p1 <;> rcases p2 with p2 | p2
  · exfalso
    rw [(onI_of h1 p1.1).2.1] at a1
    rw [(onI_of h2 p2.1).2.1] at a2
    have := p1.1; have := p2.1
    dsimp only at a1 a2; omega
  · exact .inl ⟨p1, p2⟩
  · exact .inr ⟨p1, p2⟩
  · exfalso
    rw [(onV_of h1 p1).1] at a3
    rw [(onV_of h2 p2).1] at a4
    have := p1.1; have := p2.1
    dsimp only at a3 a4; omega

theorem pairIV_comm {c1 c2 : Clu σ} : pairIV sp c1 c2 ↔ pairIV sp c2 c1 := by
  unfold pairIV; tauto

theorem goods_comm (N : Net σ sp) (c1 c2 : Clu σ) (s : ℕ) : N.goods c1 c2 s = N.goods c2 c1 s := by
  unfold Net.goods
  have hb : ∀ a b : Ival, boundsPlain a b = boundsPlain b a := by
    intro a b; rw [boundsPlain, boundsPlain, add_comm a.b, add_comm a.e]
  have hv : boundsV c1.v c2.v c1.i c2.i = boundsV c2.v c1.v c2.i c1.i := by
    rw [boundsV, boundsV, hb c1.v, add_comm c1.i.e, add_comm c1.i.b]
  rw [hv]
  refine List.filter_congr fun k _ => ?_
  congr 2
  funext l
  rw [hb]

/-! ### Tungsten -/

theorem til_disj (N : Net σ sp) (hN : ∀ k < N.n, Lay sp (N.cl k)) : Disjoint N.tilV.ids N.tilI.ids := by
  rw [Set.disjoint_left]
  rintro k ⟨hk, hg, hi⟩ ⟨_, _, hv⟩
  rw [mem_pts] at hi hv
  rcases (hN k hk).kind with ⟨h, _⟩ | ⟨_, _, _, h | ⟨l, hl, h⟩⟩
  · omega
  · omega
  · have := mem_pts.mp (hg l hl); omega

open Classical in
/-- **C74 (partial)** Tungsten: a cluster is the only product of a pair exactly once if it holds a possible result of joining the two, and never otherwise.
Missing: pairs of an interstitial cluster and a group with gas for which some net vacancy numbers are negative and some are not (`psi_straddle_none`). -/
theorem psi_exact_partial (he : σ) (N : Net σ sp) (hN : ∀ k < N.n, Lay sp (N.cl k)) (m1 m2 : Bool) (hm : m1 = true ∨ m2 = true) (c1 c2 : Clu σ)
    (h1 : Lay sp c1) (h2 : Lay sp c2) (hs : (onI sp c1 ∧ onI sp c2) ∨ pairIV sp c1 c2 ∨ ¬ Straddle c1 c2) (k : ℕ) :
    (psiPair he N m1 m2 c1 c2).prods.count (some k, none) = if k < N.n ∧ Reach sp c1 c2 (N.cl k) then 1 else 0 := by
  have hm' : ¬ (m1 = false ∧ m2 = false) := by rcases hm with h | h <;> simp [h]
  rw [psiPair, if_neg hm']
  by_cases hII : onI sp c1 ∧ onI sp c2
  · rw [if_pos hII]
    dsimp only
    rw [List.count_map_of_injective _ _ none_inj (some k), psiII_exact N.tilI c1.i c2.i h1.i.2.1 h2.i.2.1 hII.1.1 hII.2.1 k]
    refine if_congr ?_ rfl rfl
    have hf : ∀ x, N.tilI.find x = some k ↔ k < N.n ∧ (N.cl k).Mem sp (fun _ => 0) 0 x := fun x => N.find_some
    simp only [hf]
    constructor
    · rintro ⟨m, hm, n, hn, hk, h⟩
      exact ⟨hk, (reach_II h1 h2 (hN k hk) hII.1 hII.2).mpr ⟨m, hm, n, hn, h⟩⟩
    · rintro ⟨hk, h⟩
      obtain ⟨m, hm, n, hn, h⟩ := (reach_II h1 h2 (hN k hk) hII.1 hII.2).mp h
      exact ⟨m, hm, n, hn, hk, h⟩
  rw [if_neg hII]
  by_cases hIV : pairIV sp c1 c2
  · rw [if_pos hIV]
    dsimp only
    have hfV : ∀ x, N.tilV.find x = some k ↔ k < N.n ∧ (N.cl k).Mem sp (fun _ => 0) x 0 := fun x => N.find_some
    have hfI : ∀ x, N.tilI.find x = some k ↔ k < N.n ∧ (N.cl k).Mem sp (fun _ => 0) 0 x := fun x => N.find_some
    have key : ∀ cv ci : Clu σ, Lay sp cv → Lay sp ci → onV sp cv → onI sp ci →
        (psiIV N.tilV N.tilI cv.v ci.i).count (some k) = if k < N.n ∧ Reach sp cv ci (N.cl k) then 1 else 0 := by
      intro cv ci hv hi av ai
      rw [(psiIV_exact N.tilV N.tilI (til_disj N hN) cv.v ci.i hv.v.2.1 hi.i.2.1).1 k]
      refine if_congr ?_ rfl rfl
      simp only [ReachIV, hfV, hfI]
      constructor
      · rintro ⟨m, hm, n, hn, ⟨hlt, hk, h⟩ | ⟨hlt, hk, h⟩⟩
        · exact ⟨hk, (reach_IV hv hi (hN k hk) av ai).mpr ⟨m, hm, n, hn, .inl ⟨hlt, h⟩⟩⟩
        · exact ⟨hk, (reach_IV hv hi (hN k hk) av ai).mpr ⟨m, hm, n, hn, .inr ⟨hlt, h⟩⟩⟩
      · rintro ⟨hk, h⟩
        obtain ⟨m, hm, n, hn, ⟨hlt, h⟩ | ⟨hlt, h⟩⟩ := (reach_IV hv hi (hN k hk) av ai).mp h
        · exact ⟨m, hm, n, hn, .inl ⟨hlt, hk, h⟩⟩
        · exact ⟨m, hm, n, hn, .inr ⟨hlt, hk, h⟩⟩
    rw [List.count_map_of_injective _ _ none_inj (some k)]
    rcases hIV with ⟨a, b⟩ | ⟨a, b⟩
    · rw [if_neg fun h => not_both h a, if_pos a, key c2 c1 h2 h1 b a]
      exact if_congr (and_congr_right fun _ => reach_comm) rfl rfl
    · rw [if_pos a, if_neg fun h => not_both a h, key c1 c2 h1 h2 a b]
  rw [if_neg hIV]
  dsimp only
  rw [List.count_append, count_two, Nat.add_zero]
  exact (count_one _ k).trans (goods_count N hN h1 h2 hII hIV (by tauto) k)

open Classical in
/-- **C74** Tungsten: the reaction without product is added exactly once when some members of the pair annihilate, never otherwise. -/
theorem psi_annihilation (he : σ) (N : Net σ sp) (hN : ∀ k < N.n, Lay sp (N.cl k)) (m1 m2 : Bool) (hm : m1 = true ∨ m2 = true) (c1 c2 : Clu σ)
    (h1 : Lay sp c1) (h2 : Lay sp c2) : (psiPair he N m1 m2 c1 c2).prods.count (none, none) = if Annihilate sp c1 c2 then 1 else 0 := by
  have hm' : ¬ (m1 = false ∧ m2 = false) := by rcases hm with h | h <;> simp [h]
  rw [psiPair, if_neg hm']
  have hnot : ¬ pairIV sp c1 c2 → ¬ Annihilate sp c1 c2 := fun h h' => h (annihilate_pair h1 h2 h')
  by_cases hII : onI sp c1 ∧ onI sp c2
  · have hIV : ¬ pairIV sp c1 c2 := by
      rintro (⟨_, h⟩ | ⟨h, _⟩)
      · exact not_both h hII.2
      · exact not_both h hII.1
    rw [if_pos hII, if_neg (hnot hIV)]
    dsimp only
    rw [List.count_map_of_injective _ _ none_inj none, List.count_eq_zero]
    have : ∀ (xs : List ℤ) b, none ∉ psiIILoop N.tilI b xs := by
      intro xs
      induction xs with
      | nil => intro b; simp [psiIILoop]
      | cons x xs ih =>
        intro b
        rw [psiIILoop]
        split
        · exact ih b
        · split
          · simpa using ih _
          · exact ih b
    exact this _ _
  rw [if_neg hII]
  by_cases hIV : pairIV sp c1 c2
  · rw [if_pos hIV]
    dsimp only
    rw [List.count_map_of_injective _ _ none_inj none]
    rcases hIV with ⟨a, b⟩ | ⟨a, b⟩
    · rw [if_neg fun h => not_both h a, if_pos a, (psiIV_exact N.tilV N.tilI (til_disj N hN) c2.v c1.i h2.v.2.1 h1.i.2.1).2]
      exact if_congr (by rw [annihilate_comm, annihilate_IV h2 h1 b a]) rfl rfl
    · rw [if_pos a, if_neg fun h => not_both a h, (psiIV_exact N.tilV N.tilI (til_disj N hN) c1.v c2.i h1.v.2.1 h2.i.2.1).2]
      exact if_congr (by rw [annihilate_IV h1 h2 a b]) rfl rfl
  rw [if_neg hIV, if_neg (hnot hIV)]
  dsimp only
  rw [List.count_append, count_two, count_none_one]

/-- **C74** Tungsten: the order of the two clusters does not matter. -/
theorem psi_symm (he : σ) (N : Net σ sp) (m1 m2 : Bool) (c1 c2 : Clu σ) : psiPair he N m1 m2 c1 c2 = psiPair he N m2 m1 c2 c1 := by
  unfold psiPair
  by_cases hm : m1 = false ∧ m2 = false
  · rw [if_pos hm, if_pos hm.symm]
  rw [if_neg hm, if_neg (show ¬ (m2 = false ∧ m1 = false) from fun h => hm h.symm)]
  by_cases hII : onI sp c1 ∧ onI sp c2
  · rw [if_pos hII, if_pos hII.symm]
    have : psiII N.tilI c1.i c2.i = psiII N.tilI c2.i c1.i := by
      rw [psiII, psiII, add_comm c1.i.b, add_comm c1.i.e]
    rw [this]
    simp only [or_comm]
  rw [if_neg hII, if_neg (show ¬ (onI sp c2 ∧ onI sp c1) from fun h => hII h.symm)]
  by_cases hIV : pairIV sp c1 c2
  · rw [if_pos hIV, if_pos (pairIV_comm.mp hIV)]
    rcases hIV with ⟨a, b⟩ | ⟨a, b⟩
    · rw [if_neg fun h => not_both h a, if_pos a, if_pos b, if_neg fun h => not_both b h]
    · rw [if_pos a, if_neg fun h => not_both a h, if_neg fun h => not_both h b, if_pos b]
  rw [if_neg hIV, if_neg (show ¬ pairIV sp c2 c1 from fun h => hIV (pairIV_comm.mp h))]
  have hsec : psiSecond he N c1 c2 = psiSecond he N c2 c1 := by
    unfold psiSecond
    simp only [goods_comm N c1 c2]
    congr 1
    exact if_congr and_comm rfl (if_congr or_comm rfl rfl)
  rw [hsec, goods_comm N c1 c2]
  congr 1
  refine if_congr ?_ rfl rfl
  tauto

/-- **C74** When no cluster of a pair diffuses the pair does not react. -/
theorem psi_immobile (he : σ) (N : Net σ sp) (c1 c2 : Clu σ) : psiPair he N false false c1 c2 = ⟨[], []⟩ := by
  simp [psiPair]

/-- **C74 (negation)** An interstitial cluster and a cluster with gas for which some but not all net vacancy numbers are negative: nothing is found, whatever the network holds. -/
theorem psi_straddle_none (he : σ) (N : Net σ sp) (hN : ∀ k < N.n, Lay sp (N.cl k)) (m1 m2 : Bool) (c1 c2 : Clu σ) (h1 : Lay sp c1) (h2 : Lay sp c2)
    (hII : ¬ (onI sp c1 ∧ onI sp c2)) (hIV : ¬ pairIV sp c1 c2) (hs : Straddle c1 c2) (k : ℕ) : (psiPair he N m1 m2 c1 c2).prods.count (some k, none) = 0 := by
  rw [psiPair]
  by_cases hm : m1 = false ∧ m2 = false
  · rw [if_pos hm]; simp
  rw [if_neg hm, if_neg hII, if_neg hIV]
  dsimp only
  rw [List.count_append, count_two, Nat.add_zero]
  refine (count_one _ k).trans ?_
  rw [List.count_eq_zero, mem_goods_zero]
  rintro ⟨hk, h⟩
  rw [general_straddle_none sp c1.g c2.g (N.cl k).g c1.v c2.v c1.i c2.i (N.cl k).v h1.v h2.v h1.i h2.i (hN k hk).v hs.1] at h
  cases h

/-- The number of atoms and defects in the smallest member. -/
def size (sp : List σ) (c : Clu σ) : ℤ := (sp.map fun l => (c.g l).b).sum + c.v.b + c.i.b

theorem sum_nonneg' (L : List σ) (f : σ → ℤ) (h : ∀ l ∈ L, 0 ≤ f l) : 0 ≤ (L.map f).sum := by
  induction L with
  | nil => simp
  | cons a L ih =>
    rw [List.map_cons, List.sum_cons]
    have := h a (by simp)
    have := ih fun l hl => h l (by simp [hl])
    omega

theorem sum_zero (L : List σ) (f : σ → ℤ) (h : ∀ l ∈ L, 0 ≤ f l) : (L.map f).sum = 0 ↔ ∀ l ∈ L, f l = 0 := by
  induction L with
  | nil => simp
  | cons a L ih =>
    rw [List.map_cons, List.sum_cons, List.forall_mem_cons]
    have h1 := h a (by simp)
    have h2 := sum_nonneg' L f fun l hl => h l (by simp [hl])
    rw [← ih fun l hl => h l (by simp [hl])]
    omega

theorem sum_one (L : List σ) (hL : L.Nodup) (f : σ → ℤ) (h : ∀ l ∈ L, 0 ≤ f l) : (L.map f).sum = 1 ↔ ∃ l ∈ L, f l = 1 ∧ ∀ l' ∈ L, l' ≠ l → f l' = 0 := by
  induction L with
  | nil => simp
  | cons a L ih =>
    rw [List.map_cons, List.sum_cons]
    have h1 := h a (by simp)
    have h2 := sum_nonneg' L f fun l hl => h l (by simp [hl])
    have hz := sum_zero L f fun l hl => h l (by simp [hl])
    have ih' := ih (List.nodup_cons.mp hL).2 fun l hl => h l (by simp [hl])
    have hna := (List.nodup_cons.mp hL).1
    constructor
    · intro e
      rcases (by omega : f a = 1 ∧ (L.map f).sum = 0 ∨ f a = 0 ∧ (L.map f).sum = 1) with ⟨e1, e2⟩ | ⟨e1, e2⟩
      · refine ⟨a, by simp, e1, fun l' hl' hne => ?_⟩
        rcases List.mem_cons.mp hl' with rfl | h'
        · exact absurd rfl hne
        · exact hz.mp e2 l' h'
      · obtain ⟨l, hl, f1, f2⟩ := ih'.mp e2
        refine ⟨l, by simp [hl], f1, fun l' hl' hne => ?_⟩
        rcases List.mem_cons.mp hl' with rfl | h'
        · exact e1
        · exact f2 l' h' hne
    · rintro ⟨l, hl, f1, f2⟩
      rcases List.mem_cons.mp hl with rfl | h'
      · have : (L.map f).sum = 0 := hz.mpr fun l' hl' => f2 l' (by simp [hl']) (by rintro rfl; exact hna hl')
        omega
      · have e1 := f2 a (by simp) (by rintro rfl; exact hna h')
        have : (L.map f).sum = 1 := ih'.mpr ⟨l, h', f1, fun l' hl' => f2 l' (by simp [hl'])⟩
        omega

/-- On an axis at 1: one atom or defect in all. -/
theorem unitOn_iff (hsp : sp.Nodup) {c : Clu σ} (h : Lay sp c) : unitOn sp c ↔ size sp c = 1 := by
  have hg := fun l hl => (h.g l hl).1
  have h1 := sum_one sp hsp (fun l => (c.g l).b) hg
  have h0 := sum_zero sp (fun l => (c.g l).b) hg
  have hn := sum_nonneg' sp (fun l => (c.g l).b) hg
  have hv := h.v.1
  have hi := h.i.1
  unfold unitOn size onG onV onI
  constructor
  · rintro (⟨l, hl, ⟨_, a, b, d⟩, e⟩ | ⟨⟨_, a, b⟩, e⟩ | ⟨⟨_, a, b⟩, e⟩)
    · have := h1.mpr ⟨l, hl, e, d⟩; omega
    · have := h0.mpr b; omega
    · have := h0.mpr b; omega
  · intro e
    rcases (by omega : ((sp.map fun l => (c.g l).b).sum = 1 ∧ c.v.b = 0 ∧ c.i.b = 0) ∨ ((sp.map fun l => (c.g l).b).sum = 0 ∧ c.v.b = 1 ∧ c.i.b = 0) ∨
      ((sp.map fun l => (c.g l).b).sum = 0 ∧ c.v.b = 0 ∧ c.i.b = 1)) with ⟨a, b, d⟩ | ⟨a, b, d⟩ | ⟨a, b, d⟩
    · obtain ⟨l, hl, f1, f2⟩ := h1.mp a
      exact .inl ⟨l, hl, ⟨by omega, b, d, f2⟩, f1⟩
    · exact .inr (.inl ⟨⟨by omega, d, h0.mp a⟩, b⟩)
    · exact .inr (.inr ⟨⟨by omega, b, h0.mp a⟩, d⟩)

theorem filterMap_id_count (L : List (Option ℕ)) (k : ℕ) : (L.filterMap id).count k = L.count (some k) := by
  induction L with
  | nil => rfl
  | cons a L ih =>
    cases a with
    | none =>
      rw [List.filterMap_cons_none (by rfl), ih, List.count_cons_of_ne (by simp)]
    | some a =>
      rw [List.filterMap_cons_some (b := a) (by rfl)]
      by_cases h : a = k
      · subst h; rw [List.count_cons_self, List.count_cons_self, ih]
      · rw [List.count_cons_of_ne h, List.count_cons_of_ne (by simpa using h), ih]

/-- **C74** Tungsten: which products come apart again: an interstitial cluster into two of which one starts at I_1 (groups too); any other cluster only if it and the two fragments are single clusters,
no fragment is an interstitial cluster and one of them is a single atom or vacancy. -/
theorem psi_diss (hsp : sp.Nodup) (he : σ) (N : Net σ sp) (m1 m2 : Bool) (c1 c2 : Clu σ) (h1 : Lay sp c1) (h2 : Lay sp c2) (k : ℕ) :
    (psiPair he N m1 m2 c1 c2).diss.count k =
      if (onI sp c1 ∧ onI sp c2 ∧ (c1.i.b = 1 ∨ c2.i.b = 1)) ∨
        (c1.i.b = 0 ∧ c2.i.b = 0 ∧ simplex sp c1 ∧ simplex sp c2 ∧ simplex sp (N.cl k) ∧ (size sp c1 = 1 ∨ size sp c2 = 1))
      then (psiPair he N m1 m2 c1 c2).prods.count (some k, none) else 0 := by
  have u1 := unitOn_iff hsp h1
  have u2 := unitOn_iff hsp h2
  have hi1 : c1.i.b = 0 ↔ ¬ onI sp c1 := by
    constructor
    · intro h h'; have := h'.1; omega
    · intro h; rw [not_onI_i h1 h]
  have hi2 : c2.i.b = 0 ↔ ¬ onI sp c2 := by
    constructor
    · intro h h'; have := h'.1; omega
    · intro h; rw [not_onI_i h2 h]
  simp only [hi1, hi2]
  unfold psiPair
  by_cases hm : m1 = false ∧ m2 = false
  · rw [if_pos hm]; simp
  simp only [if_neg hm]
  by_cases hII : onI sp c1 ∧ onI sp c2
  · simp only [if_pos hII]
    rw [List.count_map_of_injective _ _ none_inj (some k)]
    by_cases hu : c1.i.b = 1 ∨ c2.i.b = 1
    · rw [if_pos hu, if_pos (.inl ⟨hII.1, hII.2, hu⟩), filterMap_id_count]
    · rw [if_neg hu, if_neg]
      · simp
      · rintro (⟨_, _, h⟩ | ⟨h, _⟩)
        · exact hu h
        · exact h hII.1
  simp only [if_neg hII]
  by_cases hIV : pairIV sp c1 c2
  · simp only [if_pos hIV]
    rw [if_neg]
    · simp
    · rintro (⟨h, h', _⟩ | ⟨h, h', _⟩)
      · exact hII ⟨h, h'⟩
      · rcases hIV with ⟨a, _⟩ | ⟨_, a⟩
        · exact h a
        · exact h' a
  simp only [if_neg hIV]
  rw [List.count_append, count_two, Nat.add_zero, show (some k, none) = one k from rfl, count_one]
  by_cases hc : (unitOn sp c1 ∨ unitOn sp c2) ∧ ¬ (onI sp c1 ∨ onI sp c2) ∧ simplex sp c1 ∧ simplex sp c2
  · rw [if_pos hc]
    by_cases hk : simplex sp (N.cl k)
    · rw [List.count_filter (by simpa using hk), if_pos]
      refine .inr ⟨fun h => hc.2.1 (.inl h), fun h => hc.2.1 (.inr h), hc.2.2.1, hc.2.2.2, hk, ?_⟩
      rw [← u1, ← u2]; exact hc.1
    · rw [if_neg]
      · rw [List.count_eq_zero, List.mem_filter]
        simp [hk]
      · rintro (⟨h, h', _⟩ | ⟨_, _, _, _, h, _⟩)
        · exact hII ⟨h, h'⟩
        · exact hk h
  · rw [if_neg hc, if_neg]
    · simp
    · rintro (⟨h, h', _⟩ | ⟨a, b, d, e, _, f⟩)
      · exact hII ⟨h, h'⟩
      · rw [← u1, ← u2] at f
        exact hc ⟨f, fun h => h.elim a b, d, e⟩

open Classical in
/-- **C74** Tungsten: a single cluster loses every single atom or vacancy for which the remaining cluster exists, exactly once, as soon as one of the two fragments diffuses. -/
theorem psi_emission (hsp : sp.Nodup) (he : σ) (N : Net σ sp) (hN : ∀ k < N.n, Lay sp (N.cl k)) (m1 m2 : Bool) (hm : m1 = true ∨ m2 = true) {i j k : ℕ} (hi : i < N.n) (hj : j < N.n) (hk : k < N.n)
    (si : simplex sp (N.cl i)) (sj : simplex sp (N.cl j)) (sk : simplex sp (N.cl k)) (hmono : size sp (N.cl i) = 1)
    (ni : (N.cl i).i.b = 0) (nj : (N.cl j).i.b = 0) (hg : ∀ l ∈ sp, ((N.cl k).g l).b = ((N.cl i).g l).b + ((N.cl j).g l).b)
    (hv : (N.cl k).v.b = (N.cl i).v.b + (N.cl j).v.b) (hi0 : (N.cl k).i.b = 0) : (psiPair he N m1 m2 (N.cl i) (N.cl j)).diss.count k = 1 := by
  have ei : (N.cl i).i.e = 1 := by have := si.2.1; omega
  have ej : (N.cl j).i.e = 1 := by have := sj.2.1; omega
  rw [psi_diss hsp he N m1 m2 _ _ (hN i hi) (hN j hj) k, if_pos (.inr ⟨ni, nj, si, sj, sk, .inl hmono⟩),
    psi_exact_partial he N hN m1 m2 hm _ _ (hN i hi) (hN j hj) (.inr (.inr ?_)) k, if_pos]
  · refine ⟨hk, fun l => ((N.cl i).g l).b, (N.cl i).v.b, 0, fun l => ((N.cl j).g l).b, (N.cl j).v.b, 0, fun l => ((N.cl k).g l).b, (N.cl k).v.b, 0, ⟨?_, ?_, ?_⟩, ⟨?_, ?_, ?_⟩, ⟨?_, ?_, ?_⟩, hg, by omega⟩
    · intro l hl; rw [mem_pts]; have := si.2.2 l hl; dsimp only; omega
    · rw [mem_pts]; have := si.1; omega
    · rw [mem_pts]; omega
    · intro l hl; rw [mem_pts]; have := sj.2.2 l hl; dsimp only; omega
    · rw [mem_pts]; have := sj.1; omega
    · rw [mem_pts]; omega
    · intro l hl; rw [mem_pts]; have := sk.2.2 l hl; dsimp only; omega
    · rw [mem_pts]; have := sk.1; omega
    · rw [mem_pts]; have := sk.2.1; omega
  · rintro ⟨h, _⟩
    have := (hN i hi).v.1; have := (hN j hj).v.1
    omega

/-- **C74** Tungsten: reactions with two products (trap mutation) appear only when the pair has no product of its own, one of the two is a single pure helium cluster and both hold helium. -/
theorem psi_second_conditions (he : σ) (N : Net σ sp) (c1 c2 : Clu σ) (m1 m2 : Bool) {k l : ℕ} (h : (some k, some l) ∈ (psiPair he N m1 m2 c1 c2).prods) :
    (m1 = true ∨ m2 = true) ∧ (∀ k', (some k', none) ∉ (psiPair he N m1 m2 c1 c2).prods) ∧
    ((simplex sp c1 ∧ onG sp he c1) ∨ (simplex sp c2 ∧ onG sp he c2)) ∧ 1 ≤ (c1.g he).b ∧ 1 ≤ (c2.g he).b ∧ (k, l) ∈ psiSecond he N c1 c2 := by
  unfold psiPair at h ⊢
  by_cases hm : m1 = false ∧ m2 = false
  · rw [if_pos hm] at h; simp at h
  simp only [if_neg hm] at h ⊢
  by_cases hII : onI sp c1 ∧ onI sp c2
  · simp [if_pos hII] at h
  simp only [if_neg hII] at h ⊢
  by_cases hIV : pairIV sp c1 c2
  · simp [if_pos hIV] at h
  simp only [if_neg hIV] at h ⊢
  have hin : (k, l) ∈ psiSecond he N c1 c2 := by
    rcases List.mem_append.mp h with h | h
    · simp [one] at h
    · simpa using h
  have hcond : N.goods c1 c2 0 = [] ∧ ((simplex sp c1 ∧ onG sp he c1) ∨ (simplex sp c2 ∧ onG sp he c2)) ∧ 1 ≤ (c1.g he).b ∧ 1 ≤ (c2.g he).b := by
    unfold psiSecond at hin
    split at hin
    · simp at hin
    split at hin
    · simp at hin
    split at hin
    · simp at hin
    rename_i a b d
    push Not at a d
    refine ⟨a, by tauto, d.1, d.2⟩
  refine ⟨by cases m1 <;> cases m2 <;> simp_all, ?_, hcond.2.1, hcond.2.2.1, hcond.2.2.2, hin⟩
  intro k' hk'
  rw [hcond.1] at hk'
  simp at hk'

/-- **C74** Tungsten: when the interstitial sizes of the network are `1, …, m`, a reaction with two products conserves the gas and the number of vacancies less interstitials for some members of the clusters. -/
theorem psi_second_conserves (he : σ) (hhe : he ∈ sp) (N : Net σ sp) (hN : ∀ k < N.n, Lay sp (N.cl k)) (m : ℕ) (hI : ∀ n : ℕ, 1 ≤ n → ((N.find (fun _ => 0) 0 n).isSome ↔ n ≤ m)) (m1 m2 : Bool) (c1 c2 : Clu σ)
    (h1 : Lay sp c1) (h2 : Lay sp c2) {k l : ℕ} (h : (some k, some l) ∈ (psiPair he N m1 m2 c1 c2).prods) :
    k < N.n ∧ l < N.n ∧ ∃ x1 v1 x2 v2 x v n, c1.Mem sp x1 v1 0 ∧ c2.Mem sp x2 v2 0 ∧ (N.cl k).Mem sp x v 0 ∧ (N.cl l).Mem sp (fun _ => 0) 0 n ∧ 1 ≤ n ∧ n ≤ 6 ∧
      (∀ s ∈ sp, x s = x1 s + x2 s) ∧ v - n = v1 + v2 := by
  obtain ⟨_, _, _, g1, g2, hin⟩ := psi_second_conditions he N c1 c2 m1 m2 h
  have hin' : (k, l) ∈ tmSearch (fun n => N.find (fun _ => 0) 0 n) (fun s => N.goods c1 c2 s) 6 1 0 := by
    unfold psiSecond at hin
    split at hin
    · simp at hin
    split at hin
    · simp at hin
    split at hin
    · simp at hin
    exact hin
  obtain ⟨n, n1, n6, hf, hk, _⟩ := tmSearch_balanced _ _ m hI 6 k l hin'
  rw [N.find_some] at hf
  rw [mem_goods, Bool.and_eq_true, List.all_eq_true] at hk
  obtain ⟨hkn, hg, hvv⟩ := hk
  have hp := hN k hkn
  have hi1 : c1.i = ⟨0, 1⟩ := not_onI_i h1 fun h => by have := h.2.2 he hhe; omega
  have hi2 : c2.i = ⟨0, 1⟩ := not_onI_i h2 fun h => by have := h.2.2 he hhe; omega
  have hG : ∀ s ∈ sp, ∃ a b : ℤ, a ∈ (c1.g s).pts ∧ b ∈ (c2.g s).pts ∧ a + b ∈ ((N.cl k).g s).pts := by
    intro s hs
    have a1 := h1.g s hs
    have a2 := h2.g s hs
    have a3 := hp.g s hs
    have := hg s hs
    rw [boundsPlain_eq a1 a2, axisGood_iff _ _ a3.2.1 (by unfold Small at *; dsimp only; omega)] at this
    obtain ⟨x, hx, hlo, hhi⟩ := this
    obtain ⟨a, ha, b, hb, rfl⟩ := (reach_sum (c1.g s) (c2.g s) a1.2.1 a2.2.1 x).mp ⟨hlo, hhi⟩
    exact ⟨a, b, ha, hb, hx⟩
  have hch : ∀ s, ∃ a b : ℤ, s ∈ sp → a ∈ (c1.g s).pts ∧ b ∈ (c2.g s).pts ∧ a + b ∈ ((N.cl k).g s).pts := by
    intro s
    by_cases hs : s ∈ sp
    · obtain ⟨a, b, hab⟩ := hG s hs
      exact ⟨a, b, fun _ => hab⟩
    · exact ⟨0, 0, fun h => absurd h hs⟩
  choose xa xb hab using hch
  have b1 := h1.v
  have b2 := h2.v
  have b3 := hp.v
  have hb : shiftV (boundsV c1.v c2.v c1.i c2.i) n = (c1.v.b + c2.v.b + n, c1.v.e + c2.v.e - 2 + n) := by
    rw [boundsV_raw h1.v h2.v h1.i h2.i, hi1, hi2, shiftV]
    unfold Small at b1 b2
    dsimp only
    rw [wrap_of_nonneg (x := c1.v.b + c2.v.b - (1 + 1 - 2)) (by omega) (by omega), wrap_of_nonneg (x := c1.v.e + c2.v.e - 2 - (0 + 0)) (by omega) (by omega),
      wrap_of_nonneg (by omega) (by omega), wrap_of_nonneg (by omega) (by omega)]
    ext <;> dsimp only <;> omega
  rw [hb, axisGood_iff _ _ b3.2.1 (by unfold Small at *; dsimp only; omega)] at hvv
  obtain ⟨v, hv, hlo, hhi⟩ := hvv
  dsimp only at hlo hhi
  obtain ⟨va, hva, vb, hvb, e⟩ := (reach_sum c1.v c2.v b1.2.1 b2.2.1 (v - n)).mp ⟨by omega, by omega⟩
  refine ⟨hkn, hf.1, xa, va, xb, vb, fun s => xa s + xb s, v, n, ⟨fun s hs => (hab s hs).1, hva, ?_⟩, ⟨fun s hs => (hab s hs).2.1, hvb, ?_⟩, ⟨fun s hs => (hab s hs).2.2, hv, ?_⟩, hf.2, by exact_mod_cast n1, by exact_mod_cast n6, fun _ _ => rfl, by omega⟩
  · rw [hi1, mem_pts]; constructor <;> norm_num
  · rw [hi2, mem_pts]; constructor <;> norm_num
  · rcases hp.kind with ⟨_, _, h3⟩ | ⟨h3, _⟩
    · exfalso
      have := (hab he hhe)
      rw [h3 he hhe] at this
      simp only [mem_pts] at this
      omega
    · rw [h3, mem_pts]; constructor <;> norm_num

/-- **C74** Tungsten: modified trap mutation adds one reaction for every time the number of vacancies of `He_n V_s` occurs in the table of `n`, when the first cluster is `He_n` with `n` from 1 to 7, and none otherwise. -/
theorem modified_length (he : σ) (hhe : he ∈ sp) (vs : ℤ → List ℤ) (N : Net σ sp) (m1 m2 : Bool) (hm : m1 = true ∨ m2 = true) (c1 c2 : Clu σ) (s1 : simplex sp c1) (s2 : simplex sp c2) (n : ℤ) :
    (onG sp he c1 ∧ (c1.g he).b = n → (1 ≤ n ∧ n ≤ 7) → (c2.g he).b = n → c2.i.b = 0 → (∀ l ∈ sp, l ≠ he → (c2.g l).b = 0) →
      psiModified he vs N m1 m2 c1 c2 = List.replicate ((vs n).count c2.v.b) (N.find (fun _ => 0) 0 c2.v.b)) ∧
    (¬ (onG sp he c1 ∧ 1 ≤ (c1.g he).b ∧ (c1.g he).b ≤ 7 ∧ (c2.g he).b = (c1.g he).b ∧ c2.i.b = 0 ∧ ∀ l ∈ sp, l ≠ he → (c2.g l).b = 0) →
      psiModified he vs N m1 m2 c1 c2 = []) := by
  have hm' : ¬ (m1 = false ∧ m2 = false) := by rcases hm with h | h <;> simp [h]
  constructor
  · rintro ⟨g1, rfl⟩ hn e2 ei el
    have hsp : ¬ ((onI sp c1 ∧ onI sp c2) ∨ pairIV sp c1 c2) := by
      rintro (⟨h, _⟩ | ⟨h, _⟩ | ⟨_, h⟩)
      · have := h.2.2 he hhe; omega
      · have := h.2.2 he hhe; omega
      · have := h.2.2 he hhe; omega
    rw [psiModified, if_neg hm', if_neg hsp, if_pos ⟨s1, s2, hn.1, hn.2⟩]
    have : (fun s : ℤ => decide (onG sp he c1 ∧ (c2.g he).b = (c1.g he).b ∧ c2.v.b = s ∧ c2.i.b = 0 ∧ ∀ l ∈ sp, l ≠ he → (c2.g l).b = 0)) = fun s => s == c2.v.b := by
      funext s
      rw [Bool.eq_iff_iff, decide_eq_true_eq, beq_iff_eq]
      constructor
      · intro h; exact h.2.2.1.symm
      · intro h; exact ⟨g1, e2, h.symm, ei, el⟩
    rw [this, List.filter_beq, List.map_replicate]
  · intro h
    unfold psiModified
    rw [if_neg hm']
    split
    · rfl
    split
    · rename_i hc
      rw [List.map_eq_nil_iff, List.filter_eq_nil_iff]
      intro s _ hd
      rw [decide_eq_true_eq] at hd
      exact h ⟨hd.1, hc.2.2.1, hc.2.2.2, hd.2.1, hd.2.2.2.1, hd.2.2.2.2⟩
    · rfl

/-- **C74 (negation)** Modified trap mutation is only found when the helium cluster comes first: with the pair the other way round nothing is added. -/
theorem modified_order (he : σ) (vs : ℤ → List ℤ) (hvs : ∀ n, ∀ s ∈ vs n, 0 < s) (N : Net σ sp) (m1 m2 : Bool) (c1 c2 : Clu σ)
    (h : psiModified he vs N m1 m2 c1 c2 ≠ []) : psiModified he vs N m2 m1 c2 c1 = [] := by
  by_contra h'
  have key : ∀ (a b : Clu σ) (p q : Bool), psiModified he vs N p q a b ≠ [] → onG sp he a ∧ 0 < b.v.b := by
    intro a b p q hne
    unfold psiModified at hne
    split at hne
    · exact absurd rfl hne
    split at hne
    · exact absurd rfl hne
    split at hne
    · rw [Ne, List.map_eq_nil_iff] at hne
      obtain ⟨s, hs⟩ := List.exists_mem_of_ne_nil _ hne
      rw [List.mem_filter, decide_eq_true_eq] at hs
      exact ⟨hs.2.1, by rw [hs.2.2.2.1]; exact hvs _ _ hs.1⟩
    · exact absurd rfl hne
  have a1 := (key _ _ _ _ h).2
  have a2 := (key _ _ _ _ h').1.2.1
  omega

/-- **C74** Tungsten: sinks: every mobile interstitial cluster, and the mobile single vacancy. -/
theorem psi_sinks (m : Bool) (c : Clu σ) :
    psiSinks (sp := sp) m c = if m = true ∧ (onI sp c ∨ (onV sp c ∧ c.v.b = 1 ∧ simplex sp c)) then 1 else 0 := by
  unfold psiSinks
  cases m with
  | false => simp
  | true =>
    by_cases a : onI sp c
    · have : ¬ (simplex sp c ∧ onV sp c) := fun h => not_both h.2 a
      simp [a, this]
    · by_cases b : onV sp c <;> by_cases d : simplex sp c <;> by_cases e : c.v.b = 1 <;> simp [a, b, d, e]

/-! ### Iron and fuel -/

/-- The clusters of the iron and fuel networks: as above, and interstitial clusters and vacancy clusters without gas are single
(`FeReactionNetwork`: pure vacancy clusters up to 10 only, `Select.fe_grouped_iff`; `NEReactionNetwork`: up to 2 only). -/
structure LayS (N : Net Unit [()]) : Prop where
  lay : ∀ k < N.n, Lay [()] (N.cl k)
  singleI : ∀ k < N.n, onI [()] (N.cl k) → simplex [()] (N.cl k)
  singleV : ∀ k < N.n, onV [()] (N.cl k) → simplex [()] (N.cl k)

theorem toList_count (o : Option ℕ) (k : ℕ) : ((o.map one).toList).count (one k) = if o = some k then 1 else 0 := by
  cases o with
  | none => simp
  | some a =>
    by_cases h : a = k
    · simp [h]
    · have : one a ≠ one k := fun h' => h (one_inj h')
      simp [h, this]

theorem recombine_count (N : Net σ sp) (n : ℤ) (k : ℕ) :
    (N.recombine n).count (one k) = if k < N.n ∧ ((0 < n ∧ (N.cl k).Mem sp (fun _ => 0) n 0) ∨ (n < 0 ∧ (N.cl k).Mem sp (fun _ => 0) 0 (-n))) then 1 else 0 := by
  unfold Net.recombine
  by_cases h1 : 0 < n
  · rw [if_pos h1, toList_count]
    refine if_congr ?_ rfl rfl
    rw [N.find_some]
    have : ¬ n < 0 := by omega
    tauto
  rw [if_neg h1]
  by_cases h2 : n < 0
  · rw [if_pos h2, toList_count]
    refine if_congr ?_ rfl rfl
    rw [N.find_some]
    tauto
  rw [if_neg h2, if_neg (by tauto)]
  simp [one]

theorem recombine_none (N : Net σ sp) (n : ℤ) : (N.recombine n).count (none, none) = if n = 0 then 1 else 0 := by
  unfold Net.recombine
  by_cases h1 : 0 < n
  · rw [if_pos h1, if_neg (by omega)]
    cases N.find (fun _ => 0) n 0 <;> simp [one]
  rw [if_neg h1]
  by_cases h2 : n < 0
  · rw [if_pos h2, if_neg (by omega)]
    cases N.find (fun _ => 0) 0 (-n) <;> simp [one]
  rw [if_neg h2, if_pos (by omega)]
  simp

theorem single_pts {I : Ival} (h : I.e = I.b + 1) {x : ℤ} : x ∈ I.pts ↔ x = I.b := by
  rw [mem_pts]; omega

/-- The special case of a vacancy and an interstitial cluster, both single. -/
theorem recombine_exact (N : Net σ sp) (hN : ∀ k < N.n, Lay sp (N.cl k)) {cv ci : Clu σ} (hv : Lay sp cv) (hi : Lay sp ci) (a : onV sp cv) (b : onI sp ci)
    (sv : simplex sp cv) (si : simplex sp ci) (k : ℕ) [Decidable (k < N.n ∧ Reach sp cv ci (N.cl k))] :
    (N.recombine (cv.v.b - ci.i.b)).count (one k) = if k < N.n ∧ Reach sp cv ci (N.cl k) then 1 else 0 := by
  rw [recombine_count]
  refine if_congr (and_congr_right fun hk => ?_) rfl rfl
  rw [reach_IV hv hi (hN k hk) a b]
  simp only [single_pts sv.1, single_pts si.2.1, exists_eq_left, neg_sub]
  constructor
  · rintro (⟨h1, h2⟩ | ⟨h1, h2⟩)
    · exact .inl ⟨by omega, h2⟩
    · exact .inr ⟨by omega, h2⟩
  · rintro (⟨h1, h2⟩ | ⟨h1, h2⟩)
    · exact .inl ⟨by omega, h2⟩
    · exact .inr ⟨by omega, h2⟩

theorem recombine_annihilate {cv ci : Clu σ} (hv : Lay sp cv) (hi : Lay sp ci) (a : onV sp cv) (b : onI sp ci) (sv : simplex sp cv) (si : simplex sp ci) :
    cv.v.b - ci.i.b = 0 ↔ Annihilate sp cv ci := by
  rw [annihilate_IV hv hi a b]
  simp only [single_pts sv.1, single_pts si.2.1, exists_eq_left]
  omega

/-- The net size of the special case. -/
theorem net_size {c1 c2 : Clu σ} (h : pairIV sp c1 c2) :
    ((onI sp c1 ∧ onV sp c2) ∧ (if onV sp c1 then c1.v.b else c2.v.b) - (if onI sp c1 then c1.i.b else c2.i.b) = c2.v.b - c1.i.b) ∨
    ((onV sp c1 ∧ onI sp c2) ∧ (if onV sp c1 then c1.v.b else c2.v.b) - (if onI sp c1 then c1.i.b else c2.i.b) = c1.v.b - c2.i.b) := by
  rcases h with ⟨a, b⟩ | ⟨a, b⟩
  · exact .inl ⟨⟨a, b⟩, by rw [if_neg fun h => not_both h a, if_pos a]⟩
  · exact .inr ⟨⟨a, b⟩, by rw [if_pos a, if_neg fun h => not_both a h]⟩

open Classical in
/-- **C74 (partial)** Iron: a cluster is the product of a pair exactly once if it holds a possible result of joining the two, and never otherwise. Missing as in tungsten: pairs that straddle. -/
theorem fe_exact_partial (N : Net Unit [()]) (hN : LayS N) (m1 m2 : Bool) (hm : m1 = true ∨ m2 = true) {a b : ℕ} (ha : a < N.n) (hb : b < N.n)
    (hs : (onI [()] (N.cl a) ∧ onI [()] (N.cl b)) ∨ pairIV [()] (N.cl a) (N.cl b) ∨ ¬ Straddle (N.cl a) (N.cl b)) (k : ℕ) :
    (fePair N m1 m2 (N.cl a) (N.cl b)).prods.count (some k, none) = if k < N.n ∧ Reach [()] (N.cl a) (N.cl b) (N.cl k) then 1 else 0 := by
  have hm' : ¬ (m1 = false ∧ m2 = false) := by rcases hm with h | h <;> simp [h]
  have h1 := hN.lay a ha
  have h2 := hN.lay b hb
  rw [fePair, if_neg hm']
  by_cases hII : onI [()] (N.cl a) ∧ onI [()] (N.cl b)
  · have s1 := hN.singleI a ha hII.1
    have s2 := hN.singleI b hb hII.2
    rw [if_pos ⟨s1, s2, hII.1, hII.2⟩]
    have key : (k < N.n ∧ Reach [()] (N.cl a) (N.cl b) (N.cl k)) ↔ N.find (fun _ => 0) 0 ((N.cl a).i.b + (N.cl b).i.b) = some k := by
      rw [N.find_some]
      refine and_congr_right fun hk => ?_
      rw [reach_II h1 h2 (hN.lay k hk) hII.1 hII.2]
      simp only [single_pts s1.2.1, single_pts s2.2.1, exists_eq_left]
    have h := if_congr key (rfl : (1 : ℕ) = 1) (rfl : (0 : ℕ) = 0)
    rw [h]
    cases N.find (fun _ => 0) 0 ((N.cl a).i.b + (N.cl b).i.b) with
    | none => simp
    | some j =>
      by_cases hj : j = k
      · simp [hj, one]
      · simp [hj, one]
  rw [if_neg fun h => hII h.2.2]
  by_cases hIV : pairIV [()] (N.cl a) (N.cl b)
  · have s1 : simplex [()] (N.cl a) := by
      rcases hIV with ⟨x, _⟩ | ⟨x, _⟩
      · exact hN.singleI a ha x
      · exact hN.singleV a ha x
    have s2 : simplex [()] (N.cl b) := by
      rcases hIV with ⟨_, x⟩ | ⟨_, x⟩
      · exact hN.singleV b hb x
      · exact hN.singleI b hb x
    rw [if_pos ⟨s1, s2, hIV⟩]
    dsimp only
    rcases net_size hIV with ⟨⟨x, y⟩, e⟩ | ⟨⟨x, y⟩, e⟩
    · rw [e]
      refine (recombine_exact N hN.lay h2 h1 y x s2 s1 k).trans ?_
      exact if_congr (and_congr_right fun _ => reach_comm) rfl rfl
    · rw [e]
      exact recombine_exact N hN.lay h1 h2 x y s1 s2 k
  rw [if_neg fun h => hIV h.2.2]
  exact (count_one _ k).trans (goods_count N hN.lay h1 h2 hII hIV (by tauto) k)

open Classical in
/-- **C74** Iron: the reaction without product is added exactly once when the two annihilate, never otherwise. -/
theorem fe_annihilation (N : Net Unit [()]) (hN : LayS N) (m1 m2 : Bool) (hm : m1 = true ∨ m2 = true) {a b : ℕ} (ha : a < N.n) (hb : b < N.n) :
    (fePair N m1 m2 (N.cl a) (N.cl b)).prods.count (none, none) = if Annihilate [()] (N.cl a) (N.cl b) then 1 else 0 := by
  have hm' : ¬ (m1 = false ∧ m2 = false) := by rcases hm with h | h <;> simp [h]
  have h1 := hN.lay a ha
  have h2 := hN.lay b hb
  have hnot : ¬ pairIV [()] (N.cl a) (N.cl b) → ¬ Annihilate [()] (N.cl a) (N.cl b) := fun h h' => h (annihilate_pair h1 h2 h')
  rw [fePair, if_neg hm']
  by_cases hII : onI [()] (N.cl a) ∧ onI [()] (N.cl b)
  · have hIV : ¬ pairIV [()] (N.cl a) (N.cl b) := by
      rintro (⟨_, h⟩ | ⟨h, _⟩)
      · exact not_both h hII.2
      · exact not_both h hII.1
    rw [if_pos ⟨hN.singleI a ha hII.1, hN.singleI b hb hII.2, hII.1, hII.2⟩, if_neg (hnot hIV)]
    cases N.find (fun _ => 0) 0 ((N.cl a).i.b + (N.cl b).i.b) <;> simp [one]
  rw [if_neg fun h => hII h.2.2]
  by_cases hIV : pairIV [()] (N.cl a) (N.cl b)
  · have s1 : simplex [()] (N.cl a) := by
      rcases hIV with ⟨x, _⟩ | ⟨x, _⟩
      · exact hN.singleI a ha x
      · exact hN.singleV a ha x
    have s2 : simplex [()] (N.cl b) := by
      rcases hIV with ⟨_, x⟩ | ⟨_, x⟩
      · exact hN.singleV b hb x
      · exact hN.singleI b hb x
    rw [if_pos ⟨s1, s2, hIV⟩]
    dsimp only
    rw [recombine_none]
    rcases net_size hIV with ⟨⟨x, y⟩, e⟩ | ⟨⟨x, y⟩, e⟩
    · rw [e]
      exact if_congr (by rw [recombine_annihilate h2 h1 y x s2 s1, annihilate_comm]) rfl rfl
    · rw [e]
      exact if_congr (recombine_annihilate h1 h2 x y s1 s2) rfl rfl
  rw [if_neg fun h => hIV h.2.2, if_neg (hnot hIV)]
  exact count_none_one _

/-- **C74** Iron and fuel: the order of the two clusters does not matter. -/
theorem fe_symm (N : Net Unit [()]) (m1 m2 : Bool) (c1 c2 : Clu Unit) : fePair N m1 m2 c1 c2 = fePair N m2 m1 c2 c1 := by
  unfold fePair
  by_cases hm : m1 = false ∧ m2 = false
  · rw [if_pos hm, if_pos hm.symm]
  rw [if_neg hm, if_neg (show ¬ (m2 = false ∧ m1 = false) from fun h => hm h.symm)]
  by_cases hII : simplex [()] c1 ∧ simplex [()] c2 ∧ onI [()] c1 ∧ onI [()] c2
  · rw [if_pos hII, if_pos ⟨hII.2.1, hII.1, hII.2.2.2, hII.2.2.1⟩, add_comm c2.i.b]
    cases N.find (fun _ => 0) 0 (c1.i.b + c2.i.b) with
    | none => rfl
    | some k =>
      dsimp only
      congr 1
      exact if_congr or_comm rfl rfl
  rw [if_neg hII, if_neg (show ¬ (simplex [()] c2 ∧ simplex [()] c1 ∧ onI [()] c2 ∧ onI [()] c1) from fun h => hII ⟨h.2.1, h.1, h.2.2.2, h.2.2.1⟩)]
  by_cases hIV : simplex [()] c1 ∧ simplex [()] c2 ∧ pairIV [()] c1 c2
  · rw [if_pos hIV, if_pos (show simplex [()] c2 ∧ simplex [()] c1 ∧ pairIV [()] c2 c1 from ⟨hIV.2.1, hIV.1, pairIV_comm.mp hIV.2.2⟩)]
    rcases hIV.2.2 with ⟨a, b⟩ | ⟨a, b⟩
    · rw [if_neg fun h => not_both h a, if_pos a, if_pos b, if_neg fun h => not_both b h]
    · rw [if_pos a, if_neg fun h => not_both a h, if_neg fun h => not_both h b, if_pos b]
  rw [if_neg hIV, if_neg (show ¬ (simplex [()] c2 ∧ simplex [()] c1 ∧ pairIV [()] c2 c1) from fun h => hIV ⟨h.2.1, h.1, pairIV_comm.mp h.2.2⟩), goods_comm N c1 c2]
  congr 1
  exact if_congr or_comm (if_congr (by tauto) rfl rfl) rfl

theorem ne_symm (N : Net Unit [()]) (m1 m2 : Bool) (c1 c2 : Clu Unit) : nePair N m1 m2 c1 c2 = nePair N m2 m1 c2 c1 ∧ neReso N c1 c2 = neReso N c2 c1 := by
  constructor
  · unfold nePair
    by_cases hm : m1 = false ∧ m2 = false
    · rw [if_pos hm, if_pos hm.symm]
    rw [if_neg hm, if_neg (show ¬ (m2 = false ∧ m1 = false) from fun h => hm h.symm)]
    by_cases hIV : simplex [()] c1 ∧ simplex [()] c2 ∧ pairIV [()] c1 c2
    · rw [if_pos hIV, if_pos (show simplex [()] c2 ∧ simplex [()] c1 ∧ pairIV [()] c2 c1 from ⟨hIV.2.1, hIV.1, pairIV_comm.mp hIV.2.2⟩)]
      rcases hIV.2.2 with ⟨a, b⟩ | ⟨a, b⟩
      · rw [if_neg fun h => not_both h a, if_pos a, if_pos b, if_neg fun h => not_both b h]
      · rw [if_pos a, if_neg fun h => not_both a h, if_neg fun h => not_both h b, if_pos b]
    rw [if_neg hIV, if_neg (show ¬ (simplex [()] c2 ∧ simplex [()] c1 ∧ pairIV [()] c2 c1) from fun h => hIV ⟨h.2.1, h.1, pairIV_comm.mp h.2.2⟩), goods_comm N c1 c2]
    congr 1
    exact if_congr or_comm rfl rfl
  · unfold neReso
    rw [goods_comm N c1 c2]
    exact if_congr or_comm rfl rfl

theorem size_unit (c : Clu Unit) : size [()] c = (c.g ()).b + c.v.b + c.i.b := by
  simp [size]

/-- **C74** Iron: a product comes apart again exactly when one of the fragments is a single atom, vacancy or interstitial, except that a vacancy cluster and an interstitial cluster never come back and
a pair of two single helium atoms never comes apart. -/
theorem fe_diss (N : Net Unit [()]) (hN : LayS N) (m1 m2 : Bool) {a b : ℕ} (ha : a < N.n) (hb : b < N.n) (k : ℕ) :
    (fePair N m1 m2 (N.cl a) (N.cl b)).diss.count k =
      if (size [()] (N.cl a) = 1 ∨ size [()] (N.cl b) = 1) ∧ ¬ pairIV [()] (N.cl a) (N.cl b) ∧
        ¬ (size [()] (N.cl a) = 1 ∧ ((N.cl a).g ()).b = 1 ∧ size [()] (N.cl b) = 1 ∧ ((N.cl b).g ()).b = 1)
      then (fePair N m1 m2 (N.cl a) (N.cl b)).prods.count (some k, none) else 0 := by
  have h1 := hN.lay a ha
  have h2 := hN.lay b hb
  have u1 := unitOn_iff (List.nodup_singleton ()) h1
  have u2 := unitOn_iff (List.nodup_singleton ()) h2
  have g1 := h1.g () (by simp)
  have g2 := h2.g () (by simp)
  have v1 := h1.v.1
  have v2 := h2.v.1
  have i1 := h1.i.1
  have i2 := h2.i.1
  have hHe : (onG [()] () (N.cl a) ∧ onG [()] () (N.cl b) ∧ ((N.cl a).g ()).b = 1 ∧ ((N.cl b).g ()).b = 1) ↔
      (size [()] (N.cl a) = 1 ∧ ((N.cl a).g ()).b = 1 ∧ size [()] (N.cl b) = 1 ∧ ((N.cl b).g ()).b = 1) := by
    rw [size_unit, size_unit]
    unfold onG
    constructor
    · rintro ⟨⟨_, p, q, _⟩, ⟨_, r, s, _⟩, t, u⟩
      refine ⟨by omega, t, by omega, u⟩
    · rintro ⟨p, q, r, s⟩
      refine ⟨⟨by omega, by omega, by omega, ?_⟩, ⟨by omega, by omega, by omega, ?_⟩, q, s⟩
      · intro l _ h; exact absurd rfl h
      · intro l _ h; exact absurd rfl h
  unfold fePair
  by_cases hm : m1 = false ∧ m2 = false
  · rw [if_pos hm]; simp
  simp only [if_neg hm]
  by_cases hII : onI [()] (N.cl a) ∧ onI [()] (N.cl b)
  · have s1 := hN.singleI a ha hII.1
    have s2 := hN.singleI b hb hII.2
    have hIV : ¬ pairIV [()] (N.cl a) (N.cl b) := by
      rintro (⟨_, h⟩ | ⟨h, _⟩)
      · exact not_both h hII.2
      · exact not_both h hII.1
    have z1 := hII.1.2.2 () (by simp)
    have z2 := hII.2.2.2 () (by simp)
    have e1 : size [()] (N.cl a) = (N.cl a).i.b := by rw [size_unit, z1, hII.1.2.1]; ring
    have e2 : size [()] (N.cl b) = (N.cl b).i.b := by rw [size_unit, z2, hII.2.2.1]; ring
    simp only [if_pos (show simplex [()] (N.cl a) ∧ simplex [()] (N.cl b) ∧ onI [()] (N.cl a) ∧ onI [()] (N.cl b) from ⟨s1, s2, hII.1, hII.2⟩)]
    rw [e1, e2, z1]
    cases N.find (fun _ => 0) 0 ((N.cl a).i.b + (N.cl b).i.b) with
    | none => simp
    | some j =>
      dsimp only
      by_cases hu : (N.cl a).i.b = 1 ∨ (N.cl b).i.b = 1
      · rw [if_pos hu, if_pos ⟨hu, hIV, by omega⟩]
        by_cases hj : j = k <;> simp [hj, one]
      · rw [if_neg hu, if_neg fun h => hu h.1]; simp
  simp only [if_neg (show ¬ (simplex [()] (N.cl a) ∧ simplex [()] (N.cl b) ∧ onI [()] (N.cl a) ∧ onI [()] (N.cl b)) from fun h => hII h.2.2)]
  by_cases hIV : pairIV [()] (N.cl a) (N.cl b)
  · have s1 : simplex [()] (N.cl a) := by
      rcases hIV with ⟨x, _⟩ | ⟨x, _⟩
      · exact hN.singleI a ha x
      · exact hN.singleV a ha x
    have s2 : simplex [()] (N.cl b) := by
      rcases hIV with ⟨_, x⟩ | ⟨_, x⟩
      · exact hN.singleV b hb x
      · exact hN.singleI b hb x
    simp only [if_pos (show simplex [()] (N.cl a) ∧ simplex [()] (N.cl b) ∧ pairIV [()] (N.cl a) (N.cl b) from ⟨s1, s2, hIV⟩)]
    rw [if_neg fun h => h.2.1 hIV]; simp
  simp only [if_neg (show ¬ (simplex [()] (N.cl a) ∧ simplex [()] (N.cl b) ∧ pairIV [()] (N.cl a) (N.cl b)) from fun h => hIV h.2.2)]
  rw [show (some k, none) = one k from rfl, count_one]
  by_cases hu : unitOn [()] (N.cl a) ∨ unitOn [()] (N.cl b)
  · rw [if_pos hu]
    by_cases hh : onG [()] () (N.cl a) ∧ onG [()] () (N.cl b) ∧ ((N.cl a).g ()).b = 1 ∧ ((N.cl b).g ()).b = 1
    · rw [if_pos hh, if_neg fun h => h.2.2 (hHe.mp hh)]; simp
    · rw [if_neg hh, if_pos]
      refine ⟨?_, hIV, fun h => hh (hHe.mpr h)⟩
      rw [← u1, ← u2]; exact hu
  · rw [if_neg hu, if_neg]
    · simp
    · rintro ⟨h, _⟩
      rw [← u1, ← u2] at h
      exact hu h

/-- **C74** Iron: sinks: every mobile interstitial cluster, and the mobile vacancy clusters of 1 to 4 vacancies. -/
theorem fe_sinks (m : Bool) (c : Clu Unit) :
    feSinks m c = if m = true ∧ simplex [()] c ∧ (onI [()] c ∨ (onV [()] c ∧ c.v.b ≤ 4)) then 1 else 0 := by
  unfold feSinks
  have h4 : c.v.b < 5 ↔ c.v.b ≤ 4 := by omega
  simp only [h4]
  cases m with
  | false => simp
  | true =>
    by_cases a : onI [()] c
    · have : ¬ onV [()] c := fun h => not_both h a
      by_cases d : simplex [()] c <;> simp [a, this, d]
    · by_cases b : onV [()] c <;> by_cases d : simplex [()] c <;> by_cases e : c.v.b ≤ 4 <;> simp [a, b, d, e]

/-- **C74** Fuel: sinks: every mobile interstitial cluster, and the mobile vacancy clusters of 1 or 2 vacancies. -/
theorem ne_sinks (m : Bool) (c : Clu Unit) :
    neSinks m c = if m = true ∧ simplex [()] c ∧ (onI [()] c ∨ (onV [()] c ∧ c.v.b ≤ 2)) then 1 else 0 := by
  unfold neSinks
  have h4 : c.v.b < 3 ↔ c.v.b ≤ 2 := by omega
  simp only [h4]
  cases m with
  | false => simp
  | true =>
    by_cases a : onI [()] c
    · have : ¬ onV [()] c := fun h => not_both h a
      by_cases d : simplex [()] c <;> simp [a, this, d]
    · by_cases b : onV [()] c <;> by_cases d : simplex [()] c <;> by_cases e : c.v.b ≤ 2 <;> simp [a, b, d, e]

open Classical in
/-- **C74 (partial)** Fuel: a cluster is the product of a pair exactly once if it holds a possible result of joining the two, and never otherwise.
Missing: two interstitial clusters (`ne_interstitials`) and pairs that straddle. -/
theorem ne_exact_partial (N : Net Unit [()]) (hN : LayS N) (m1 m2 : Bool) (hm : m1 = true ∨ m2 = true) {a b : ℕ} (ha : a < N.n) (hb : b < N.n)
    (hII : ¬ (onI [()] (N.cl a) ∧ onI [()] (N.cl b))) (hs : pairIV [()] (N.cl a) (N.cl b) ∨ ¬ Straddle (N.cl a) (N.cl b)) (k : ℕ) :
    (nePair N m1 m2 (N.cl a) (N.cl b)).prods.count (some k, none) = if k < N.n ∧ Reach [()] (N.cl a) (N.cl b) (N.cl k) then 1 else 0 := by
  have hm' : ¬ (m1 = false ∧ m2 = false) := by rcases hm with h | h <;> simp [h]
  have h1 := hN.lay a ha
  have h2 := hN.lay b hb
  rw [nePair, if_neg hm']
  by_cases hIV : pairIV [()] (N.cl a) (N.cl b)
  · have s1 : simplex [()] (N.cl a) := by
      rcases hIV with ⟨x, _⟩ | ⟨x, _⟩
      · exact hN.singleI a ha x
      · exact hN.singleV a ha x
    have s2 : simplex [()] (N.cl b) := by
      rcases hIV with ⟨_, x⟩ | ⟨_, x⟩
      · exact hN.singleV b hb x
      · exact hN.singleI b hb x
    rw [if_pos ⟨s1, s2, hIV⟩]
    dsimp only
    rcases net_size hIV with ⟨⟨x, y⟩, e⟩ | ⟨⟨x, y⟩, e⟩
    · rw [e]
      refine (recombine_exact N hN.lay h2 h1 y x s2 s1 k).trans ?_
      exact if_congr (and_congr_right fun _ => reach_comm) rfl rfl
    · rw [e]
      exact recombine_exact N hN.lay h1 h2 x y s1 s2 k
  rw [if_neg fun h => hIV h.2.2]
  exact (count_one _ k).trans (goods_count N hN.lay h1 h2 hII hIV (by tauto) k)

open Classical in
/-- **C74** Fuel: the reaction without product is added exactly once when the two annihilate, never otherwise. -/
theorem ne_annihilation (N : Net Unit [()]) (hN : LayS N) (m1 m2 : Bool) (hm : m1 = true ∨ m2 = true) {a b : ℕ} (ha : a < N.n) (hb : b < N.n) :
    (nePair N m1 m2 (N.cl a) (N.cl b)).prods.count (none, none) = if Annihilate [()] (N.cl a) (N.cl b) then 1 else 0 := by
  have hm' : ¬ (m1 = false ∧ m2 = false) := by rcases hm with h | h <;> simp [h]
  have h1 := hN.lay a ha
  have h2 := hN.lay b hb
  have hnot : ¬ pairIV [()] (N.cl a) (N.cl b) → ¬ Annihilate [()] (N.cl a) (N.cl b) := fun h h' => h (annihilate_pair h1 h2 h')
  rw [nePair, if_neg hm']
  by_cases hIV : pairIV [()] (N.cl a) (N.cl b)
  · have s1 : simplex [()] (N.cl a) := by
      rcases hIV with ⟨x, _⟩ | ⟨x, _⟩
      · exact hN.singleI a ha x
      · exact hN.singleV a ha x
    have s2 : simplex [()] (N.cl b) := by
      rcases hIV with ⟨_, x⟩ | ⟨_, x⟩
      · exact hN.singleV b hb x
      · exact hN.singleI b hb x
    rw [if_pos ⟨s1, s2, hIV⟩]
    dsimp only
    rw [recombine_none]
    rcases net_size hIV with ⟨⟨x, y⟩, e⟩ | ⟨⟨x, y⟩, e⟩
    · rw [e]
      exact if_congr (by rw [recombine_annihilate h2 h1 y x s2 s1, annihilate_comm]) rfl rfl
    · rw [e]
      exact if_congr (recombine_annihilate h1 h2 x y s1 s2) rfl rfl
  rw [if_neg fun h => hIV h.2.2, if_neg (hnot hIV)]
  exact count_none_one _

/-- **C74 (negation)** Fuel: two interstitial clusters never react, whatever interstitial clusters the network holds: the bounds on the vacancy axis wrap around. -/
theorem ne_interstitials (N : Net Unit [()]) (hN : ∀ k < N.n, Lay [()] (N.cl k)) (m1 m2 : Bool) (c1 c2 : Clu Unit) (h1 : Lay [()] c1) (h2 : Lay [()] c2)
    (a : onI [()] c1) (b : onI [()] c2) : nePair N m1 m2 c1 c2 = ⟨[], []⟩ := by
  have hIV : ¬ pairIV [()] c1 c2 := by
    rintro (⟨_, h⟩ | ⟨h, _⟩)
    · exact not_both h b
    · exact not_both h a
  have hg : N.goods c1 c2 0 = [] := by
    rw [List.eq_nil_iff_forall_not_mem]
    intro k hk
    rw [mem_goods_zero] at hk
    have hv1 := (onI_of h1 a.1).2.1
    have hv2 := (onI_of h2 b.1).2.1
    have := (general_negative_none [()] c1.g c2.g (N.cl k).g c1.v c2.v c1.i c2.i (N.cl k).v h1.v h2.v h1.i h2.i (hN k hk.1).v (by
      rw [hv1, hv2]; have := a.1; have := b.1; dsimp only; omega)).1
    rw [this] at hk
    simp at hk
  unfold nePair
  split
  · rfl
  rw [if_neg fun h => hIV h.2.2, hg]
  simp

/-- **C74** Fuel: a product comes apart again exactly when one of the fragments has fewer than three atoms and defects in its smallest member, or when they are a vacancy cluster and an interstitial cluster. -/
theorem ne_diss (N : Net Unit [()]) (hN : LayS N) (m1 m2 : Bool) {a b : ℕ} (ha : a < N.n) (hb : b < N.n) (k : ℕ) :
    (nePair N m1 m2 (N.cl a) (N.cl b)).diss.count k =
      if pairIV [()] (N.cl a) (N.cl b) ∨ size [()] (N.cl a) ≤ 2 ∨ size [()] (N.cl b) ≤ 2 then (nePair N m1 m2 (N.cl a) (N.cl b)).prods.count (some k, none) else 0 := by
  rw [size_unit, size_unit]
  unfold nePair
  by_cases hm : m1 = false ∧ m2 = false
  · rw [if_pos hm]; simp
  simp only [if_neg hm]
  by_cases hIV : pairIV [()] (N.cl a) (N.cl b)
  · have s1 : simplex [()] (N.cl a) := by
      rcases hIV with ⟨x, _⟩ | ⟨x, _⟩
      · exact hN.singleI a ha x
      · exact hN.singleV a ha x
    have s2 : simplex [()] (N.cl b) := by
      rcases hIV with ⟨_, x⟩ | ⟨_, x⟩
      · exact hN.singleV b hb x
      · exact hN.singleI b hb x
    simp only [if_pos (show simplex [()] (N.cl a) ∧ simplex [()] (N.cl b) ∧ pairIV [()] (N.cl a) (N.cl b) from ⟨s1, s2, hIV⟩)]
    rw [if_pos (show pairIV [()] (N.cl a) (N.cl b) ∨ ((N.cl a).g ()).b + (N.cl a).v.b + (N.cl a).i.b ≤ 2 ∨ ((N.cl b).g ()).b + (N.cl b).v.b + (N.cl b).i.b ≤ 2 from .inl hIV)]
    generalize (if onV [()] (N.cl a) then (N.cl a).v.b else (N.cl b).v.b) - (if onI [()] (N.cl a) then (N.cl a).i.b else (N.cl b).i.b) = n
    have key : ∀ o : Option ℕ, (((o.map one).toList).filterMap fun q => q.1).count k = ((o.map one).toList).count (some k, none) := by
      intro o
      cases o with
      | none => rfl
      | some j => by_cases h : j = k <;> simp [one, h]
    unfold Net.recombine
    split
    · exact key _
    split
    · exact key _
    · simp
  simp only [if_neg (show ¬ (simplex [()] (N.cl a) ∧ simplex [()] (N.cl b) ∧ pairIV [()] (N.cl a) (N.cl b)) from fun h => hIV h.2.2)]
  rw [show (some k, none) = one k from rfl, count_one]
  by_cases hu : ((N.cl a).g ()).b + (N.cl a).v.b + (N.cl a).i.b < 3 ∨ ((N.cl b).g ()).b + (N.cl b).v.b + (N.cl b).i.b < 3
  · rw [if_pos hu, if_pos (.inr (by omega))]
  · rw [if_neg hu, if_neg]
    · simp
    · rintro (h | h)
      · exact hIV h
      · omega

open Classical in
/-- **C74** Fuel: a bubble loses a xenon-vacancy pair to a remaining bubble exactly once when it holds the sum of the two, one of which starts at one xenon and one vacancy and the other has both;
mobile or not. -/
theorem ne_resolution (N : Net Unit [()]) (hN : ∀ k < N.n, Lay [()] (N.cl k)) (c1 c2 : Clu Unit) (h1 : Lay [()] c1) (h2 : Lay [()] c2) (k : ℕ) :
    (neReso N c1 c2).count k = if (((c1.g ()).b = 1 ∧ c1.v.b = 1) ∨ ((c2.g ()).b = 1 ∧ c2.v.b = 1)) ∧ 0 < (c1.g ()).b ∧ 0 < c1.v.b ∧ 0 < (c2.g ()).b ∧ 0 < c2.v.b ∧
      k < N.n ∧ Reach [()] c1 c2 (N.cl k) then 1 else 0 := by
  unfold neReso
  by_cases hc : ((c1.g ()).b = 1 ∧ c1.v.b = 1 ∧ 0 < (c2.g ()).b ∧ 0 < c2.v.b) ∨ ((c2.g ()).b = 1 ∧ c2.v.b = 1 ∧ 0 < (c1.g ()).b ∧ 0 < c1.v.b)
  · rw [if_pos hc]
    have p1 : 0 < (c1.g ()).b := by omega
    have p2 : 0 < (c2.g ()).b := by omega
    have n1 : ¬ onI [()] c1 := fun h => by have := h.2.2 () (by simp); omega
    have n2 : ¬ onI [()] c2 := fun h => by have := h.2.2 () (by simp); omega
    have e1 := not_onI_i h1 n1
    have e2 := not_onI_i h2 n2
    rw [goods_count N hN h1 h2 (fun h => n1 h.1) (by rintro (⟨h, _⟩ | ⟨_, h⟩); exacts [n1 h, n2 h])]
    · refine if_congr ⟨fun h => ⟨by tauto, by omega, by omega, by omega, by omega, h⟩, fun h => h.2.2.2.2.2⟩ rfl rfl
    · rintro ⟨h, _⟩
      rw [e1, e2] at h
      have := h1.v.1; have := h2.v.1
      dsimp only at h; omega
  · rw [if_neg hc, if_neg]
    · simp
    · rintro ⟨h, a1, a2, a3, a4, _⟩
      apply hc
      rcases h with ⟨x, y⟩ | ⟨x, y⟩
      · exact .inl ⟨x, y, a3, a4⟩
      · exact .inr ⟨x, y, a1, a2⟩

/-! ### Examples -/

/-- The region with the given bounds for helium (xenon), vacancies and interstitials. -/
def cl1 (g v i : ℤ × ℤ) : Clu Unit := ⟨fun _ => ⟨g.1, g.2⟩, ⟨v.1, v.2⟩, ⟨i.1, i.2⟩⟩

/-- He_1 (0), He_2 (1), V_1 (2), V_2 (3), I_1 (4), I_2 (5), He_1V_1 (6), He_2V_1 (7), He_[1,3)V_[2,5) (8). -/
def exCl : ℕ → Clu Unit
  | 0 => cl1 (1, 2) (0, 1) (0, 1)
  | 1 => cl1 (2, 3) (0, 1) (0, 1)
  | 2 => cl1 (0, 1) (1, 2) (0, 1)
  | 3 => cl1 (0, 1) (2, 3) (0, 1)
  | 4 => cl1 (0, 1) (0, 1) (1, 2)
  | 5 => cl1 (0, 1) (0, 1) (2, 3)
  | 6 => cl1 (1, 2) (1, 2) (0, 1)
  | 7 => cl1 (2, 3) (1, 2) (0, 1)
  | _ => cl1 (1, 3) (2, 5) (0, 1)

def exNet : Net Unit [()] where
  n := 9
  cl := exCl
  nonneg := by decide
  disj := by
    intro k hk k' hk' x v i h h'
    have e1 := h.1 () (by simp)
    have e2 := h'.1 () (by simp)
    have e3 := h.2.1
    have e4 := h'.2.1
    have e5 := h.2.2
    have e6 := h'.2.2
    simp only [mem_pts] at e1 e2 e3 e4 e5 e6
    interval_cases k <;> interval_cases k' <;> first | rfl | (simp only [exCl, cl1] at e1 e2 e3 e4 e5 e6; omega)

theorem exNet_lay : LayS exNet where
  lay := by
    intro k hk
    have : k < 9 := hk
    interval_cases k <;> refine ⟨by simp [Small, exNet, exCl, cl1], by simp [Small, exNet, exCl, cl1], by simp [Small, exNet, exCl, cl1], by simp [exNet, exCl, cl1]⟩
  singleI := by
    intro k hk
    have : k < 9 := hk
    interval_cases k <;> decide
  singleV := by
    intro k hk
    have : k < 9 := hk
    interval_cases k <;> decide

/-- He_1 + He_1 gives He_2 which does not come apart in iron, but does in tungsten and fuel. -/
example : fePair exNet true true (exCl 0) (exCl 0) = ⟨[(some 1, none)], []⟩ ∧ psiPair () exNet true true (exCl 0) (exCl 0) = ⟨[(some 1, none)], [1]⟩ ∧
    nePair exNet true true (exCl 0) (exCl 0) = ⟨[(some 1, none)], [1]⟩ := by decide +kernel

/-- V_1 + V_2 has no product here; V_2 + I_1 gives V_1, and comes back only in fuel. -/
example : fePair exNet true true (exCl 3) (exCl 4) = ⟨[(some 2, none)], []⟩ ∧ psiPair () exNet true true (exCl 3) (exCl 4) = ⟨[(some 2, none)], []⟩ ∧
    nePair exNet true true (exCl 3) (exCl 4) = ⟨[(some 2, none)], [2]⟩ ∧ nePair exNet true true (exCl 2) (exCl 4) = ⟨[(none, none)], []⟩ := by decide +kernel

/-- He_1 + He_1V_1 and He_1 + V_1 join; He_2 + He_2 finds no product, not even with an interstitial emitted. -/
example : psiPair () exNet true false (exCl 0) (exCl 6) = ⟨[(some 7, none)], [7]⟩ ∧ psiPair () exNet true false (exCl 1) (exCl 1) = ⟨[], []⟩ ∧
    psiPair () exNet true false (exCl 0) (exCl 2) = ⟨[(some 6, none)], [6]⟩ := by decide +kernel

/-- The group and I_2: some members have fewer vacancies than interstitials left, others not. -/
example : Straddle (exCl 8) (cl1 (0, 1) (0, 1) (3, 4)) ∧ ¬ Straddle (exCl 8) (exCl 5) := by
  constructor
  · simp [Straddle, exCl, cl1]
  · simp [Straddle, exCl, cl1]

example : fePair exNet true false (exCl 8) (exCl 4) = ⟨[(some 6, none), (some 7, none), (some 8, none)], [6, 7, 8]⟩ := by decide +kernel

/-- **C74 (negation)** A concrete missing reaction: He_[1,3)V_[2,5) and I_3 hold He_1V_1 among their results, but no reaction is added. -/
theorem straddle_witness : Reach [()] (exCl 8) (cl1 (0, 1) (0, 1) (3, 4)) (exCl 6) ∧ fePair exNet true true (exCl 8) (cl1 (0, 1) (0, 1) (3, 4)) = ⟨[], []⟩ ∧
    psiPair () exNet true true (exCl 8) (cl1 (0, 1) (0, 1) (3, 4)) = ⟨[], []⟩ := by
  refine ⟨⟨fun _ => 1, 4, 0, fun _ => 0, 0, 3, fun _ => 1, 1, 0, by decide, by decide, by decide, fun _ _ => by norm_num, by norm_num⟩, by decide +kernel, by decide +kernel⟩

/-- **C74 (negation)** Fuel: I_1 + I_1 does not give I_2 although I_2 exists; iron adds it. -/
theorem ne_interstitials_witness : nePair exNet true true (exCl 4) (exCl 4) = ⟨[], []⟩ ∧ fePair exNet true true (exCl 4) (exCl 4) = ⟨[(some 5, none)], [5]⟩ ∧ Reach [()] (exCl 4) (exCl 4) (exCl 5) := by
  refine ⟨by decide +kernel, by decide +kernel, ⟨fun _ => 0, 0, 1, fun _ => 0, 0, 1, fun _ => 0, 0, 2, by decide, by decide, by decide, fun _ _ => by norm_num, by norm_num⟩⟩

/-- He_1, He_2, He_3V_1, I_1: helium atoms joining beyond the largest helium cluster leave a bubble and an interstitial. -/
def tmCl : ℕ → Clu Unit
  | 0 => cl1 (1, 2) (0, 1) (0, 1)
  | 1 => cl1 (2, 3) (0, 1) (0, 1)
  | 2 => cl1 (3, 4) (1, 2) (0, 1)
  | _ => cl1 (0, 1) (0, 1) (1, 2)

def tmNet : Net Unit [()] where
  n := 4
  cl := tmCl
  nonneg := by decide
  disj := by
    intro k hk k' hk' x v i h h'
    have e1 := h.1 () (by simp)
    have e2 := h'.1 () (by simp)
    have e3 := h.2.1
    have e4 := h'.2.1
    have e5 := h.2.2
    have e6 := h'.2.2
    simp only [mem_pts] at e1 e2 e3 e4 e5 e6
    interval_cases k <;> interval_cases k' <;> first | rfl | (simp only [tmCl, cl1] at e1 e2 e3 e4 e5 e6; omega)

example : psiPair () tmNet true true (tmCl 0) (tmCl 1) = ⟨[(some 2, some 3)], []⟩ := by decide +kernel

example : ∀ n : ℕ, 1 ≤ n → ((tmNet.find (fun _ => 0) 0 n).isSome ↔ n ≤ 1) := by
  intro n hn
  constructor
  · intro h
    obtain ⟨k, hk⟩ := Option.isSome_iff_exists.mp h
    rw [Net.find_some] at hk
    have h4 : k < 4 := hk.1
    have e1 := hk.2.1 () (by simp)
    have e2 := hk.2.2.2
    rw [mem_pts] at e1 e2
    interval_cases k <;> simp only [tmNet, tmCl, cl1] at e1 e2 <;> omega
  · intro h
    have : n = 1 := by omega
    subst this
    decide +kernel

/-- Modified trap mutation He_1 → He_1V_1 + I_1 with the table of `He_1` holding 1; only in this order. -/
example : psiModified () (fun n => if n = 1 then [1] else []) exNet true true (exCl 0) (exCl 6) = [some 4] ∧ psiModified () (fun n => if n = 1 then [1] else []) exNet true true (exCl 6) (exCl 0) = [] := by
  decide +kernel

/-- **C74 (negation)** The interstitial cluster of modified trap mutation is not checked: when the network does not hold it the reaction is added with an invalid cluster. -/
theorem modified_missing : psiModified () (fun n => if n = 2 then [3] else []) exNet true true (exCl 1) (cl1 (2, 3) (3, 4) (0, 1)) = [none] := by
  decide +kernel

/-- Re-solution: He_2V_2 (in the group) loses He_1V_1; also when nothing diffuses. -/
example : neReso exNet (exCl 6) (exCl 6) = [8] ∧ neReso exNet (exCl 0) (exCl 6) = [] := by decide +kernel

example : feSinks true (exCl 3) = 1 ∧ psiSinks (sp := [()]) true (exCl 3) = 0 ∧ neSinks true (exCl 3) = 1 ∧ feSinks false (exCl 3) = 0 := by decide +kernel

end Xolotl.Network.Dispatch
