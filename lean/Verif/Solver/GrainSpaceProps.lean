import Verif.Solver.GrainProps
import Verif.Solver.ColumnsProps
import Mathlib.Algebra.BigOperators.Group.Finset.Piecewise
import Mathlib.Tactic.SplitIfs
import Mathlib.Tactic.Tauto

/-!
# Grain boundaries in two and three dimensions: the balance (C80)
-/

set_option linter.unusedSectionVars false

namespace Xolotl.Solver.Grain

open Columns Finset

variable {K : Type*} [Field K] [LinearOrder K] [IsStrictOrderedRing K]

/-- A cluster of a periodic grid as the monitor of a single process sees it, with the ghost points. -/
def Mv.space (g : Mesh K) (m : Mover3 K) : Mv K := ⟨m.comp, fun x => m.coef (x + 1).toNat, fun x y z => m.conc (z % g.nZ).toNat (y % g.nY).toNat x.toNat⟩

theorem pred_mod (n i : ℕ) (hn : i < n) : (((i : ℤ) - 1) % (n : ℤ)).toNat = (i + n - 1) % n := by
  have e : ((i : ℤ) - 1) % (n : ℤ) = (((i + n - 1) % n : ℕ) : ℤ) := by
    rw [Int.natCast_mod, show (((i + n - 1 : ℕ) : ℤ)) = ((i : ℤ) - 1) + n by omega, Int.add_emod_right]
  rw [e, Int.toNat_natCast]

theorem succ_mod (n i : ℕ) : (((i : ℤ) + 1) % (n : ℤ)).toNat = (i + 1) % n := by
  have e : ((i : ℤ) + 1) % (n : ℤ) = (((i + 1) % n : ℕ) : ℤ) := by rw [Int.natCast_mod]; push_cast; rfl
  rw [e, Int.toNat_natCast]

theorem self_mod (n i : ℕ) (h : i < n) : ((i : ℤ) % (n : ℤ)).toNat = i := by
  rw [Int.emod_eq_of_lt (by omega) (by omega)]; simp

/-- The stencil at a point of the boundary is the rate that diffusion would have there without the boundary. -/
theorem stencil3_rate {g : Mesh K} {x0 h : K} (hg : Uniform g x0 h) {m : Mover3 K} {D : K} (hm : Even g [] m D) (k j xi : ℕ) (hk : k < g.nZ) (hj : j < g.nY) (hin : inside g [] k j xi = true) :
    stencil3 g.nX g.grid g.hy g.hz (Mv.space g m) (xi, j, k) = rate3 g [] m k j xi := by
  obtain ⟨b1, b2⟩ := inside_bounds g [] hg.left hg.right k j xi hin
  unfold rate3 stencil3 Mv.space
  rw [if_pos hin]
  simp only [Transport.conc3, Transport.open3, Transport.open2, Transport.open1, hm.coef, pred_mod _ _ hk, pred_mod _ _ hj, succ_mod, self_mod _ _ hk, self_mod _ _ hj, Int.toNat_natCast]
  rw [show ((xi : ℤ) - 1).toNat = xi - 1 by omega, show ((xi : ℤ) + 1).toNat = xi + 1 by omega]
  ring

theorem inside_gb (g : Mesh K) (gb : List Pt) (k j xi : ℕ) : inside g gb k j xi = (inside g [] k j xi && decide ((xi, j, k) ∉ gb)) := by
  unfold inside
  simp only [List.any_nil, Bool.not_false, Bool.and_true]
  congr 1
  rw [Bool.eq_iff_iff]
  simp only [Bool.not_eq_true', List.any_eq_false, decide_eq_true_eq]
  constructor
  · intro h hm; exact h _ hm rfl
  · rintro h p hp rfl; exact h hp

theorem even_all {g : Mesh K} {gb : List Pt} {m : Mover3 K} {D : K} (hm : Even g gb m D) : Even g [] m D :=
  ⟨hm.axis, hm.coef, fun k j xi h => hm.zero k j xi (by rw [inside_gb, h]; rfl)⟩

/-- The rate without the boundary: the rate with it, and at its points what the stencil says. -/
theorem rate3_split (g : Mesh K) (gb : List Pt) (m : Mover3 K) (k j xi : ℕ) :
    rate3 g [] m k j xi = rate3 g gb m k j xi + if (xi, j, k) ∈ gb then rate3 g [] m k j xi else 0 := by
  by_cases h : (xi, j, k) ∈ gb
  · rw [if_pos h]
    have : rate3 g gb m k j xi = 0 := by unfold rate3; rw [inside_gb]; simp [h]
    rw [this, zero_add]
  · rw [if_neg h, add_zero]
    unfold rate3
    rw [inside_gb g gb]; simp [h]

theorem sum_points (a b c : ℕ) (f : Pt → K) : ∀ (l : List Pt), l.Nodup → (∀ p ∈ l, p.1 < c ∧ p.2.1 < b ∧ p.2.2 < a) →
    ∑ k ∈ range a, ∑ j ∈ range b, ∑ xi ∈ range c, (if (xi, j, k) ∈ l then f (xi, j, k) else 0) = (l.map f).sum := by
  intro l
  induction l with
  | nil => simp
  | cons p l ih =>
    intro hnd hb
    obtain ⟨hp, hl⟩ := List.nodup_cons.mp hnd
    obtain ⟨h1, h2, h3⟩ := hb p List.mem_cons_self
    have split : ∀ k j xi : ℕ, (if (xi, j, k) ∈ p :: l then f (xi, j, k) else 0)
        = (if k = p.2.2 then (if j = p.2.1 then (if xi = p.1 then f p else 0) else 0) else 0) + (if (xi, j, k) ∈ l then f (xi, j, k) else 0) := by
      intro k j xi
      by_cases e : (xi, j, k) = p
      · subst e
        simp [hp]
      · have : ¬ (k = p.2.2 ∧ j = p.2.1 ∧ xi = p.1) := by
          rintro ⟨rfl, rfl, rfl⟩; exact e rfl
        have e' : (xi, j, k) ∈ p :: l ↔ (xi, j, k) ∈ l := by simp [e]
        have z : (if k = p.2.2 then (if j = p.2.1 then (if xi = p.1 then f p else 0) else 0) else 0) = 0 := by
          split_ifs <;> first | rfl | (exfalso; tauto)
        rw [z, zero_add]
        simp only [e']
    simp only [split, sum_add_distrib]
    rw [ih hl fun q hq => hb q (List.mem_cons_of_mem _ hq), List.map_cons, List.sum_cons]
    congr 1
    rw [sum_eq_single p.2.2 (by intro k _ hk; simp [hk]) (by intro hk; exact absurd (mem_range.mpr h3) hk)]
    rw [sum_eq_single p.2.1 (by intro j _ hj; simp [hj]) (by intro hk; exact absurd (mem_range.mpr h2) hk)]
    rw [sum_eq_single p.1 (by intro j _ hj; simp [hj]) (by intro hk; exact absurd (mem_range.mpr h1) hk)]
    simp

/-- The flux into a point of the boundary is what the rate there would be without the boundary. -/
theorem into3_rate (wide : Bool) {g : Mesh K} {x0 h : K} (hg : Uniform g x0 h) (gb : List Pt)
    (hin : ∀ p ∈ gb, p.2.1 < g.nY ∧ p.2.2 < g.nZ ∧ inside g [] p.2.2 p.2.1 p.1 = true) (hw : wide = true ∨ ∀ p ∈ gb, 0 < p.2.1 ∧ 0 < p.2.2)
    (ms : List (Mover3 K)) (D : Mover3 K → K) (hm : ∀ m ∈ ms, Even g gb m (D m)) (s : ℕ) :
    ∀ p ∈ gb, ((into3 wide g.nX g.grid g.hy g.hz 0 (ms.map (Mv.space g)) p).getD fun _ => 0) s = (ms.map fun m => (m.comp.getD s 0 : K) * rate3 g [] m p.2.2 p.2.1 p.1).sum := by
  have hgr : ∀ i, g.grid i < g.grid (i + 1) := by
    intro i; rw [hg.grid, hg.grid]; push_cast; nlinarith [hg.hx]
  intro p hp
  obtain ⟨hj, hk, hi⟩ := hin p hp
  obtain ⟨b1, b2⟩ := inside_bounds g [] hg.left hg.right _ _ _ hi
  obtain ⟨u, hu, hs⟩ := into3_stencil_partial wide g.nX g.grid hgr g.hy g.hz 0 (ms.map (Mv.space g)) p (Nat.zero_le _)
    (hw.imp id fun h' => ⟨by omega, (h' p hp).1, (h' p hp).2⟩)
    (by
      intro m' hm'
      obtain ⟨m, h0, rfl⟩ := List.mem_map.mp hm'
      have he := hm m h0
      refine ⟨he.axis, by simp only [Mv.space, he.coef], by simp only [Mv.space, he.coef], ?_⟩
      simp only [Mv.space, self_mod _ _ hk, self_mod _ _ hj, Int.toNat_natCast]
      exact he.zero _ _ _ (by rw [inside_gb]; simp [hp]))
  rw [hu, Option.getD_some, hs s, List.map_map]
  congr 1
  refine List.map_congr_left fun m h0 => ?_
  simp only [Function.comp]
  rw [stencil3_rate hg (even_all (hm m h0)) p.2.2 p.2.1 p.1 hk hj hi]
  rfl

/-- What the monitor counts into the points of the boundary, in three dimensions on a single process. -/
def counted3 (wide : Bool) (g : Mesh K) (ms : List (Mover3 K)) (gb : List Pt) (s : ℕ) : K :=
  (gb.map fun p => ((into3 wide g.nX g.grid g.hy g.hz 0 (ms.map (Mv.space g)) p).getD fun _ => 0) s * cell g.grid g.hy g.hz p).sum

/-- **C80, balance in three dimensions.**  On a uniform grid with periodic or free sides and any positions of the surface, for clusters of one species with constant coefficients and none of them on the boundary:
what diffusion takes away from the other points is what goes through the surface and the bottom, into the boundary by the monitor, and through the walls of steps and free sides. -/
theorem balance3_partial (wide : Bool) {g : Mesh K} {x0 h : K} (hg : Uniform g x0 h) (gb : List Pt) (hnd : gb.Nodup)
    (hin : ∀ p ∈ gb, p.2.1 < g.nY ∧ p.2.2 < g.nZ ∧ inside g [] p.2.2 p.2.1 p.1 = true) (hw : wide = true ∨ ∀ p ∈ gb, 0 < p.2.1 ∧ 0 < p.2.2)
    (ms : List (Mover3 K)) (D : Mover3 K → K) (hm : ∀ m ∈ ms, Even g gb m (D m)) (s : ℕ) :
    content3 g ms (rate3 g gb) s
      = -((overColumns g (fun k j => frontFlux g (g.hy * g.hz) ms k j s) + overColumns g (fun k j => bottomFlux g (g.hy * g.hz) ms k j s) + counted3 wide g ms gb s + walls g ms D h s) / area3 g) := by
  have hb := balance hg ms D (fun m h' => even_all (hm m h')) s
  have hmv := into3_rate wide hg gb hin hw ms D hm s
  have hsplit : content3 g ms (rate3 g []) s = content3 g ms (rate3 g gb) s + counted3 wide g ms gb s / area3 g := by
    unfold content3
    rw [← add_div]
    congr 1
    have hc : counted3 wide g ms gb s = ∑ k ∈ range g.nZ, ∑ j ∈ range g.nY, ∑ xi ∈ range g.nX,
        if (xi, j, k) ∈ gb then (fun p : Pt => (ms.map fun m => (m.comp.getD s 0 : K) * rate3 g [] m p.2.2 p.2.1 p.1).sum * (h * (g.hy * g.hz))) (xi, j, k) else 0 := by
      refine Eq.trans ?_ (sum_points g.nZ g.nY g.nX (fun p : Pt => (ms.map fun m => (m.comp.getD s 0 : K) * rate3 g [] m p.2.2 p.2.1 p.1).sum * (h * (g.hy * g.hz))) gb hnd
        (fun p hp => ⟨by have := (inside_bounds g [] hg.left hg.right _ _ _ (hin p hp).2.2).2; omega, (hin p hp).1, (hin p hp).2.1⟩)).symm
      unfold counted3
      congr 1
      refine List.map_congr_left fun p hp => ?_
      rw [hmv p hp]
      unfold cell
      rw [hg.grid, hg.grid]; push_cast; ring
    rw [hc]
    unfold overColumns
    rw [← sum_add_distrib]
    refine sum_congr rfl fun k _ => ?_
    rw [← sum_add_distrib]
    refine sum_congr rfl fun j _ => ?_
    rw [columnContent_rate hg, columnContent_rate hg, ← sum_add_distrib]
    refine sum_congr rfl fun xi _ => ?_
    by_cases hp : (xi, j, k) ∈ gb
    · rw [if_pos hp]
      have : ∀ m : Mover3 K, rate3 g gb m k j xi = 0 := fun m => by unfold rate3; rw [inside_gb]; simp [hp]
      simp [this]
    · rw [if_neg hp, add_zero]
      congr 2
      refine List.map_congr_left fun m _ => ?_
      rw [rate3_split g gb m k j xi, if_neg hp, add_zero]
  rw [hsplit] at hb
  have := eq_sub_of_add_eq hb
  rw [this]; ring

/-- What the monitor counts into the points of the boundary, in two dimensions on a single process. -/
def counted2 (wide : Bool) (g : Mesh K) (ms : List (Mover3 K)) (gb : List Pt) (s : ℕ) : K :=
  (gb.map fun p => ((into2 wide g.nX g.grid g.hy 0 (ms.map (Mv.space g)) p).getD fun _ => 0) s * cell g.grid g.hy 1 p).sum

/-- **C80, balance in two dimensions**, with a flat surface and periodic sides: what diffusion takes away from the points that are not of the boundary is what goes through the surface, through the bottom and, by the monitor, into the boundary. -/
theorem balance2_partial (wide : Bool) {g : Mesh K} {x0 h : K} (hg : Uniform g x0 h) (h1 : g.nZ = 1) (t : ℕ) (ht : ∀ k j, g.surf k j = t)
    (ho : g.bottomOffset = 0 ∧ g.topOffset = 0 ∧ g.frontOffset = 0 ∧ g.backOffset = 0) (gb : List Pt) (hnd : gb.Nodup)
    (hin : ∀ p ∈ gb, p.2.1 < g.nY ∧ p.2.2 = 0 ∧ inside g [] 0 p.2.1 p.1 = true) (hw : wide = true ∨ ∀ p ∈ gb, 0 < p.2.1)
    (ms : List (Mover3 K)) (D : Mover3 K → K) (hm : ∀ m ∈ ms, Even g gb m (D m)) (s : ℕ) :
    content2 g ms (fun m _ j xi => rate2 g gb m j xi) s
      = -((∑ j ∈ range g.nY, frontFlux g g.hy ms 0 j s + ∑ j ∈ range g.nY, bottomFlux g g.hy ms 0 j s + counted2 wide g ms gb s) / area2 g) := by
  have hz := hg.hz.ne'
  have hin3 : ∀ p ∈ gb, p.2.1 < g.nY ∧ p.2.2 < g.nZ ∧ inside g [] p.2.2 p.2.1 p.1 = true := by
    intro p hp
    obtain ⟨a, b, c⟩ := hin p hp
    exact ⟨a, by omega, by rw [b]; exact c⟩
  have hgr : ∀ i, g.grid i < g.grid (i + 1) := by
    intro i; rw [hg.grid, hg.grid]; push_cast; nlinarith [hg.hx]
  have h3 := balance3_partial true hg gb hnd hin3 (Or.inl rfl) ms D hm s
  have hwall : walls g ms D h s = 0 := walls_flat t ht ho ms D (fun m hm0 => even_all (hm m hm0)) h s
  obtain ⟨e1, e2, e3⟩ := two_is_three g gb h1 hz ms s
  have hl : content2 g ms (fun m _ j xi => rate2 g gb m j xi) s = content3 g ms (rate3 g gb) s := by
    rw [e2]
    unfold content3 overColumns
    rw [h1, range_one, sum_singleton, sum_singleton]
    congr 1
    refine sum_congr rfl fun j _ => ?_
    unfold columnContent
    refine sum_congr rfl fun xi _ => ?_
    simp only [e1]
  have hcount : counted3 true g ms gb s = counted2 wide g ms gb s * g.hz := by
    unfold counted3 counted2
    rw [← List.sum_map_mul_right]
    congr 1
    refine List.map_congr_left fun p hp => ?_
    obtain ⟨hj, h0, hi⟩ := hin p hp
    obtain ⟨b1, b2⟩ := inside_bounds g [] hg.left hg.right _ _ _ hi
    rw [into3_rate true hg gb hin3 (Or.inl rfl) ms D hm s p hp]
    obtain ⟨u, hu, hs⟩ := into2_stencil_partial wide g.nX g.grid hgr g.hy 0 (ms.map (Mv.space g)) p (Nat.zero_le _)
      (hw.imp id fun h' => ⟨by omega, h' p hp⟩)
      (by
        intro m' hm'
        obtain ⟨m, h0', rfl⟩ := List.mem_map.mp hm'
        have he := hm m h0'
        refine ⟨he.axis, by simp only [Mv.space, he.coef], by simp only [Mv.space, he.coef], ?_⟩
        simp only [Mv.space, self_mod _ _ hj, Int.toNat_natCast, Int.zero_emod, Int.toNat_zero]
        refine he.zero _ _ _ ?_
        rw [inside_gb]
        have : (p.1, p.2.1, 0) ∈ gb := by rw [← h0]; exact hp
        simp [this])
    rw [hu, Option.getD_some, hs s, List.map_map]
    have hr : ∀ m ∈ ms, stencil2 g.nX g.grid g.hy (Mv.space g m) p = rate3 g [] m p.2.2 p.2.1 p.1 := by
      intro m hmm
      rw [h0, ← (two_is_three g [] h1 hz ms s).1]
      unfold rate2 stencil2 Mv.space
      rw [if_pos hi]
      simp only [Transport.conc2, Transport.open2, Transport.open1, (hm m hmm).coef, pred_mod _ _ hj, succ_mod, self_mod _ _ hj, Int.toNat_natCast, Int.zero_emod, Int.toNat_zero]
      rw [show ((p.1 : ℤ) - 1).toNat = p.1 - 1 by omega, show ((p.1 : ℤ) + 1).toNat = p.1 + 1 by omega]
    have : (ms.map ((fun m => (m.comp.getD s 0 : K) * stencil2 g.nX g.grid g.hy m p) ∘ Mv.space g)) = ms.map fun m => (m.comp.getD s 0 : K) * rate3 g [] m p.2.2 p.2.1 p.1 := by
      refine List.map_congr_left fun m hmm => ?_
      simp only [Function.comp]
      rw [hr m hmm]; rfl
    rw [this]
    unfold cell
    ring
  have hflux : ∀ f : ℕ → ℕ → ℕ, (overColumns g fun k j => faceFlux g (g.hy * g.hz) ms k j (f k j) s) / area3 g = (∑ j ∈ range g.nY, faceFlux g g.hy ms 0 j (f 0 j) s) / area2 g := by
    intro f
    unfold overColumns
    rw [h1, range_one, sum_singleton, sum_div, sum_div]
    exact sum_congr rfl fun j _ => (e3 j (f 0 j)).symm
  have hA : area3 g = area2 g * g.hz := by
    unfold area3 area2; rw [h1, mul_one]
  rw [hl, h3, hwall, add_zero, add_div, add_div, add_div, add_div]
  have f1 := hflux fun k j => g.surf k j + 1
  have f2 := hflux fun _ _ => g.nX - 2
  unfold frontFlux bottomFlux
  rw [f1, f2, hcount, hA, mul_div_mul_right _ _ hz]

/-- Non-vacuity: a boundary across two columns. -/
example : content3 plain [full plain [(2, 0, 0), (2, 1, 0)]] (rate3 plain [(2, 0, 0), (2, 1, 0)]) 0
    = -((overColumns plain (fun k j => frontFlux plain (plain.hy * plain.hz) [full plain [(2, 0, 0), (2, 1, 0)]] k j 0) + overColumns plain (fun k j => bottomFlux plain (plain.hy * plain.hz) [full plain [(2, 0, 0), (2, 1, 0)]] k j 0)
      + counted3 true plain [full plain [(2, 0, 0), (2, 1, 0)]] [(2, 0, 0), (2, 1, 0)] 0 + walls plain [full plain [(2, 0, 0), (2, 1, 0)]] (fun _ => 1) 1 0) / area3 plain) :=
  balance3_partial true plain_uniform [(2, 0, 0), (2, 1, 0)] (by decide) (by decide +kernel) (Or.inl rfl) _ (fun _ => 1) (by simpa using full_even plain [(2, 0, 0), (2, 1, 0)]) 0

example : counted3 true plain [full plain [(2, 0, 0), (2, 1, 0)]] [(2, 0, 0), (2, 1, 0)] 0 = 4 ∧ counted2 true plain [full plain [(2, 0, 0), (2, 1, 0)]] [(2, 0, 0), (2, 1, 0)] 0 = 4 := ⟨by decide +kernel, by decide +kernel⟩

example : content2 plain [full plain [(2, 0, 0)]] (fun m _ j xi => rate2 plain [(2, 0, 0)] m j xi) 0
    = -((∑ j ∈ range plain.nY, frontFlux plain plain.hy [full plain [(2, 0, 0)]] 0 j 0 + ∑ j ∈ range plain.nY, bottomFlux plain plain.hy [full plain [(2, 0, 0)]] 0 j 0
      + counted2 true plain [full plain [(2, 0, 0)]] [(2, 0, 0)] 0) / area2 plain) :=
  balance2_partial true plain_uniform rfl 0 (fun _ _ => rfl) ⟨rfl, rfl, rfl, rfl⟩ [(2, 0, 0)] (by decide) (by decide +kernel) (Or.inl rfl) _ (fun _ => 1) (by simpa using full_even plain [(2, 0, 0)]) 0

end Xolotl.Solver.Grain
