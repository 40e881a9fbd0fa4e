import Verif.Network.Radius
import Verif.Network.PsiSelectProps
import Verif.Network.SelectProps
import Mathlib.Tactic.Linarith
import Mathlib.Tactic.NormNum
import Mathlib.Tactic.Ring
import Mathlib.Tactic.Positivity
import Mathlib.Tactic.FieldSimp
import Mathlib.Tactic.IntervalCases

set_option linter.unusedSectionVars false

/-!
# Properties of the radii and mobilities of clusters (C63)
-/

namespace Xolotl.Network.Radius

open Real

/-! ### Cube roots and means -/

theorem cbrt_mono {x y : ℝ} (hx : 0 ≤ x) (h : x ≤ y) : cbrt x ≤ cbrt y := rpow_le_rpow hx h (by norm_num)

theorem cbrt_lt {x y : ℝ} (hx : 0 ≤ x) (h : x < y) : cbrt x < cbrt y := rpow_lt_rpow hx h (by norm_num)

theorem cbrt_pos {x : ℝ} (hx : 0 < x) : 0 < cbrt x := rpow_pos_of_pos hx _

theorem cbrt_cube {x : ℝ} (hx : 0 ≤ x) : cbrt x ^ 3 = x := by
  unfold cbrt
  rw [← rpow_natCast, ← rpow_mul hx]
  norm_num

/-- The mean of values that lie between two bounds lies between them. -/
theorem mean_bounds (f : ℕ → ℝ) (lo hi : ℕ) (h : lo < hi) (a b : ℝ) (hf : ∀ j, lo ≤ j → j < hi → a ≤ f j ∧ f j ≤ b) : a ≤ mean f lo hi ∧ mean f lo hi ≤ b := by
  have hc : (0 : ℝ) < ((hi - lo : ℕ) : ℝ) := by exact_mod_cast Nat.sub_pos_of_lt h
  have e : ∀ c : ℝ, ∑ _j ∈ Finset.Ico lo hi, c = c * ((hi - lo : ℕ) : ℝ) := by
    intro c
    rw [Finset.sum_const, Nat.card_Ico, nsmul_eq_mul, mul_comm]
  unfold mean
  rw [le_div_iff₀ hc, div_le_iff₀ hc, ← e, ← e]
  constructor
  · exact Finset.sum_le_sum fun j hj => (hf j (Finset.mem_Ico.mp hj).1 (Finset.mem_Ico.mp hj).2).1
  · exact Finset.sum_le_sum fun j hj => (hf j (Finset.mem_Ico.mp hj).1 (Finset.mem_Ico.mp hj).2).2

theorem mean_lt (f g : ℕ → ℝ) (lo hi : ℕ) (h : lo < hi) (hle : ∀ j, lo ≤ j → j < hi → f j ≤ g j) (k : ℕ) (hk : lo ≤ k) (hk' : k < hi) (hlt : f k < g k) :
    mean f lo hi < mean g lo hi := by
  have hc : (0 : ℝ) < ((hi - lo : ℕ) : ℝ) := by exact_mod_cast Nat.sub_pos_of_lt h
  unfold mean
  rw [div_lt_div_iff_of_pos_right hc]
  exact Finset.sum_lt_sum (fun j hj => hle j (Finset.mem_Ico.mp hj).1 (Finset.mem_Ico.mp hj).2) ⟨k, Finset.mem_Ico.mpr ⟨hk, hk'⟩, hlt⟩

theorem mean_congr (f g : ℕ → ℝ) (lo hi : ℕ) (h : ∀ j, lo ≤ j → j < hi → f j = g j) : mean f lo hi = mean g lo hi := by
  unfold mean
  rw [Finset.sum_congr rfl fun j hj => h j (Finset.mem_Ico.mp hj).1 (Finset.mem_Ico.mp hj).2]

theorem mean_single (f : ℕ → ℝ) (n : ℕ) : mean f n (n + 1) = f n := by
  unfold mean
  simp

/-! ### Tungsten -/

/-- Parameters that make sense. -/
structure Par.Ok (p : Par) : Prop where
  a : 0 < p.a
  bias : 0 < p.bias
  imp : 0 < p.imp
  hyd : 0 < p.hyd

/-- **C63, tungsten.** A cluster of one defect has the base radius, and `n` defects add the radius of a ball of their volume less that of one: half a lattice cell for each vacancy or interstitial, a tenth of a cell for each gas atom. -/
theorem psi_volume (p : Par) (hp : p.Ok) (n : ℕ) :
    (∃ r r₁ : ℝ, 0 < r₁ ∧ 4 / 3 * π * r ^ 3 = n * (p.a ^ 3 / 2) ∧ 4 / 3 * π * r₁ ^ 3 = p.a ^ 3 / 2
      ∧ psiV p n = p.a * √3 / 4 + (r - r₁) ∧ psiI p n = p.bias * (p.a * √3 / 4) + (r - r₁))
    ∧ (∃ r r₁ : ℝ, 0 < r₁ ∧ 4 / 3 * π * r ^ 3 = n * (p.a ^ 3 / 10) ∧ 4 / 3 * π * r₁ ^ 3 = p.a ^ 3 / 10
      ∧ psiHe p n = p.imp + (r - r₁) ∧ psiH p n = p.hyd * (p.imp + (r - r₁))) := by
  have ha := hp.a
  have hpi := pi_pos
  have e1 : 3 / (8 * π) * p.a ^ 3 * n = 3 * p.a ^ 3 * n / (8 * π) := by ring
  have e2 : 3 / (8 * π) * p.a ^ 3 = 3 * p.a ^ 3 / (8 * π) := by ring
  refine ⟨⟨cbrt (3 * p.a ^ 3 * n / (8 * π)), cbrt (3 * p.a ^ 3 / (8 * π)), cbrt_pos (by positivity), ?_, ?_, ?_, ?_⟩,
    ⟨cbrt (3 / (4 * π) * (1 / 10) * p.a ^ 3 * n), cbrt (3 / (4 * π) * (1 / 10) * p.a ^ 3), cbrt_pos (by positivity), ?_, ?_, ?_, ?_⟩⟩
  · rw [cbrt_cube (by positivity)]; field_simp; ring
  · rw [cbrt_cube (by positivity)]; field_simp; norm_num
  · unfold psiV; ring
  · unfold psiI; rw [e1, e2]; ring
  · rw [cbrt_cube (by positivity)]; field_simp
  · rw [cbrt_cube (by positivity)]; field_simp
  · unfold psiHe; ring
  · unfold psiH psiHe; ring

/-- Volumes in order give radii in order. -/
theorem cbrt_scale {c : ℝ} (hc : 0 < c) {m n : ℕ} (h : m < n) : cbrt (c * m) < cbrt (c * n) :=
  cbrt_lt (by positivity) (by have : (m : ℝ) < n := by exact_mod_cast h
                              exact mul_lt_mul_of_pos_left this hc)

/-- **C63, tungsten.** Larger clusters are larger. -/
theorem psi_mono (p : Par) (hp : p.Ok) : StrictMono (psiI p) ∧ StrictMono (psiHe p) ∧ StrictMono (psiH p) ∧ StrictMono (psiV p) := by
  have ha := hp.a
  have hpi := pi_pos
  have he : StrictMono (psiHe p) := by
    intro m n h
    have := cbrt_scale (c := 3 / (4 * π) * (1 / 10) * p.a ^ 3) (by positivity) h
    unfold psiHe; linarith
  refine ⟨?_, he, ?_, ?_⟩
  · intro m n h
    have := cbrt_scale (c := 3 / (8 * π) * p.a ^ 3) (by positivity) h
    unfold psiI; linarith
  · intro m n h
    unfold psiH
    exact mul_lt_mul_of_pos_right (he h) hp.hyd
  · intro m n h
    have := cbrt_scale (c := 3 * p.a ^ 3 / (8 * π)) (by positivity) h
    unfold psiV
    rw [show 3 * p.a ^ 3 * (m : ℝ) / (8 * π) = 3 * p.a ^ 3 / (8 * π) * m by ring, show 3 * p.a ^ 3 * (n : ℝ) / (8 * π) = 3 * p.a ^ 3 / (8 * π) * n by ring]
    linarith

/-- **C63, tungsten.** The radii of single defects. -/
theorem psi_one (p : Par) : psiI p 1 = p.bias * (√3 / 4) * p.a ∧ psiHe p 1 = p.imp ∧ psiH p 1 = p.imp * p.hyd ∧ psiV p 1 = √3 / 4 * p.a := by
  have h : psiHe p 1 = p.imp := by unfold psiHe; simp
  refine ⟨by unfold psiI; simp, h, by unfold psiH; rw [h], by unfold psiV; simp⟩

theorem psi_pos (p : Par) (hp : p.Ok) (n : ℕ) (hn : 0 < n) : 0 < psiI p n ∧ 0 < psiHe p n ∧ 0 < psiH p n ∧ 0 < psiV p n := by
  obtain ⟨m1, m2, m3, m4⟩ := psi_mono p hp
  obtain ⟨o1, o2, o3, o4⟩ := psi_one p
  have ha := hp.a
  have hb := hp.bias
  have hi := hp.imp
  have hh := hp.hyd
  have s : 0 < √(3 : ℝ) := Real.sqrt_pos.mpr (by norm_num)
  refine ⟨lt_of_lt_of_le ?_ (m1.monotone hn), lt_of_lt_of_le ?_ (m2.monotone hn), lt_of_lt_of_le ?_ (m3.monotone hn), lt_of_lt_of_le ?_ (m4.monotone hn)⟩
  · show 0 < psiI p 1
    rw [o1]; positivity
  · show 0 < psiHe p 1
    rw [o2]; exact hi
  · show 0 < psiH p 1
    rw [o3]; positivity
  · show 0 < psiV p 1
    rw [o4]; positivity

/-- **C63, tungsten.** Without a vacancy the formula of bubbles gives a negative radius ... -/
theorem psiV_zero (p : Par) (hp : p.Ok) : psiV p 0 < 0 := by
  have ha := hp.a
  have e : 3 * p.a ^ 3 / (8 * π) = 3 / (8 * π) * p.a ^ 3 := by ring
  have h0 : psiV p 0 = √3 / 4 * p.a - cbrt (3 * p.a ^ 3 / (8 * π)) := by
    unfold psiV cbrt
    rw [Nat.cast_zero, mul_zero, zero_div, zero_rpow (by norm_num)]
    ring
  rw [h0, sub_neg]
  have s2 : √(3 : ℝ) ^ 2 = 3 := sq_sqrt (by norm_num)
  have s0 : 0 ≤ √(3 : ℝ) := sqrt_nonneg 3
  have s1 : √(3 : ℝ) < 1.7321 := by
    rw [Real.sqrt_lt' (by norm_num)]; norm_num
  have hpi : π < 3.15 := pi_lt_d2
  have hpos := pi_pos
  refine lt_of_pow_lt_pow_left₀ 3 (cbrt_pos (by positivity)).le ?_
  rw [cbrt_cube (by positivity), lt_div_iff₀ (by positivity)]
  have e3 : (√3 / 4 * p.a) ^ 3 * (8 * π) = 3 * √3 * π / 8 * p.a ^ 3 := by
    have : √(3 : ℝ) ^ 3 = 3 * √3 := by rw [pow_succ, s2]
    calc (√3 / 4 * p.a) ^ 3 * (8 * π) = √3 ^ 3 * π / 8 * p.a ^ 3 := by ring
      _ = _ := by rw [this]
  rw [e3]
  have a3 : 0 < p.a ^ 3 := by positivity
  have : 3 * √3 * π / 8 < 3 := by nlinarith
  exact mul_lt_mul_of_pos_right this a3

/-- The radius of a single composition. -/
theorem psiRadius_point (p : Par) (c : Psi.Comp) : psiRadius p (Psi.point c) =
    if Psi.onI c then psiI p c.i else if Psi.onHe c then psiHe p c.he else if Psi.onD c then psiH p c.d else if Psi.onT c then psiH p c.t else psiV p c.v := by
  unfold psiRadius
  rw [if_pos (show Psi.simplex (Psi.point c) from rfl)]
  rfl

/-- ... but no such cluster exists: every composition that is selected has a positive radius. -/
theorem psiRadius_pos {K : Type*} [Field K] [LinearOrder K] [IsStrictOrderedRing K] [FloorSemiring K] (p : Par) (hp : p.Ok) (o : Psi.Opts K) (c : Psi.Comp)
    (hc : Psi.Select true true o (Psi.point c)) : 0 < psiRadius p (Psi.point c) := by
  rw [Psi.select_point] at hc
  have key := fun n hn => psi_pos p hp n hn
  rw [psiRadius_point]
  split_ifs with h1 h2 h3 h4
  · exact (key _ h1.1).1
  · exact (key _ h2.1).2.1
  · exact (key _ h3.1).2.2.1
  · exact (key _ h4.1).2.2.1
  · refine (key _ ?_).2.2.2
    cases hc with
    | interstitial n h _ => exact absurd ⟨h, rfl, rfl, rfl, rfl⟩ h1
    | helium n h _ => exact absurd ⟨h, rfl, rfl, rfl, rfl⟩ h2
    | deuterium n h _ => exact absurd ⟨h, rfl, rfl, rfl, rfl⟩ h3
    | tritium n h _ => exact absurd ⟨h, rfl, rfl, rfl, rfl⟩ h4
    | vacancy n h _ => exact h
    | bubble he d t v _ h => exact h

/-- **C63, tungsten.** A group of interstitial clusters has the mean radius of its members. -/
theorem psiRadius_groupI (p : Par) (r : Psi.Reg) (h : Psi.onI r.lo) : psiRadius p r = mean (fun j => psiRadius p (Psi.point ⟨0, 0, 0, 0, j⟩)) r.lo.i r.hi.i := by
  have e : mean (fun j => psiRadius p (Psi.point ⟨0, 0, 0, 0, j⟩)) r.lo.i r.hi.i = mean (psiI p) r.lo.i r.hi.i := by
    refine mean_congr _ _ _ _ fun j hj _ => ?_
    rw [psiRadius_point, if_pos]
    exact ⟨lt_of_lt_of_le h.1 hj, rfl, rfl, rfl, rfl⟩
  rw [e]
  unfold psiRadius
  rw [if_pos h, if_pos h]
  split_ifs with hs
  · rw [hs]; exact (mean_single _ _).symm
  · rfl

/-- **C63, tungsten.** A group of clusters with vacancies has the mean radius of its members, which does not depend on their gas. -/
theorem psiRadius_groupV (p : Par) (r : Psi.Reg) (h : 0 < r.lo.v) (he d t : ℕ) : psiRadius p r = mean (fun j => psiRadius p (Psi.point ⟨he, d, t, j, 0⟩)) r.lo.v r.hi.v := by
  have n1 : ¬Psi.onI r.lo := fun c => by have := c.2.2.2.2; omega
  have n2 : ¬Psi.onHe r.lo := fun c => by have := c.2.2.2.1; omega
  have n3 : ¬Psi.onD r.lo := fun c => by have := c.2.2.2.1; omega
  have n4 : ¬Psi.onT r.lo := fun c => by have := c.2.2.2.1; omega
  have e : mean (fun j => psiRadius p (Psi.point ⟨he, d, t, j, 0⟩)) r.lo.v r.hi.v = mean (psiV p) r.lo.v r.hi.v := by
    refine mean_congr _ _ _ _ fun j hj _ => ?_
    rw [psiRadius_point, if_neg, if_neg, if_neg, if_neg]
    · rintro ⟨-, -, -, c, -⟩; simp only at c; omega
    · rintro ⟨-, -, -, c, -⟩; simp only at c; omega
    · rintro ⟨-, -, -, c, -⟩; simp only at c; omega
    · rintro ⟨c, -⟩; simp only at c; omega
  rw [e]
  unfold psiRadius
  rw [if_neg n1, if_neg n1, if_neg n2, if_neg n3, if_neg n4]
  split_ifs with hs
  · rw [hs]; exact (mean_single _ _).symm
  · rfl

/-- **C63, tungsten.** The radius of a group lies between those of its smallest and its largest member, so a group is not larger than the next one. -/
theorem psiRadius_between (p : Par) (hp : p.Ok) (r s : Psi.Reg) (hr : 0 < r.lo.v) (h1 : r.lo.v < r.hi.v) (h2 : s.lo.v < s.hi.v) (h : r.hi.v ≤ s.lo.v) :
    psiV p r.lo.v ≤ psiRadius p r ∧ psiRadius p r ≤ psiV p (r.hi.v - 1) ∧ psiRadius p r < psiRadius p s := by
  obtain ⟨-, -, -, m⟩ := psi_mono p hp
  have e : ∀ q : Psi.Reg, 0 < q.lo.v → psiRadius p q = mean (psiV p) q.lo.v q.hi.v := by
    intro q hq
    rw [psiRadius_groupV p q hq 1 0 0]
    refine mean_congr _ _ _ _ fun j hj _ => ?_
    rw [psiRadius_point, if_neg, if_neg, if_neg, if_neg]
    · rintro ⟨-, -, -, c, -⟩; simp only at c; omega
    · rintro ⟨-, -, -, c, -⟩; simp only at c; omega
    · rintro ⟨-, -, -, c, -⟩; simp only at c; omega
    · rintro ⟨c, -⟩; simp only at c; omega
  have b : ∀ q : Psi.Reg, 0 < q.lo.v → q.lo.v < q.hi.v → psiV p q.lo.v ≤ psiRadius p q ∧ psiRadius p q ≤ psiV p (q.hi.v - 1) := by
    intro q hq hq'
    rw [e q hq]
    exact mean_bounds _ _ _ hq' _ _ fun j a b => ⟨m.monotone a, m.monotone (by omega)⟩
  have br := b r hr h1
  have bs := b s (by omega) h2
  refine ⟨br.1, br.2, ?_⟩
  have : psiV p (r.hi.v - 1) < psiV p s.lo.v := m (by omega)
  linarith

/-- The diffusion factor of an interstitial cluster is positive. -/
theorem iD_pos (n : ℕ) (h : 0 < n) : 0 < (if n < iDiffusion.length then iDiffusion.getD n 0 else iLargeD n) := by
  split_ifs with hn
  · have : n < 6 := hn
    interval_cases n <;> simp [iDiffusion]
  · unfold iLargeD
    have : (0 : ℝ) < n := by exact_mod_cast h
    positivity

/-- The migration energy of an interstitial cluster. -/
theorem iM_pos (n : ℕ) (h : 0 < n) : 0 < (if n < iMigration.length then iMigration.getD n 0 else iLarge n) ∧ (if n < iMigration.length then iMigration.getD n 0 else iLarge n) ≤ 3 / 2 := by
  split_ifs with hn
  · have : n < 6 := hn
    interval_cases n <;> norm_num [iMigration]
  · unfold iLarge
    have : (1 : ℝ) ≤ n := by exact_mod_cast h
    have a : 1 ≤ min (n : ℝ) 15 := le_min this (by norm_num)
    have b : min (n : ℝ) 15 ≤ 15 := min_le_right _ _
    constructor <;> linarith

theorem he_pos (n : ℕ) (h : 0 < n) (h' : n < 8) : 0 < heDiffusion.getD n 0 ∧ 0 < heMigration.getD n 0 ∧ heMigration.getD n 0 ≤ 3 / 2 := by
  interval_cases n <;> norm_num [heDiffusion, heMigration]

theorem mean_iLargeD (lo hi : ℕ) (h : lo < hi) (h0 : 0 < lo) : 0 < mean iLargeD lo hi := by
  have := (mean_bounds iLargeD lo hi h (iLargeD (hi - 1)) (iLargeD lo) (fun j a b => ?_)).1
  · refine lt_of_lt_of_le ?_ this
    unfold iLargeD
    have : (0 : ℝ) < ((hi - 1 : ℕ) : ℝ) := by exact_mod_cast (by omega : 0 < hi - 1)
    positivity
  · unfold iLargeD
    have x1 : (0 : ℝ) < lo := by exact_mod_cast h0
    have x2 : (lo : ℝ) ≤ j := by exact_mod_cast a
    have x3 : (j : ℝ) ≤ ((hi - 1 : ℕ) : ℝ) := by exact_mod_cast (by omega : j ≤ hi - 1)
    constructor
    · exact div_le_div_of_nonneg_left (by norm_num) (by linarith) x3
    · exact div_le_div_of_nonneg_left (by norm_num) x1 x2

theorem mean_iLarge (lo hi : ℕ) (h : lo < hi) (h0 : 0 < lo) : 0 < mean iLarge lo hi ∧ mean iLarge lo hi ≤ 3 / 2 := by
  have := mean_bounds iLarge lo hi h (1 / 10) (3 / 2) (fun j a b => ?_)
  · exact ⟨by linarith [this.1], this.2⟩
  · unfold iLarge
    have x : (1 : ℝ) ≤ j := by exact_mod_cast (by omega : 1 ≤ j)
    have a : 1 ≤ min (j : ℝ) 15 := le_min x (by norm_num)
    have b : min (j : ℝ) 15 ≤ 15 := min_le_right _ _
    constructor <;> linarith

/-- **C63, tungsten.** Exactly these clusters move: interstitial clusters and groups of them, helium up to seven atoms, single hydrogen atoms and single vacancies.  The factor of the others is zero. -/
theorem psi_mobile (r : Psi.Reg) (h : r.lo.i < r.hi.i) :
    (0 < psiDiffusion r ↔ Psi.onI r.lo ∨ (Psi.simplex r ∧ ((Psi.onHe r.lo ∧ r.lo.he ≤ 7) ∨ (Psi.onD r.lo ∧ r.lo.d = 1) ∨ (Psi.onT r.lo ∧ r.lo.t = 1)
      ∨ (Psi.onV r.lo ∧ r.lo.v = 1)))) ∧ 0 ≤ psiDiffusion r := by
  have e8 : r.lo.he ≤ 7 ↔ r.lo.he < heDiffusion.length := by show _ ↔ _ < 8; omega
  rw [e8]
  unfold psiDiffusion
  by_cases hI : Psi.onI r.lo
  · have : 0 < if Psi.simplex r then (if r.lo.i < iDiffusion.length then iDiffusion.getD r.lo.i 0 else iLargeD r.lo.i) else mean iLargeD r.lo.i r.hi.i := by
      split_ifs with h1 h2
      · have := iD_pos r.lo.i hI.1; rwa [if_pos h2] at this
      · have := iD_pos r.lo.i hI.1; rwa [if_neg h2] at this
      · exact mean_iLargeD _ _ h hI.1
    simp only [hI, if_true, true_or, iff_true]
    exact ⟨this, this.le⟩
  · simp only [hI, if_false, false_or]
    by_cases hs : Psi.simplex r
    · simp only [hs, if_true, true_and]
      split_ifs with h1 h2 h3 h4
      · have := (he_pos _ h1.1.1 h1.2).1
        exact ⟨⟨fun _ => Or.inl h1, fun _ => this⟩, this.le⟩
      · exact ⟨⟨fun _ => Or.inr (Or.inl h2), fun _ => by norm_num⟩, by norm_num⟩
      · exact ⟨⟨fun _ => Or.inr (Or.inr (Or.inl h3)), fun _ => by norm_num⟩, by norm_num⟩
      · exact ⟨⟨fun _ => Or.inr (Or.inr (Or.inr h4)), fun _ => by norm_num⟩, by norm_num⟩
      · exact ⟨⟨fun c => absurd c (lt_irrefl _), fun c => by tauto⟩, le_rfl⟩
    · simp [hs]

/-- **C63, tungsten.** A migration energy is given exactly for the clusters that move; it is positive and at most 1.5 eV. -/
theorem psi_migration (r : Psi.Reg) (h : r.lo.i < r.hi.i) :
    (psiMigration r ≠ none ↔ 0 < psiDiffusion r) ∧ (∀ e, psiMigration r = some e → 0 < e ∧ e ≤ 3 / 2) := by
  rw [(psi_mobile r h).1]
  have e8 : r.lo.he ≤ 7 ↔ r.lo.he < heMigration.length := by show _ ↔ _ < 8; omega
  rw [e8]
  unfold psiMigration
  by_cases hI : Psi.onI r.lo
  · simp only [hI, if_true, true_or, iff_true]
    by_cases hs : Psi.simplex r
    · rw [if_pos hs]
      refine ⟨by simp, fun e he => ?_⟩
      rw [Option.some.injEq] at he
      rw [← he]
      exact iM_pos _ hI.1
    · rw [if_neg hs]
      refine ⟨by simp, fun e he => ?_⟩
      rw [Option.some.injEq] at he
      rw [← he]
      exact mean_iLarge _ _ h hI.1
  · simp only [hI, if_false, false_or]
    by_cases hs : Psi.simplex r
    · simp only [hs, if_true, true_and]
      have hv : Psi.onV r.lo ∧ r.lo.v = 1 ↔ Psi.onV r.lo ∧ r.lo.v ≤ 1 := by
        constructor
        · rintro ⟨a, b⟩; exact ⟨a, b.le⟩
        · rintro ⟨a, b⟩; exact ⟨a, by have := a.1; omega⟩
      rw [hv]
      split_ifs with h1 h2 h3 h4
      · refine ⟨by simp [h1], fun e he => ?_⟩
        rw [Option.some.injEq] at he; rw [← he]
        exact (he_pos _ h1.1.1 h1.2).2
      · refine ⟨by simp [h2], fun e he => ?_⟩
        rw [Option.some.injEq] at he; rw [← he]; norm_num
      · refine ⟨by simp [h3], fun e he => ?_⟩
        rw [Option.some.injEq] at he; rw [← he]; norm_num
      · refine ⟨by simp [h4], fun e he => ?_⟩
        rw [Option.some.injEq] at he; rw [← he]; norm_num
      · refine ⟨?_, fun e he => by simp at he⟩
        simp only [ne_eq, not_true, false_iff]
        tauto
    · simp [hs]

/-- **C63, tungsten.** A group of interstitial clusters of six or more has the mean factor and the mean energy of its members. -/
theorem psi_group_mobility (r : Psi.Reg) (hI : Psi.onI r.lo) (h6 : 6 ≤ r.lo.i) :
    psiDiffusion r = mean (fun j => psiDiffusion (Psi.point ⟨0, 0, 0, 0, j⟩)) r.lo.i r.hi.i
    ∧ psiMigration r = some (mean (fun j => (psiMigration (Psi.point ⟨0, 0, 0, 0, j⟩)).getD 0) r.lo.i r.hi.i) := by
  have on : ∀ j, r.lo.i ≤ j → Psi.onI (Psi.point ⟨0, 0, 0, 0, j⟩).lo := fun j hj => ⟨lt_of_lt_of_le hI.1 hj, rfl, rfl, rfl, rfl⟩
  constructor
  · have e : mean (fun j => psiDiffusion (Psi.point ⟨0, 0, 0, 0, j⟩)) r.lo.i r.hi.i = mean iLargeD r.lo.i r.hi.i := by
      refine mean_congr _ _ _ _ fun j hj _ => ?_
      unfold psiDiffusion
      rw [if_pos (show Psi.simplex (Psi.point ⟨0, 0, 0, 0, j⟩) from rfl), if_pos (on j hj), if_neg]
      · rfl
      · show ¬j < 6; omega
    rw [e]
    unfold psiDiffusion
    rw [if_pos hI, if_pos hI, if_neg (show ¬r.lo.i < iDiffusion.length from fun c => by have : r.lo.i < 6 := c; omega)]
    split_ifs with hs
    · rw [hs]; exact (mean_single _ _).symm
    · rfl
  · have e : mean (fun j => (psiMigration (Psi.point ⟨0, 0, 0, 0, j⟩)).getD 0) r.lo.i r.hi.i = mean iLarge r.lo.i r.hi.i := by
      refine mean_congr _ _ _ _ fun j hj _ => ?_
      unfold psiMigration
      rw [if_pos (show Psi.simplex (Psi.point ⟨0, 0, 0, 0, j⟩) from rfl), if_pos (on j hj), if_neg]
      · rfl
      · show ¬j < 6; omega
    rw [e]
    unfold psiMigration
    rw [if_pos hI, if_pos hI, if_neg (show ¬r.lo.i < iMigration.length from fun c => by have : r.lo.i < 6 := c; omega)]
    split_ifs with hs
    · rw [hs]; exact congrArg some (mean_single _ _).symm
    · rfl

/-- **C63, tungsten.** Not so below: a group of five and six interstitials has another factor, and an energy of 0.55 eV where its members have 0.05 and 0.6 eV. -/
theorem psi_group_small :
    psiDiffusion ⟨⟨0, 0, 0, 0, 5⟩, ⟨1, 1, 1, 1, 6 + 1⟩⟩ ≠ mean (fun j => psiDiffusion (Psi.point ⟨0, 0, 0, 0, j⟩)) 5 7
    ∧ psiMigration ⟨⟨0, 0, 0, 0, 5⟩, ⟨1, 1, 1, 1, 6 + 1⟩⟩ = some (55 / 100)
    ∧ psiMigration (Psi.point ⟨0, 0, 0, 0, 5⟩) = some (5 / 100) ∧ psiMigration (Psi.point ⟨0, 0, 0, 0, 6⟩) = some (60 / 100) := by
  have ns : ¬Psi.simplex ⟨⟨0, 0, 0, 0, 5⟩, ⟨1, 1, 1, 1, 6 + 1⟩⟩ := by decide
  have hI : Psi.onI ⟨0, 0, 0, 0, 5⟩ := by decide
  have d5 : psiDiffusion (Psi.point ⟨0, 0, 0, 0, 5⟩) = 10 * 10 ^ 9 := by
    unfold psiDiffusion
    rw [if_pos (by decide), if_pos (by decide), if_pos (by decide)]
    simp [Psi.point, iDiffusion]
  have d6 : psiDiffusion (Psi.point ⟨0, 0, 0, 0, 6⟩) = iLargeD 6 := by
    unfold psiDiffusion
    rw [if_pos (by decide), if_pos (by decide), if_neg (by decide)]
    rfl
  refine ⟨?_, ?_, ?_, ?_⟩
  · unfold mean
    rw [show Finset.Ico 5 7 = {5, 6} from rfl, Finset.sum_pair (by norm_num), d5, d6]
    unfold psiDiffusion
    rw [if_neg ns, if_pos hI]
    unfold mean
    show (∑ j ∈ Finset.Ico 5 7, iLargeD j) / _ ≠ _
    rw [show Finset.Ico 5 7 = {5, 6} from rfl, Finset.sum_pair (by norm_num)]
    norm_num [iLargeD]
  · unfold psiMigration
    rw [if_neg ns, if_pos hI]
    unfold mean
    show some ((∑ j ∈ Finset.Ico 5 7, iLarge j) / _) = _
    rw [show Finset.Ico 5 7 = {5, 6} from rfl, Finset.sum_pair (by norm_num)]
    norm_num [iLarge]
  · unfold psiMigration
    rw [if_pos (by decide), if_pos (by decide), if_pos (by decide)]
    simp [Psi.point, iMigration]
  · unfold psiMigration
    rw [if_pos (by decide), if_pos (by decide), if_neg (by decide)]
    norm_num [Psi.point, iLarge]

/-! ### Fuel and iron -/

/-- **C63, fuel.** Bubbles: a base radius and the radius of a ball of a quarter of a lattice cell for each vacancy less that of one; larger bubbles are larger. -/
theorem ne_volume (p : Par) (ha : 0 < p.a) :
    (∀ n : ℕ, ∃ r r₁ : ℝ, 0 < r₁ ∧ 4 / 3 * π * r ^ 3 = n * (p.a ^ 3 / 4) ∧ 4 / 3 * π * r₁ ^ 3 = p.a ^ 3 / 4 ∧ neV p n = p.a * √2 / 2 + (r - r₁))
    ∧ StrictMono (neV p) ∧ neV p 1 = p.a * √2 / 2 := by
  have hpi := pi_pos
  refine ⟨fun n => ⟨cbrt (3 * (1 / 4 * p.a * p.a * p.a) * n / (4 * π)), cbrt (3 * (1 / 4 * p.a * p.a * p.a) / (4 * π)), cbrt_pos (by positivity), ?_, ?_, ?_⟩, ?_, ?_⟩
  · rw [cbrt_cube (by positivity)]; field_simp
  · rw [cbrt_cube (by positivity)]; field_simp
  · unfold neV; ring
  · intro m n h
    have := cbrt_scale (c := 3 * (1 / 4 * p.a * p.a * p.a) / (4 * π)) (by positivity) h
    unfold neV
    rw [mul_div_right_comm _ (m : ℝ), mul_div_right_comm _ (n : ℝ)]
    linarith
  · unfold neV; simp

/-- **C63, fuel.** A group has the mean radius of its members with gas, whatever the gas, and every cluster that is selected has a positive radius. -/
theorem neRadius_spec (p : Par) (ha : 0 < p.a) (hi : 0 < p.imp) :
    (∀ (r : Select.R3) (g : ℕ), 0 < g → 0 < r.lo.g → 0 < r.lo.v → neRadius p r = mean (fun j => neRadius p (Select.point3 ⟨g, j, 0⟩)) r.lo.v r.hi.v)
    ∧ (∀ (o : Select.O3) (c : Select.C3), Select.neSelect o (Select.point3 c) = true → 0 < neRadius p (Select.point3 c)) := by
  have s2 : 0 < √(2 : ℝ) := Real.sqrt_pos.mpr (by norm_num)
  obtain ⟨-, hm, h1⟩ := ne_volume p ha
  have hpos : ∀ n, 0 < n → 0 < neV p n := fun n hn => by
    have : neV p 1 ≤ neV p n := hm.monotone hn
    have : 0 < neV p 1 := by rw [h1]; positivity
    linarith
  have hpt : ∀ g v : ℕ, 0 < g → 0 < v → neRadius p (Select.point3 ⟨g, v, 0⟩) = neV p v := by
    intro g v hg hv
    unfold neRadius
    rw [if_pos (show simplex3 (Select.point3 ⟨g, v, 0⟩) from rfl), if_neg, if_neg, if_neg]
    · rfl
    · simp only [Select.point3]; omega
    · simp only [Select.point3]; omega
    · simp only [Select.point3]; omega
  constructor
  · intro r g hg hrg hrv
    rw [mean_congr _ (neV p) _ _ fun j hj _ => hpt g j hg (by omega)]
    unfold neRadius
    split_ifs with h1 h2 h3 h4
    · omega
    · omega
    · omega
    · rw [h1]; exact (mean_single _ _).symm
    · rfl
  · intro o c hc
    rw [Select.neSelect_point] at hc
    cases hc with
    | interstitial n h =>
      unfold neRadius
      rw [if_pos (show simplex3 (Select.point3 ⟨0, 0, n⟩) from rfl), if_pos ⟨h, rfl, rfl⟩]
      positivity
    | xenon h =>
      unfold neRadius
      rw [if_pos (show simplex3 (Select.point3 ⟨1, 0, 0⟩) from rfl), if_neg (by decide), if_pos (by decide)]
      exact hi
    | vacancy n h _ _ =>
      unfold neRadius
      rw [if_pos (show simplex3 (Select.point3 ⟨0, n, 0⟩) from rfl), if_neg (by simp [Select.point3]), if_neg (by simp [Select.point3]), if_pos ⟨h, rfl, rfl⟩]
      positivity
    | bubble x v h1 h2 h3 h4 h5 => rw [hpt x v h1 h3]; exact hpos v h3

/-- **C63, iron.** Vacancy clusters and bubbles are balls of half a lattice cell for each vacancy; larger ones are larger. -/
theorem fe_volume (p : Par) (ha : 0 < p.a) :
    (∀ n : ℕ, 4 / 3 * π * feV p n ^ 3 = n * (p.a ^ 3 / 2)) ∧ StrictMono (feV p) ∧ ∀ n, 0 < n → 0 < feV p n := by
  have hpi := pi_pos
  have hm : StrictMono (feV p) := by
    intro m n h
    have := cbrt_scale (c := 3 / π) (by positivity) h
    unfold feV
    rw [mul_div_right_comm _ (m : ℝ), mul_div_right_comm _ (n : ℝ)]
    have := mul_lt_mul_of_pos_left this ha
    linarith
  refine ⟨fun n => ?_, hm, fun n hn => ?_⟩
  · unfold feV
    rw [mul_pow, mul_pow, cbrt_cube (by positivity)]
    field_simp
    ring
  · unfold feV
    have : (0 : ℝ) < n := by exact_mod_cast hn
    have := cbrt_pos (x := 3 * n / π) (by positivity)
    positivity

/-- **C63, iron.** A group has the mean radius of its members, whatever their gas, and every cluster that is selected has a positive radius; an interstitial has the radius of a vacancy. -/
theorem feRadius_spec (p : Par) (ha : 0 < p.a) (hi : 0 < p.imp) :
    (∀ (r : Select.R3) (g : ℕ), 0 < r.lo.v → feRadius p r = mean (fun j => feRadius p (Select.point3 ⟨g, j, 0⟩)) r.lo.v r.hi.v)
    ∧ (∀ (o : Select.O3) (c : Select.C3), Select.feSelect o (Select.point3 c) = true → 0 < feRadius p (Select.point3 c))
    ∧ feRadius p (Select.point3 ⟨0, 0, 1⟩) = feRadius p (Select.point3 ⟨0, 1, 0⟩) := by
  obtain ⟨-, hm, hpos⟩ := fe_volume p ha
  have hpt : ∀ g v : ℕ, 0 < v → feRadius p (Select.point3 ⟨g, v, 0⟩) = feV p v := by
    intro g v hv
    unfold feRadius
    rw [if_pos (show simplex3 (Select.point3 ⟨g, v, 0⟩) from rfl), if_neg, if_neg]
    · rfl
    · simp only [Select.point3]; omega
    · simp only [Select.point3]; omega
  have hI : ∀ n, 0 < n → feRadius p (Select.point3 ⟨0, 0, n⟩) = feV p 1 := by
    intro n hn
    unfold feRadius feV
    rw [if_pos (show simplex3 (Select.point3 ⟨0, 0, n⟩) from rfl), if_pos ⟨hn, rfl, rfl⟩, Nat.cast_one, mul_one]
  refine ⟨?_, ?_, ?_⟩
  · intro r g hrv
    rw [mean_congr _ (feV p) _ _ fun j hj _ => hpt g j (by omega)]
    unfold feRadius
    split_ifs with h1 h2 h3
    · omega
    · omega
    · rw [h1]; exact (mean_single _ _).symm
    · rfl
  · intro o c hc
    rw [Select.feSelect_point] at hc
    cases hc with
    | interstitial n h => rw [hI n h]; exact hpos 1 one_pos
    | helium n h _ _ =>
      unfold feRadius
      rw [if_pos (show simplex3 (Select.point3 ⟨n, 0, 0⟩) from rfl), if_neg (by simp [Select.point3]), if_pos ⟨h, rfl, rfl⟩]
      exact (psi_pos ⟨p.a, 1, p.imp, 1⟩ ⟨ha, one_pos, hi, one_pos⟩ n h).2.1
    | vacancy n h _ _ => rw [hpt 0 n h]; exact hpos n h
    | bubble x v h1 h2 h3 h4 => rw [hpt x v h3]; exact hpos v h3
  · rw [hI 1 one_pos, hpt 0 1 one_pos]

/-- **C63, iron.** Exactly these clusters move: a single interstitial, helium up to three atoms, up to four vacancies.  A migration energy is given for exactly these. -/
theorem fe_mobile (r : Select.R3) : (0 < feDiffusion r ↔ simplex3 r ∧ r.lo ∈ ([⟨0, 0, 1⟩, ⟨1, 0, 0⟩, ⟨2, 0, 0⟩, ⟨3, 0, 0⟩, ⟨0, 1, 0⟩, ⟨0, 2, 0⟩, ⟨0, 3, 0⟩, ⟨0, 4, 0⟩] : List Select.C3))
    ∧ (feMigration r ≠ none ↔ 0 < feDiffusion r) ∧ 0 ≤ feDiffusion r ∧ ∀ e, feMigration r = some e → 0 < e := by
  obtain ⟨⟨g, v, i⟩, hi⟩ := r
  unfold feDiffusion feMigration
  by_cases hs : simplex3 ⟨⟨g, v, i⟩, hi⟩
  · simp only [hs, if_true, true_and]
    split_ifs with h1 h2 h3 h4 h5 h6
    · obtain ⟨-, rfl, rfl⟩ := h1; subst h2; norm_num; simp
    · obtain ⟨-, rfl, rfl⟩ := h1; simp; omega
    · obtain ⟨h0, rfl, rfl⟩ := h3; interval_cases g <;> (norm_num; simp)
    · obtain ⟨h0, rfl, rfl⟩ := h3; simp; omega
    · obtain ⟨h0, rfl, rfl⟩ := h5; interval_cases v <;> (norm_num; simp)
    · obtain ⟨h0, rfl, rfl⟩ := h5; simp; omega
    · simp; omega
  · simp [hs]

/-! ### Zirconium -/

/-- Below ten defects the ball is smaller than the loop would be. -/
theorem zr_ball_lt (n : ℕ) (h : 2 ≤ n) : cbrt (5586 / 10 ^ 6 * n) < 163076 / 10 ^ 6 * √n := by
  have hn : (2 : ℝ) ≤ n := by exact_mod_cast h
  have s2 : √(n : ℝ) ^ 2 = n := sq_sqrt (by linarith)
  have s0 : 0 < √(n : ℝ) := sqrt_pos.mpr (by linarith)
  refine lt_of_pow_lt_pow_left₀ 6 (by positivity) ?_
  have e1 : cbrt (5586 / 10 ^ 6 * n) ^ 6 = (5586 / 10 ^ 6 * n) ^ 2 := by
    rw [show 6 = 3 * 2 from rfl, pow_mul, cbrt_cube (by positivity)]
  have e2 : (163076 / 10 ^ 6 * √(n : ℝ)) ^ 6 = (163076 / 10 ^ 6) ^ 6 * (n : ℝ) ^ 3 := by
    rw [mul_pow, show 6 = 2 * 3 from rfl, pow_mul √(n : ℝ), s2]
  rw [e1, e2, mul_pow]
  have : (n : ℝ) ^ 3 = n ^ 2 * n := by ring
  rw [this]
  have hp : 0 < (n : ℝ) ^ 2 := by positivity
  have : (5586 / 10 ^ 6 : ℝ) ^ 2 < (163076 / 10 ^ 6) ^ 6 * n := by
    have : (163076 / 10 ^ 6 : ℝ) ^ 6 * 2 ≤ (163076 / 10 ^ 6) ^ 6 * n := mul_le_mul_of_nonneg_left hn (by positivity)
    refine lt_of_lt_of_le ?_ this
    norm_num
  nlinarith

/-- **C63, zirconium.** Up to nine vacancies or interstitials are balls of a fixed volume each, larger clusters are loops of a fixed area each; larger clusters are larger, also across this change of shape. -/
theorem zr_volume : (∀ n : ℕ, n < 10 → 4 / 3 * π * zrTerm n n ^ 3 = n * (4 / 3 * π * (5586 / 10 ^ 6)))
    ∧ (∀ n : ℕ, 10 ≤ n → π * zrTerm n n ^ 2 = n * (π * (163076 / 10 ^ 6) ^ 2) ∧ 0 < zrTerm n n)
    ∧ StrictMono (fun n => zrTerm n n) ∧ zrTerm 0 0 = 0 := by
  have sm : ∀ m n : ℕ, m < n → cbrt (5586 / 10 ^ 6 * m) < cbrt (5586 / 10 ^ 6 * n) := fun m n h => cbrt_scale (by norm_num) h
  have lg : ∀ m n : ℕ, m < n → 163076 / 10 ^ 6 * √(m : ℝ) < 163076 / 10 ^ 6 * √(n : ℝ) := fun m n h => by
    have : √(m : ℝ) < √(n : ℝ) := Real.sqrt_lt_sqrt (by positivity) (by exact_mod_cast h)
    linarith
  refine ⟨fun n h => ?_, fun n h => ?_, ?_, ?_⟩
  · unfold zrTerm
    rw [if_pos h, cbrt_cube (by positivity)]
    ring
  · unfold zrTerm
    have : (0 : ℝ) < n := by exact_mod_cast (by omega : 0 < n)
    rw [if_neg (by omega), mul_pow, sq_sqrt (by positivity)]
    exact ⟨by ring, by positivity⟩
  · intro m n h
    show zrTerm m m < zrTerm n n
    unfold zrTerm
    split_ifs with h1 h2 h2
    · exact sm m n h
    · exact (sm m n h).trans (zr_ball_lt n (by omega))
    · omega
    · exact lg m n h
  · unfold zrTerm cbrt
    rw [if_pos (by norm_num), Nat.cast_zero, mul_zero, zero_rpow (by norm_num)]

/-- The radius of a cluster of vacancies or of interstitials. -/
theorem zrRadius_point (t n : ℕ) (h : 0 < n) : zrRadius t (Select.pointZ ⟨n, 0, 0⟩) = zrTerm n n ∧ zrRadius t (Select.pointZ ⟨0, 0, n⟩) = zrTerm n n
    ∧ zrRadius t (Select.pointZ ⟨0, n, 0⟩) = zrBasal t n n := by
  refine ⟨?_, ?_, ?_⟩
  · unfold zrRadius
    rw [if_pos ⟨h, rfl, rfl⟩]
    exact mean_single _ _
  · unfold zrRadius
    rw [if_neg (by simp [Select.pointZ]), if_neg (by simp [Select.pointZ]), if_pos ⟨h, rfl, rfl⟩]
    exact mean_single _ _
  · unfold zrRadius
    rw [if_neg (by simp [Select.pointZ]), if_pos ⟨h, rfl, rfl⟩]
    exact mean_single _ _

/-- **C63, zirconium.** A group of vacancy clusters on one side of the change of shape has the mean radius of its members; the same holds for interstitials. -/
theorem zrRadius_group_partial (t : ℕ) (r : Select.RZ) :
    (0 < r.lo.v → r.lo.b = 0 → r.lo.i = 0 → (10 ≤ r.lo.v ∨ r.hi.v ≤ 10) → zrRadius t r = mean (fun j => zrRadius t (Select.pointZ ⟨j, 0, 0⟩)) r.lo.v r.hi.v)
    ∧ (0 < r.lo.i → r.lo.b = 0 → r.lo.v = 0 → (10 ≤ r.lo.i ∨ r.hi.i ≤ 10) → zrRadius t r = mean (fun j => zrRadius t (Select.pointZ ⟨0, 0, j⟩)) r.lo.i r.hi.i)
    ∧ (0 < r.lo.b → r.lo.v = 0 → r.lo.i = 0 → (t ≤ r.lo.b ∨ r.hi.b ≤ t) → zrRadius t r = mean (fun j => zrRadius t (Select.pointZ ⟨0, j, 0⟩)) r.lo.b r.hi.b) := by
  refine ⟨fun h hb hi hc => ?_, fun h hb hv hc => ?_, fun h hv hi hc => ?_⟩
  · unfold zrRadius
    rw [if_pos ⟨h, hb, hi⟩]
    refine mean_congr _ _ _ _ fun j h1 h2 => ?_
    refine Eq.trans ?_ (zrRadius_point t j (by omega)).1.symm
    unfold zrTerm
    split_ifs <;> first | rfl | omega
  · unfold zrRadius
    rw [if_neg (by omega), if_neg (by omega), if_pos ⟨h, hv, hb⟩]
    refine mean_congr _ _ _ _ fun j h1 h2 => ?_
    refine Eq.trans ?_ (zrRadius_point t j (by omega)).2.1.symm
    unfold zrTerm
    split_ifs <;> first | rfl | omega
  · unfold zrRadius
    rw [if_neg (by omega), if_pos ⟨h, hv, hi⟩]
    refine mean_congr _ _ _ _ fun j h1 h2 => ?_
    refine Eq.trans ?_ (zrRadius_point t j (by omega)).2.2.symm
    unfold zrBasal
    split_ifs <;> first | rfl | omega

/-- **C63, zirconium.** A group across the change of shape is smaller than the mean of its members: the whole group takes the shape of its smallest. -/
theorem zrRadius_straddles (t : ℕ) (r : Select.RZ) (h : 0 < r.lo.v) (hb : r.lo.b = 0) (hi : r.lo.i = 0) (h1 : r.lo.v < 10) (h2 : 10 < r.hi.v) :
    zrRadius t r < mean (fun j => zrRadius t (Select.pointZ ⟨j, 0, 0⟩)) r.lo.v r.hi.v := by
  rw [mean_congr _ (fun j => zrTerm j j) _ _ fun j hj _ => (zrRadius_point t j (by omega)).1]
  unfold zrRadius
  rw [if_pos ⟨h, hb, hi⟩]
  refine mean_lt _ _ _ _ (by omega) (fun j a b => ?_) 10 (by omega) h2 ?_
  · unfold zrTerm
    rw [if_pos h1]
    split_ifs with hc
    · exact le_rfl
    · exact (zr_ball_lt j (by omega)).le
  · unfold zrTerm
    rw [if_pos h1, if_neg (by omega)]
    exact zr_ball_lt 10 (by omega)

/-- **C63, zirconium.** A basal pyramid has the radius of a ball with its surface; beyond the transition it is a loop; larger ones are larger, also across the transition. -/
theorem zr_basal (t : ℕ) : (∀ n : ℕ, n < t → 4 * π * (10 * zrBasal t n n) ^ 2
      = n * (√3 / 2 * (3232 / 1000) ^ 2 + 3232 / 1000 / 2 * √(3 * (3232 / 1000) ^ 2 + 4 * (517 / 100) ^ 2)))
    ∧ (∀ n : ℕ, t ≤ n → π * zrBasal t n n ^ 2 = n * (π * (169587 / 10 ^ 6) ^ 2))
    ∧ StrictMono (fun n => zrBasal t n n) ∧ 0 ≤ zrBasal t 0 0 := by
  have hpi := pi_pos
  have s3 : √(3 : ℝ) < 1.7321 := by rw [Real.sqrt_lt' (by norm_num)]; norm_num
  have s3' : 0 < √(3 : ℝ) := sqrt_pos.mpr (by norm_num)
  have sp : √(3 * (3232 / 1000) ^ 2 + 4 * (517 / 100) ^ 2 : ℝ) < 11.76 := by rw [Real.sqrt_lt' (by norm_num)]; norm_num
  have sp' : 0 < √(3 * (3232 / 1000) ^ 2 + 4 * (517 / 100) ^ 2 : ℝ) := sqrt_pos.mpr (by norm_num)
  set S : ℝ := √3 / 2 * (3232 / 1000) ^ 2 + 3232 / 1000 / 2 * √(3 * (3232 / 1000) ^ 2 + 4 * (517 / 100) ^ 2) with hS
  have S0 : 0 < S := by positivity
  have S1 : S < 30 := by rw [hS]; linarith
  have lo : ∀ n : ℕ, n < t → zrBasal t n n = √(S * n / (4 * π)) / 10 := by
    intro n h
    unfold zrBasal
    rw [if_pos h, hS]
    congr 2
    rw [show (3 : ℝ) * (3232 / 1000) * (3232 / 1000) + 4 * (517 / 100) * (517 / 100) = 3 * (3232 / 1000) ^ 2 + 4 * (517 / 100) ^ 2 by ring]
    ring
  have hi : ∀ n : ℕ, t ≤ n → zrBasal t n n = 169587 / 10 ^ 6 * √n := by
    intro n h
    unfold zrBasal
    rw [if_neg (by omega)]
  have cmp : ∀ n : ℕ, √(S * n / (4 * π)) / 10 ≤ 169587 / 10 ^ 6 * √n := by
    intro n
    have e : 169587 / 10 ^ 6 * √(n : ℝ) * 10 = √((169587 / 10 ^ 5) ^ 2 * n) := by
      rw [Real.sqrt_mul (by positivity), Real.sqrt_sq (by norm_num)]
      ring
    rw [div_le_iff₀ (by norm_num), e]
    refine Real.sqrt_le_sqrt ?_
    rw [div_le_iff₀ (by positivity)]
    have p3 : 3.14 < π := pi_gt_d2
    have : S ≤ (169587 / 10 ^ 5) ^ 2 * (4 * π) := by nlinarith
    have hn : (0 : ℝ) ≤ n := by positivity
    nlinarith
  refine ⟨fun n h => ?_, fun n h => ?_, ?_, ?_⟩
  · rw [lo n h, mul_div_cancel₀ _ (by norm_num), sq_sqrt (by positivity)]
    field_simp
  · rw [hi n h, mul_pow, sq_sqrt (by positivity)]
    ring
  · intro m n h
    show zrBasal t m m < zrBasal t n n
    have a : √(S * m / (4 * π)) / 10 < √(S * n / (4 * π)) / 10 := by
      have : (m : ℝ) < n := by exact_mod_cast h
      have : S * m / (4 * π) < S * n / (4 * π) := by
        rw [div_lt_div_iff_of_pos_right (by positivity)]
        exact mul_lt_mul_of_pos_left this S0
      have := Real.sqrt_lt_sqrt (by positivity) this
      linarith
    rcases lt_or_ge m t with h1 | h1
    · rcases lt_or_ge n t with h2 | h2
      · rw [lo m h1, lo n h2]; exact a
      · rw [lo m h1, hi n h2]; exact a.trans_le (cmp n)
    · rw [hi m h1, hi n (by omega)]
      have : √(m : ℝ) < √(n : ℝ) := Real.sqrt_lt_sqrt (by positivity) (by exact_mod_cast h)
      linarith
  · rcases lt_or_ge 0 t with h | h
    · rw [lo 0 h]; positivity
    · rw [hi 0 h]; positivity

/-- **C63, zirconium.** Every cluster that is selected has a positive radius. -/
theorem zrRadius_pos (t : ℕ) (o : Select.OZ) (c : Select.CZ) (h : Select.zrSelect o (Select.pointZ c) = true) : 0 < zrRadius t (Select.pointZ c) := by
  rw [Select.zrSelect_point] at h
  obtain ⟨-, -, m, z⟩ := zr_volume
  obtain ⟨-, -, mb, zb⟩ := zr_basal t
  have pz : ∀ n, 0 < n → 0 < zrTerm n n := fun n hn => z ▸ m hn
  have pb : ∀ n, 0 < n → 0 < zrBasal t n n := fun n hn => lt_of_le_of_lt zb (mb hn)
  cases h with
  | vacancy n h _ => rw [(zrRadius_point t n h).1]; exact pz n h
  | basal n h _ => rw [(zrRadius_point t n h).2.2]; exact pb n h
  | interstitial n h _ => rw [(zrRadius_point t n h).2.1]; exact pz n h

/-- **C63, zirconium.** A diffusion factor, which is one, belongs to groups that start at up to six vacancies or up to three interstitials; besides these only nine interstitials have a migration energy. -/
theorem zr_mobile (r : Select.RZ) :
    (0 < zrDiffusion r ↔ (r.lo.b = 0 ∧ r.lo.i = 0 ∧ 1 ≤ r.lo.v ∧ r.lo.v ≤ 6) ∨ (r.lo.b = 0 ∧ r.lo.v = 0 ∧ 1 ≤ r.lo.i ∧ r.lo.i ≤ 3))
    ∧ (0 < zrDiffusion r ↔ zrMigration r = some (-1)) ∧ (zrDiffusion r = 0 ∨ zrDiffusion r = 1)
    ∧ (zrMigration r ≠ none ∧ zrDiffusion r = 0 ↔ r.lo = ⟨0, 0, 9⟩) := by
  obtain ⟨⟨v, b, i⟩, hi⟩ := r
  unfold zrDiffusion zrMigration
  simp only [Select.CZ.mk.injEq]
  split_ifs with h1 h2 h3 h4
  · simp; omega
  · simp; omega
  · have e : (10 / 100 : ℝ) ≠ -1 := by norm_num
    simp [e]; omega
  · simp; omega
  · simp; omega

/-! ### Alloys -/

/-- **C63, alloys.** Loops are discs: area times the length of the Burgers vector is a quarter of a cell's face for each defect.  Voids and small clusters are balls of a quarter of a lattice cell for each defect.  Larger clusters are larger. -/
theorem alloy_volume (p : Par) (ha : 0 < p.a) (n : ℕ) :
    (∀ b : ℝ, 0 < b → π * alloyLoop p b n ^ 2 * b = n * (p.a ^ 2 / 4)) ∧ 4 / 3 * π * alloyBall p n ^ 3 = n * (p.a ^ 3 / 4) := by
  have hpi := pi_pos
  constructor
  · intro b hb
    unfold alloyLoop
    rw [sq_sqrt (by positivity)]
    field_simp
  · unfold alloyBall
    rw [cbrt_cube (by positivity)]
    field_simp

theorem alloy_mono (p : Par) (ha : 0 < p.a) (x : Axis) : StrictMono (alloyOne p x) ∧ ∀ n, 0 < n → 0 < alloyOne p x n := by
  have hpi := pi_pos
  have lp : ∀ b : ℝ, 0 < b → StrictMono (alloyLoop p b) := by
    intro b hb m n h
    unfold alloyLoop
    refine Real.sqrt_lt_sqrt (by positivity) ?_
    rw [div_lt_div_iff_of_pos_right hb]
    exact mul_lt_mul_of_pos_right (by exact_mod_cast h) (by positivity)
  have bl : StrictMono (alloyBall p) := fun m n h => cbrt_scale (by positivity) h
  have m : StrictMono (alloyOne p x) := by
    cases x
    · exact bl
    · exact bl
    · exact lp _ (by norm_num)
    · exact bl
    · exact lp _ (by norm_num)
    · exact lp _ (by norm_num)
  refine ⟨m, fun n hn => lt_of_le_of_lt ?_ (m hn)⟩
  have l0 : ∀ b, 0 ≤ alloyLoop p b 0 := fun b => Real.sqrt_nonneg _
  have b0 : 0 ≤ alloyBall p 0 := Real.rpow_nonneg (by simp) _
  cases x
  · exact b0
  · exact b0
  · exact l0 _
  · exact b0
  · exact l0 _
  · exact l0 _

/-- A pure cluster. -/
def pure : Axis → ℕ → Select.CA
  | .v, n => ⟨n, 0, 0, 0, 0, 0⟩
  | .void, n => ⟨0, n, 0, 0, 0, 0⟩
  | .faulted, n => ⟨0, 0, n, 0, 0, 0⟩
  | .i, n => ⟨0, 0, 0, n, 0, 0⟩
  | .perfect, n => ⟨0, 0, 0, 0, n, 0⟩
  | .frank, n => ⟨0, 0, 0, 0, 0, n⟩

/-- The axis is found. -/
theorem axis_pure (x : Axis) (n : ℕ) (h : 0 < n) : axis (pure x n) = some (x, n) := by
  cases x <;> simp [axis, pure, Select.nAxis, Select.one, h]

/-- **C63, alloys.** A group of clusters of one kind has the mean radius of its members; each has the radius of its kind. -/
theorem alloyRadius_group (p : Par) (r : Select.RA) (x : Axis) (n : ℕ) (hn : 0 < n) (h : r.lo = pure x n) :
    alloyRadius p r = mean (fun j => alloyRadius p (Select.pointA (pure x j))) n (upper r.hi x)
    ∧ alloyRadius p (Select.pointA (pure x n)) = alloyOne p x n := by
  have pt : ∀ j, 0 < j → alloyRadius p (Select.pointA (pure x j)) = alloyOne p x j := by
    intro j hj
    unfold alloyRadius
    rw [show (Select.pointA (pure x j)).lo = pure x j from rfl, axis_pure x j hj]
    have : upper (Select.pointA (pure x j)).hi x = j + 1 := by cases x <;> rfl
    show mean (alloyOne p x) j (upper (Select.pointA (pure x j)).hi x) = _
    rw [this, mean_single]
  refine ⟨?_, pt n hn⟩
  rw [mean_congr _ (alloyOne p x) _ _ fun j hj _ => pt j (by omega)]
  unfold alloyRadius
  rw [h, axis_pure x n hn]

/-- **C63, alloys.** Every cluster that is selected has a positive radius. -/
theorem alloyRadius_pos (p : Par) (ha : 0 < p.a) (o : Select.OA) (c : Select.CA) (h : Select.alloySelect o (Select.pointA c) = true) : 0 < alloyRadius p (Select.pointA c) := by
  rw [Select.alloySelect_point] at h
  have key : ∀ x n, 0 < n → 0 < alloyRadius p (Select.pointA (pure x n)) := by
    intro x n hn
    rw [(alloyRadius_group p (Select.pointA (pure x n)) x n hn rfl).2]
    exact (alloy_mono p ha x).2 n hn
  cases h with
  | vacancy n h _ => exact key .v n h
  | void n h _ => exact key .void n (by omega)
  | faulted n h _ => exact key .faulted n (by omega)
  | interstitial n h _ => exact key .i n h
  | perfect n h _ => exact key .perfect n (by omega)
  | frank n h _ => exact key .frank n (by omega)

/-- **C63, alloys.** Single defects and perfect loops of less than seventy move; all perfect loops have a migration energy. -/
theorem alloy_mobile (p : Par) (ha : 0 < p.a) (r : Select.RA) (x : Axis) (n : ℕ) (hn : 0 < n) (h : r.lo = pure x n) :
    (0 < alloyDiffusion p r ↔ x = .v ∨ x = .i ∨ (x = .perfect ∧ n < 70)) ∧ (alloyMigration r ≠ none ↔ x = .v ∨ x = .i ∨ x = .perfect)
    ∧ (alloyMigration r ≠ none ∧ alloyDiffusion p r = 0 ↔ x = .perfect ∧ 70 ≤ n) := by
  have s2 : 0 < √(2 : ℝ) := Real.sqrt_pos.mpr (by norm_num)
  have n0 : (0 : ℝ) < n := by exact_mod_cast hn
  have d : 0 < 96 * 10 ^ 11 * 1 * (p.a / √2) * (p.a / √2) * (n : ℝ)⁻¹ / 6 := by positivity
  unfold alloyDiffusion alloyMigration
  rw [h, axis_pure x n hn]
  cases x
  · dsimp only; generalize 96 * 10 ^ 11 * 1 * (p.a / √2) * (p.a / √2) * (n : ℝ)⁻¹ / 6 = D at d ⊢; simp [d, d.ne']
  · simp
  · simp
  · dsimp only; generalize 96 * 10 ^ 11 * 1 * (p.a / √2) * (p.a / √2) * (n : ℝ)⁻¹ / 6 = D at d ⊢; simp [d, d.ne']
  · by_cases h7 : n < 70
    · simp only [h7, if_true]
      generalize 96 * 10 ^ 11 * 1 * (p.a / √2) * (p.a / √2) * (n : ℝ)⁻¹ / 6 = D at d ⊢
      simp [d, d.ne', h7]
    · simp only [h7, if_false]
      simp
      omega
  · simp

/-- **C63, alloys.** A single vacancy jumps by the distance of neighbours, `a / √2`, at the frequency of the lattice: its factor is a sixth of the frequency times the square of the distance; clusters are slower in proportion to their size. -/
theorem alloyDiffusion_value (p : Par) (x : Axis) (n : ℕ) (hn : 0 < n) (hx : x = .v ∨ x = .i ∨ (x = .perfect ∧ n < 70)) :
    alloyDiffusion p (Select.pointA (pure x n)) * n = 96 * 10 ^ 11 * (p.a ^ 2 / 2) / 6 := by
  have n0 : (n : ℝ) ≠ 0 := by exact_mod_cast hn.ne'
  have e : p.a / √2 * (p.a / √2) = p.a ^ 2 / 2 := by
    rw [div_mul_div_comm, Real.mul_self_sqrt (by norm_num)]; ring
  have d : 96 * 10 ^ 11 * 1 * (p.a / √2) * (p.a / √2) * (n : ℝ)⁻¹ / 6 * n = 96 * 10 ^ 11 * (p.a ^ 2 / 2) / 6 := by
    rw [← e]; field_simp
  unfold alloyDiffusion
  rw [show (Select.pointA (pure x n)).lo = pure x n from rfl, axis_pure x n hn]
  rcases hx with rfl | rfl | ⟨rfl, h7⟩
  · exact d
  · exact d
  · simp only [h7, if_true]; exact d

/-- **C63, alloys.** The factor of a group is that of its smallest member, which is larger than the mean if there is another one. -/
theorem alloyDiffusion_group (p : Par) (ha : 0 < p.a) (r : Select.RA) (x : Axis) (n : ℕ) (hn : 0 < n) (h : r.lo = pure x n) (hx : x = .v ∨ x = .i ∨ (x = .perfect ∧ n < 70))
    (hu : n + 1 < upper r.hi x) :
    alloyDiffusion p r = alloyDiffusion p (Select.pointA (pure x n))
    ∧ mean (fun j => alloyDiffusion p (Select.pointA (pure x j))) n (upper r.hi x) < alloyDiffusion p r := by
  have e : alloyDiffusion p r = alloyDiffusion p (Select.pointA (pure x n)) := by
    unfold alloyDiffusion
    rw [h]; rfl
  refine ⟨e, ?_⟩
  have c : mean (fun _ => alloyDiffusion p r) n (upper r.hi x) = alloyDiffusion p r := by
    have := mean_bounds (fun _ => alloyDiffusion p r) n (upper r.hi x) (by omega) _ _ fun _ _ _ => ⟨le_rfl, le_rfl⟩
    exact le_antisymm this.2 this.1
  have lt : ∀ j, n < j → alloyDiffusion p (Select.pointA (pure x j)) < alloyDiffusion p r := by
    intro j hj
    have j0 : (0 : ℝ) < j := by exact_mod_cast (by omega : 0 < j)
    have n0 : (0 : ℝ) < n := by exact_mod_cast hn
    have jn : (n : ℝ) < j := by exact_mod_cast hj
    have a := alloyDiffusion_value p x n hn hx
    rw [← e] at a
    have pos : 0 < alloyDiffusion p r := ((alloy_mobile p ha r x n hn h).1).2 hx
    by_cases hx' : x = .v ∨ x = .i ∨ (x = .perfect ∧ j < 70)
    · have b := alloyDiffusion_value p x j (by omega) hx'
      rw [← a] at b
      have : alloyDiffusion p (Select.pointA (pure x j)) * j < alloyDiffusion p r * j := by
        rw [b]; exact mul_lt_mul_of_pos_left jn pos
      exact lt_of_mul_lt_mul_right this j0.le
    · have q := (alloy_mobile p ha (Select.pointA (pure x j)) x j (by omega) rfl).1
      have : ¬0 < alloyDiffusion p (Select.pointA (pure x j)) := fun z => hx' (q.1 z)
      linarith
  refine lt_of_lt_of_eq (mean_lt _ (fun _ => alloyDiffusion p r) n (upper r.hi x) (by omega) (fun j a b => ?_) (n + 1) (by omega) hu (lt _ (by omega))) c
  rcases Nat.eq_or_lt_of_le a with rfl | a
  · exact e.symm.le
  · exact (lt j a).le

/-! ### Values on the axes -/

/-- **C63, tungsten.** Interstitial clusters need a hundredth of an electron volt for each interstitial up to five; from five interstitials and from two helium atoms on, larger ones diffuse more slowly. -/
theorem psi_axis_mobility :
    (∀ n : ℕ, 0 < n → n ≤ 5 → psiMigration (Psi.point ⟨0, 0, 0, 0, n⟩) = some ((n : ℝ) / 100))
    ∧ (∀ n : ℕ, 0 < n → psiDiffusion (Psi.point ⟨0, 0, 0, 0, n + 1⟩) < psiDiffusion (Psi.point ⟨0, 0, 0, 0, n⟩) ∨ n = 5)
    ∧ (∀ n : ℕ, 2 ≤ n → n ≤ 7 → psiDiffusion (Psi.point ⟨n + 1, 0, 0, 0, 0⟩) < psiDiffusion (Psi.point ⟨n, 0, 0, 0, 0⟩)) := by
  have eI : ∀ n : ℕ, 0 < n → psiDiffusion (Psi.point ⟨0, 0, 0, 0, n⟩) = if n < 6 then iDiffusion.getD n 0 else iLargeD n := by
    intro n hn
    unfold psiDiffusion
    rw [if_pos (show Psi.simplex (Psi.point ⟨0, 0, 0, 0, n⟩) from rfl), if_pos (show Psi.onI (Psi.point ⟨0, 0, 0, 0, n⟩).lo from ⟨hn, rfl, rfl, rfl, rfl⟩)]
    rfl
  have eH : ∀ n : ℕ, 0 < n → psiDiffusion (Psi.point ⟨n, 0, 0, 0, 0⟩) = if n < 8 then heDiffusion.getD n 0 else 0 := by
    intro n hn
    have h1 : ¬Psi.onI (Psi.point ⟨n, 0, 0, 0, 0⟩).lo := fun c => absurd c.1 (Nat.lt_irrefl 0)
    have h2 : Psi.onHe (Psi.point ⟨n, 0, 0, 0, 0⟩).lo := ⟨hn, rfl, rfl, rfl, rfl⟩
    have h3 : ¬Psi.onD (Psi.point ⟨n, 0, 0, 0, 0⟩).lo := fun c => absurd c.1 (Nat.lt_irrefl 0)
    have h4 : ¬Psi.onT (Psi.point ⟨n, 0, 0, 0, 0⟩).lo := fun c => absurd c.1 (Nat.lt_irrefl 0)
    have h5 : ¬Psi.onV (Psi.point ⟨n, 0, 0, 0, 0⟩).lo := fun c => absurd c.1 (Nat.lt_irrefl 0)
    unfold psiDiffusion
    rw [if_pos (show Psi.simplex (Psi.point ⟨n, 0, 0, 0, 0⟩) from rfl), if_neg h1]
    by_cases h : n < 8
    · rw [if_pos ⟨h2, h⟩, if_pos h]; rfl
    · rw [if_neg (fun c => h c.2), if_neg (fun c => h3 c.1), if_neg (fun c => h4 c.1), if_neg (fun c => h5 c.1), if_neg h]
  refine ⟨fun n h0 h5 => ?_, fun n h0 => ?_, fun n h2 h7 => ?_⟩
  · unfold psiMigration
    rw [if_pos (show Psi.simplex (Psi.point ⟨0, 0, 0, 0, n⟩) from rfl), if_pos (show Psi.onI (Psi.point ⟨0, 0, 0, 0, n⟩).lo from ⟨h0, rfl, rfl, rfl, rfl⟩)]
    show some (if n < 6 then iMigration.getD n 0 else iLarge n) = _
    rw [if_pos (by omega)]
    interval_cases n <;> norm_num [iMigration]
  · by_cases h : n < 5
    · left
      rw [eI _ h0, eI _ (by omega), if_pos (by omega), if_pos (by omega)]
      interval_cases n <;> norm_num [iDiffusion]
    · rcases Nat.eq_or_lt_of_le (Nat.le_of_not_lt h) with h' | h'
      · exact Or.inr h'.symm
      · left
        rw [eI _ h0, eI _ (by omega), if_neg (by omega), if_neg (by omega)]
        unfold iLargeD
        have n0 : (0 : ℝ) < n := by exact_mod_cast h0
        exact div_lt_div_of_pos_left (by norm_num) n0 (by push_cast; linarith)
  · rw [eH _ (by omega), eH _ (by omega)]
    interval_cases n <;> norm_num [heDiffusion]

/-- **C63, tungsten.** The diffusion factors of one to seven helium atoms in units of 5e8 nm²/s, and the migration energies in hundredths of an electron volt; a larger cluster of helium alone does not move. -/
theorem psi_helium_values :
    (∀ n : ℕ, psiDiffusion (Psi.point ⟨n + 1, 0, 0, 0, 0⟩) = ([58, 64, 46, 34, 10, 2, 1] : List ℕ).getD n 0 * (5 * 10 ^ 8))
    ∧ (∀ n : ℕ, psiMigration (Psi.point ⟨n + 1, 0, 0, 0, 0⟩) = (([13, 20, 25, 20, 12, 30, 40] : List ℕ)[n]?).map fun e => (e : ℝ) / 100) := by
  refine ⟨fun n => ?_, fun n => ?_⟩
  · by_cases h : n < 7
    · interval_cases n <;> norm_num [psiDiffusion, Psi.simplex, Psi.point, Psi.onI, Psi.onHe, heDiffusion]
    · have h' : 7 ≤ n := by omega
      rw [List.getD_eq_getElem?_getD, List.getElem?_eq_none (by simpa using h')]
      norm_num [psiDiffusion, Psi.simplex, Psi.point, Psi.onI, Psi.onHe, Psi.onD, Psi.onT, Psi.onV, heDiffusion]
      omega
  · by_cases h : n < 7
    · interval_cases n <;> norm_num [psiMigration, Psi.simplex, Psi.point, Psi.onI, Psi.onHe, heMigration]
    · have h' : 7 ≤ n := by omega
      rw [List.getElem?_eq_none (by simpa using h')]
      norm_num [psiMigration, Psi.simplex, Psi.point, Psi.onI, Psi.onHe, Psi.onD, Psi.onT, Psi.onV, heMigration]
      omega

/-- **C63, tungsten.** At six interstitials the factor of the formula for large clusters exceeds the tabulated one of five. -/
theorem psi_six_faster : psiDiffusion (Psi.point ⟨0, 0, 0, 0, 5⟩) < psiDiffusion (Psi.point ⟨0, 0, 0, 0, 6⟩) := by
  unfold psiDiffusion
  rw [if_pos (show Psi.simplex (Psi.point ⟨0, 0, 0, 0, 5⟩) from rfl), if_pos (show Psi.simplex (Psi.point ⟨0, 0, 0, 0, 6⟩) from rfl), if_pos (show Psi.onI (Psi.point ⟨0, 0, 0, 0, 5⟩).lo by decide), if_pos (show Psi.onI (Psi.point ⟨0, 0, 0, 0, 6⟩).lo by decide)]
  norm_num [iDiffusion, iLargeD, Psi.point]

/-- **C63, fuel.** Interstitials have half the lattice parameter, xenon atoms the radius of the impurity, and vacancy clusters the radius of one vacancy however many there are. -/
theorem ne_axis_radius (p : Par) (n : ℕ) (h : 0 < n) :
    neRadius p (Select.point3 ⟨0, 0, n⟩) = p.a / 2 ∧ neRadius p (Select.point3 ⟨n, 0, 0⟩) = p.imp ∧ neRadius p (Select.point3 ⟨0, n, 0⟩) = neV p 1 := by
  have e : neV p 1 = p.a * √2 / 2 := by unfold neV; simp
  rw [e]
  have s : ∀ c, simplex3 (Select.point3 c) := fun _ => rfl
  refine ⟨?_, ?_, ?_⟩ <;> unfold neRadius <;> rw [if_pos (s _)] <;> simp [Select.point3, h, h.ne']

/-- **C63, iron.** The larger of two mobile clusters of one kind diffuses more slowly, and helium and vacancies of the same number diffuse alike. -/
theorem fe_axis_mobility (n : ℕ) (h : 0 < n) :
    (n ≤ 3 → feDiffusion (Select.point3 ⟨n + 1, 0, 0⟩) < feDiffusion (Select.point3 ⟨n, 0, 0⟩))
    ∧ (n ≤ 4 → feDiffusion (Select.point3 ⟨0, n + 1, 0⟩) < feDiffusion (Select.point3 ⟨0, n, 0⟩))
    ∧ (n ≤ 3 → feDiffusion (Select.point3 ⟨n, 0, 0⟩) = feDiffusion (Select.point3 ⟨0, n, 0⟩)) := by
  refine ⟨fun h3 => ?_, fun h4 => ?_, fun h3 => ?_⟩ <;> interval_cases n <;> norm_num [feDiffusion, simplex3, Select.point3]

/-- **C63, alloys.** The area of a loop times its Burgers vector, a half of the lattice parameter for perfect loops and a third for the others, and the volume of the rest, are the number of defects times their volume in units of the lattice parameter; with the migration energies of what can move. -/
theorem alloy_kinds (p : Par) (ha : 0 < p.a) (n : ℕ) (hn : 0 < n) :
    (π * alloyRadius p (Select.pointA (pure .perfect n)) ^ 2 * (1 / 2) = n * (p.a ^ 2 / 4))
    ∧ (∀ x ∈ [Axis.frank, .faulted], π * alloyRadius p (Select.pointA (pure x n)) ^ 2 * 0.333 = n * (p.a ^ 2 / 4))
    ∧ (∀ x ∈ [Axis.v, .void, .i], 4 / 3 * π * alloyRadius p (Select.pointA (pure x n)) ^ 3 = n * (p.a ^ 3 / 4))
    ∧ (∀ x, alloyMigration (Select.pointA (pure x n)) = if x = .v then some 1.3 else if x = .i ∨ x = .perfect then some 0.5 else none)
    ∧ (∀ c, Select.nAxis c ≠ 1 → alloyRadius p (Select.pointA c) = 0 ∧ alloyMigration (Select.pointA c) = none) := by
  have e : ∀ x, alloyRadius p (Select.pointA (pure x n)) = alloyOne p x n := fun x => (alloyRadius_group p (Select.pointA (pure x n)) x n hn rfl).2
  obtain ⟨l, b⟩ := alloy_volume p ha n
  refine ⟨?_, ?_, ?_, ?_, ?_⟩
  · rw [e]; exact l _ (by norm_num)
  · intro x hx
    rw [e]
    have := l (333 / 1000) (by norm_num)
    rw [show (0.333 : ℝ) = 333 / 1000 by norm_num]
    cases x <;> simp_all [alloyOne]
  · intro x hx
    rw [e]
    cases x <;> simp_all [alloyOne]
  · intro x
    unfold alloyMigration
    rw [show (Select.pointA (pure x n)).lo = pure x n from rfl, axis_pure x n hn]
    cases x <;> simp <;> norm_num
  · intro c hc
    have : axis (Select.pointA c).lo = none := by
      unfold axis
      rw [if_pos (show Select.nAxis (Select.pointA c).lo ≠ 1 from hc)]
    unfold alloyRadius alloyMigration
    rw [this]
    exact ⟨rfl, rfl⟩

/-! ### Cases -/

example : (⟨1, 1, 1, 1⟩ : Par).Ok := ⟨one_pos, one_pos, one_pos, one_pos⟩
example : 0 < psiRadius ⟨1, 1, 1, 1⟩ (Psi.point ⟨4, 1, 0, 2, 0⟩) :=
  psiRadius_pos _ ⟨one_pos, one_pos, one_pos, one_pos⟩ (⟨8, 1, 1, 10, 20, 6, 31, 4⟩ : Psi.Opts ℚ) _
    ((Psi.select_point _ _).2 (.bubble 4 1 0 2 (by decide) (by decide) (by decide) (by decide) (by decide) (by decide) (by decide) (by decide) (by decide) (by decide)))
example : 0 < psiDiffusion (Psi.point ⟨7, 0, 0, 0, 0⟩) := (psi_mobile _ (by decide)).1.2 (Or.inr ⟨rfl, Or.inl (by decide)⟩)
example : ¬0 < psiDiffusion (Psi.point ⟨8, 0, 0, 0, 0⟩) := fun h => by
  have := (psi_mobile _ (by decide)).1.1 h
  revert this; decide
example : 0 < feDiffusion (Select.point3 ⟨0, 4, 0⟩) := (fe_mobile _).1.2 ⟨rfl, by decide⟩
example (t : ℕ) : zrRadius t ⟨⟨8, 0, 0⟩, ⟨12, 1, 1⟩⟩ < mean (fun j => zrRadius t (Select.pointZ ⟨j, 0, 0⟩)) 8 12 :=
  zrRadius_straddles t _ (by decide) rfl rfl (by decide) (by decide)
example (p : Par) (ha : 0 < p.a) :
    mean (fun j => alloyDiffusion p (Select.pointA (pure .perfect j))) 68 (upper ⟨1, 1, 1, 1, 72, 1⟩ .perfect) < alloyDiffusion p ⟨pure .perfect 68, ⟨1, 1, 1, 1, 72, 1⟩⟩ :=
  (alloyDiffusion_group p ha ⟨pure .perfect 68, ⟨1, 1, 1, 1, 72, 1⟩⟩ .perfect 68 (by norm_num) rfl (Or.inr (Or.inr ⟨rfl, by norm_num⟩)) (by norm_num [upper])).2

end Xolotl.Network.Radius
