import Verif.Network.Binding
import Verif.Network.RatesProps
import Verif.Network.RadiusProps
import Verif.Network.DispatchProps
import Mathlib.Analysis.Convex.Deriv
import Mathlib.Analysis.Convex.SpecificFunctions.Pow
import Mathlib.Analysis.SpecialFunctions.Log.Deriv
import Mathlib.Analysis.SpecialFunctions.Sqrt
import Mathlib.Analysis.Complex.ExponentialBounds

/-!
# C77: binding energies of iron and zirconium, sinks of iron, capture radii of zirconium
-/

set_option linter.unusedSectionVars false

namespace Xolotl.Network.Bind

open Real Xolotl.Network Xolotl.Network.Dispatch Xolotl.Network.Rates

/-! ### Increments of concave functions -/

/-- The increments of a concave function decrease. -/
theorem inc_anti {f : ℝ → ℝ} {a : ℝ} (hc : ConcaveOn ℝ (Set.Ici a) f) {n m : ℝ} (hn : a + 1 ≤ n) (h : n ≤ m) : f m - f (m - 1) ≤ f n - f (n - 1) := by
  have key : ∀ x : ℝ, n - 1 ≤ x → x ≤ m → ((m - x) / (m - (n - 1))) * f (n - 1) + ((x - (n - 1)) / (m - (n - 1))) * f m ≤ f x := by
    intro x h1 h2
    have hpos : 0 < m - (n - 1) := by linarith
    have := hc.2 (show n - 1 ∈ Set.Ici a from by simp; linarith) (show m ∈ Set.Ici a from by simp; linarith)
      (div_nonneg (sub_nonneg.mpr h2) hpos.le) (div_nonneg (sub_nonneg.mpr h1) hpos.le) (by field_simp; ring)
    simp only [smul_eq_mul] at this
    have e : (m - x) / (m - (n - 1)) * (n - 1) + (x - (n - 1)) / (m - (n - 1)) * m = x := by field_simp; ring
    rwa [e] at this
  have hpos : m - (n - 1) ≠ 0 := by intro hz; linarith
  have a := key n (by linarith) (by linarith)
  have b := key (m - 1) (by linarith) (by linarith)
  have s : (m - n) / (m - (n - 1)) + (m - (m - 1)) / (m - (n - 1)) = 1 := by field_simp; ring
  have s' : (n - (n - 1)) / (m - (n - 1)) + (m - 1 - (n - 1)) / (m - (n - 1)) = 1 := by field_simp; ring
  linear_combination a + b - f (n - 1) * s - f m * s'

theorem pow_inc {p : ℝ} (h0 : 0 ≤ p) (h1 : p ≤ 1) {n m : ℝ} (hn : 1 ≤ n) (h : n ≤ m) : m ^ p - (m - 1) ^ p ≤ n ^ p - (n - 1) ^ p :=
  inc_anti (Real.concaveOn_rpow h0 h1) (by linarith) h

theorem pow_inc_pos {p : ℝ} (h0 : 0 < p) {n : ℝ} (hn : 1 ≤ n) : 0 < n ^ p - (n - 1) ^ p :=
  sub_pos.mpr (Real.rpow_lt_rpow (by linarith) (by linarith) h0)

/-- Energy of a loop of `n` vacancies in the logarithmic fits. -/
noncomputable def loopE (k n : ℝ) : ℝ := √n * log (k * √n)

theorem loop_deriv {k x : ℝ} (hk : 0 < k) (hx : 0 < x) : HasDerivAt (loopE k) ((log (k * √x) + 1) / (2 * √x)) x := by
  have hs : 0 < √x := sqrt_pos.mpr hx
  have h1 := Real.hasDerivAt_sqrt hx.ne'
  have h2 := (h1.const_mul k).log (by positivity)
  have h3 := h1.mul h2
  refine h3.congr_deriv ?_
  field_simp

theorem loop_concave {k : ℝ} (hk : 1 ≤ k) : ConcaveOn ℝ (Set.Ici 1) (loopE k) := by
  have hd : ∀ x ∈ Set.Ici (1 : ℝ), HasDerivAt (loopE k) ((log (k * √x) + 1) / (2 * √x)) x := fun x hx => loop_deriv (by linarith) (by have : (1 : ℝ) ≤ x := hx; linarith)
  refine AntitoneOn.concaveOn_of_deriv (convex_Ici 1) (fun x hx => (hd x hx).continuousAt.continuousWithinAt) (fun x hx => ((hd x (interior_subset hx)).differentiableAt).differentiableWithinAt) ?_
  intro x hx y hy hxy
  rw [(hd x (interior_subset hx)).deriv, (hd y (interior_subset hy)).deriv]
  have h1 : (1 : ℝ) ≤ x := interior_subset hx
  have s1 : 1 ≤ √x := one_le_sqrt.mpr h1
  have s2 : √x ≤ √y := sqrt_le_sqrt hxy
  set s := √x
  set t := √y
  have hl : 0 ≤ log (k * s) := log_nonneg (by nlinarith)
  have e : log (k * t) = log (k * s) + log (t / s) := by
    rw [← log_mul (by positivity) (by have : 0 < t := by linarith
                                      positivity)]
    congr 1
    field_simp
  have hq : log (t / s) ≤ t / s - 1 := log_le_sub_one_of_pos (by have : 0 < t := by linarith
                                                                 positivity)
  have ht : 0 < t := by linarith
  have hs : 0 < s := by linarith
  rw [div_le_div_iff₀ (by positivity) (by positivity), e]
  have h5 : log (t / s) * s ≤ t - s := by
    have := mul_le_mul_of_nonneg_right hq hs.le
    have e2 : (t / s - 1) * s = t - s := by field_simp
    linarith
  nlinarith [mul_nonneg hl (sub_nonneg.mpr s2)]

theorem loop_inc {k n m : ℝ} (hk : 1 ≤ k) (hn : 2 ≤ n) (h : n ≤ m) : loopE k m - loopE k (m - 1) ≤ loopE k n - loopE k (n - 1) := inc_anti (loop_concave hk) (by linarith) h

theorem loop_inc_le {k n : ℝ} (hk : 1 ≤ k) (hn : 1 ≤ n) : loopE k (n + 1) - loopE k n ≤ (log (k * √n) + 1) / (2 * √n) := by
  have := (loop_concave hk).slope_le_of_hasDerivAt (x := n) (y := n + 1) hn (by simp; linarith) (by linarith) (loop_deriv (by linarith) (by linarith))
  rwa [slope_def_field, add_sub_cancel_left, div_one] at this

theorem le_loop_inc {k n : ℝ} (hk : 1 ≤ k) (hn : 1 ≤ n) : (log (k * √(n + 1)) + 1) / (2 * √(n + 1)) ≤ loopE k (n + 1) - loopE k n := by
  have := (loop_concave hk).le_slope_of_hasDerivAt (x := n) (y := n + 1) hn (by simp; linarith) (by linarith) (loop_deriv (by linarith) (by linarith))
  rwa [slope_def_field, add_sub_cancel_left, div_one] at this

theorem loop_inc_pos {k n : ℝ} (hk : 1 ≤ k) (hn : 2 ≤ n) : 0 < loopE k n - loopE k (n - 1) := by
  have h1 : 1 ≤ √(n - 1) := one_le_sqrt.mpr (by linarith)
  have h2 : √(n - 1) < √n := sqrt_lt_sqrt (by linarith) (by linarith)
  unfold loopE
  have h3 : 0 ≤ log (k * √(n - 1)) := log_nonneg (by nlinarith)
  have h4 : log (k * √(n - 1)) < log (k * √n) := log_lt_log (by positivity) (by nlinarith)
  nlinarith

/-! ### Numbers -/

theorem rpow_le_of {x b : ℝ} (p q : ℕ) (hq : q ≠ 0) (hx : 0 ≤ x) (hb : 0 ≤ b) (h : x ^ p ≤ b ^ q) : x ^ ((p : ℝ) / q) ≤ b := by
  have e1 : x ^ ((p : ℝ) / q) = (x ^ p) ^ ((1 : ℝ) / q) := by
    rw [← Real.rpow_natCast x p, ← Real.rpow_mul hx]; congr 1; ring
  have e2 : b = (b ^ q) ^ ((1 : ℝ) / q) := by
    rw [← Real.rpow_natCast b q, ← Real.rpow_mul hb]; field_simp; simp
  rw [e1, e2]
  exact Real.rpow_le_rpow (by positivity) h (by positivity)

theorem le_rpow_of {x b : ℝ} (p q : ℕ) (hq : q ≠ 0) (hx : 0 ≤ x) (hb : 0 ≤ b) (h : b ^ q ≤ x ^ p) : b ≤ x ^ ((p : ℝ) / q) := by
  have e1 : x ^ ((p : ℝ) / q) = (x ^ p) ^ ((1 : ℝ) / q) := by
    rw [← Real.rpow_natCast x p, ← Real.rpow_mul hx]; congr 1; ring
  have e2 : b = (b ^ q) ^ ((1 : ℝ) / q) := by
    rw [← Real.rpow_natCast b q, ← Real.rpow_mul hb]; field_simp; simp
  rw [e1, e2]
  exact Real.rpow_le_rpow (by positivity) h (by positivity)

theorem log_le_of {x : ℝ} (a b : ℕ) (hb : 0 < b) (hx : 0 < x) (h : x ^ b ≤ 2.7182818283 ^ a) : log x ≤ (a : ℝ) / b := by
  have h1 : x ^ b ≤ exp a := by
    refine h.trans ?_
    rw [← Real.exp_one_rpow, Real.rpow_natCast]
    exact pow_le_pow_left₀ (by norm_num) Real.exp_one_gt_d9.le _
  have h2 := (log_le_iff_le_exp (by positivity)).mpr h1
  rw [log_pow] at h2
  have : (0 : ℝ) < b := by exact_mod_cast hb
  rw [le_div_iff₀ this]
  linarith

theorem le_log_of {x : ℝ} (a b : ℕ) (hb : 0 < b) (hx : 0 < x) (h : 2.7182818286 ^ a ≤ x ^ b) : (a : ℝ) / b ≤ log x := by
  have h1 : exp a ≤ x ^ b := by
    refine le_trans ?_ h
    rw [← Real.exp_one_rpow, Real.rpow_natCast]
    exact pow_le_pow_left₀ (exp_pos 1).le Real.exp_one_lt_d9.le _
  have h2 := (le_log_iff_exp_le (by positivity)).mpr h1
  rw [log_pow] at h2
  have : (0 : ℝ) < b := by exact_mod_cast hb
  rw [div_le_iff₀ this]
  linarith

/-! ### Zirconium -/

theorem zrV_small {n : ℝ} (h : n < 18) : zrV n = 2.03 - 1.9 * (n ^ (0.84 : ℝ) - (n - 1) ^ (0.84 : ℝ)) := if_pos h
theorem zrV_mid {n : ℝ} (h : 18 ≤ n) (h' : n < 66) : zrV n = 2.03 - 3.4 * (n ^ (0.70 : ℝ) - (n - 1) ^ (0.70 : ℝ)) := by
  rw [zrV, if_neg (by linarith), if_pos h']
theorem zrV_large {n : ℝ} (h : 66 ≤ n) (h' : n < 925) : zrV n = 2.03 - 0.11 - 1.741 * (loopE 4.588 n - loopE 4.588 (n - 1)) := by
  rw [zrV, if_neg (by linarith), if_neg (by linarith), if_pos h']
  simp only [loopE]
  ring
theorem zrV_huge {n : ℝ} (h : 925 ≤ n) : zrV n = 2.03 - 2.918630 * (loopE (1.69 / 0.23) n - loopE (1.69 / 0.23) (n - 1)) := by
  rw [zrV, if_neg (by linarith), if_neg (by linarith), if_neg (by linarith)]
  have e : ∀ x : ℝ, 1.69 * x / 0.23 = 1.69 / 0.23 * x := fun x => by ring
  simp only [loopE, e]
  ring

/-- The first two fits meet at 18. -/
theorem fit_18 : 3.4 * ((18 : ℝ) ^ (0.70 : ℝ) - (18 - 1) ^ (0.70 : ℝ)) ≤ 1.9 * ((18 : ℝ) ^ (0.84 : ℝ) - (18 - 1) ^ (0.84 : ℝ)) := by
  have e1 : (0.84 : ℝ) = ((21 : ℕ) : ℝ) / ((25 : ℕ) : ℝ) := by norm_num
  have e2 : (0.70 : ℝ) = ((7 : ℕ) : ℝ) / ((10 : ℕ) : ℝ) := by norm_num
  have h1 : (11.33519 : ℝ) ≤ 18 ^ (0.84 : ℝ) := by rw [e1]; exact le_rpow_of 21 25 (by norm_num) (by norm_num) (by norm_num) (by norm_num)
  have h2 : (17 : ℝ) ^ (0.84 : ℝ) ≤ 10.80382 := by rw [e1]; exact rpow_le_of 21 25 (by norm_num) (by norm_num) (by norm_num) (by norm_num)
  have h3 : (18 : ℝ) ^ (0.70 : ℝ) ≤ 7.56295 := by rw [e2]; exact rpow_le_of 7 10 (by norm_num) (by norm_num) (by norm_num) (by norm_num)
  have h4 : (7.26631 : ℝ) ≤ 17 ^ (0.70 : ℝ) := by rw [e2]; exact le_rpow_of 7 10 (by norm_num) (by norm_num) (by norm_num) (by norm_num)
  rw [show (18 : ℝ) - 1 = 17 by norm_num]
  linarith

theorem fit_66 : 0.11 + 1.741 * (loopE 4.588 66 - loopE 4.588 (66 - 1)) ≤ 3.4 * ((66 : ℝ) ^ (0.70 : ℝ) - (66 - 1) ^ (0.70 : ℝ)) := by
  have e2 : (0.70 : ℝ) = ((7 : ℕ) : ℝ) / ((10 : ℕ) : ℝ) := by norm_num
  have h3 : (18.7793 : ℝ) ≤ (66 : ℝ) ^ (0.70 : ℝ) := by rw [e2]; exact le_rpow_of 7 10 (by norm_num) (by norm_num) (by norm_num) (by norm_num)
  have h4 : (65 : ℝ) ^ (0.70 : ℝ) ≤ 18.5798 := by rw [e2]; exact rpow_le_of 7 10 (by norm_num) (by norm_num) (by norm_num) (by norm_num)
  have h5 := loop_inc_le (k := 4.588) (n := 65) (by norm_num) (by norm_num)
  have s1 : √65 ≤ 8.0623 := (sqrt_le_left (by norm_num)).mpr (by norm_num)
  have s2 : 8 ≤ √65 := le_sqrt_of_sq_le (by norm_num)
  have l1 : log (4.588 * √65) ≤ 29 / 8 := by
    refine (log_le_log (by positivity) (show 4.588 * √65 ≤ 37 by linarith)).trans ?_
    have := log_le_of (x := 37) 29 8 (by norm_num) (by norm_num) (by norm_num)
    exact_mod_cast this
  have h6 : (log (4.588 * √65) + 1) / (2 * √65) ≤ (29 / 8 + 1) / 16 := div_le_div₀ (by norm_num) (by linarith) (by norm_num) (by linarith)
  rw [show (66 : ℝ) - 1 = 65 by norm_num]
  rw [show (65 : ℝ) + 1 = 66 by norm_num] at h5
  linarith

/-- **C77, zirconium** A vacancy is bound the more strongly the larger the cluster of fewer than 925, at least by 0.13. -/
theorem zrV_mono {n m : ℝ} (hn : 1 ≤ n) (h : n ≤ m) (hm : m < 925) : zrV n ≤ zrV m := by
  have a : ∀ {n m : ℝ}, 1 ≤ n → n ≤ m → 2.03 - 1.9 * (n ^ (0.84 : ℝ) - (n - 1) ^ (0.84 : ℝ)) ≤ 2.03 - 1.9 * (m ^ (0.84 : ℝ) - (m - 1) ^ (0.84 : ℝ)) := fun h1 h2 => by
    have := pow_inc (p := 0.84) (by norm_num) (by norm_num) h1 h2; linarith
  have b : ∀ {n m : ℝ}, 1 ≤ n → n ≤ m → 2.03 - 3.4 * (n ^ (0.70 : ℝ) - (n - 1) ^ (0.70 : ℝ)) ≤ 2.03 - 3.4 * (m ^ (0.70 : ℝ) - (m - 1) ^ (0.70 : ℝ)) := fun h1 h2 => by
    have := pow_inc (p := 0.70) (by norm_num) (by norm_num) h1 h2; linarith
  have c : ∀ {n m : ℝ}, 2 ≤ n → n ≤ m → 2.03 - 0.11 - 1.741 * (loopE 4.588 n - loopE 4.588 (n - 1)) ≤ 2.03 - 0.11 - 1.741 * (loopE 4.588 m - loopE 4.588 (m - 1)) := fun h1 h2 => by
    have := loop_inc (k := 4.588) (by norm_num) h1 h2; linarith
  have f1 := fit_18
  have f2 := fit_66
  rcases lt_or_ge m 18 with m1 | m1
  · rw [zrV_small m1, zrV_small (h.trans_lt m1)]; exact a hn h
  have a1 : n < 18 → zrV n ≤ 2.03 - 3.4 * ((18 : ℝ) ^ (0.70 : ℝ) - (18 - 1) ^ (0.70 : ℝ)) := fun n1 => by
    rw [zrV_small n1]
    have := a hn n1.le
    linarith
  rcases lt_or_ge m 66 with m2 | m2
  · rw [zrV_mid m1 m2]
    rcases lt_or_ge n 18 with n1 | n1
    · exact (a1 n1).trans (b (by norm_num) m1)
    · rw [zrV_mid n1 (h.trans_lt m2)]; exact b hn h
  rw [zrV_large m2 hm]
  rcases lt_or_ge n 66 with n2 | n2
  · have b1 : zrV n ≤ 2.03 - 3.4 * ((66 : ℝ) ^ (0.70 : ℝ) - (66 - 1) ^ (0.70 : ℝ)) := by
      rcases lt_or_ge n 18 with n1 | n1
      · exact (a1 n1).trans (b (by norm_num) (by norm_num))
      · rw [zrV_mid n1 n2]; exact b hn n2.le
    have := c (n := 66) (by norm_num) m2
    linarith
  · rw [zrV_large n2 (h.trans_lt hm)]; exact c (by linarith) h

theorem zrV_mono' {n m : ℝ} (hn : 925 ≤ n) (h : n ≤ m) : zrV n ≤ zrV m := by
  rw [zrV_huge hn, zrV_huge (hn.trans h)]
  have := loop_inc (k := 1.69 / 0.23) (by norm_num) (show (2 : ℝ) ≤ n by linarith) h
  linarith

/-- **C77, zirconium** At 925 the energy falls. -/
theorem zrV_jump : zrV 925 + 0.02 < zrV 924 := by
  rw [zrV_huge le_rfl, zrV_large (by norm_num) (by norm_num), show (925 : ℝ) - 1 = 924 by norm_num, show (924 : ℝ) - 1 = 923 by norm_num]
  have h1 := le_loop_inc (k := 1.69 / 0.23) (n := 924) (by norm_num) (by norm_num)
  have h2 := loop_inc_le (k := 4.588) (n := 923) (by norm_num) (by norm_num)
  rw [show (924 : ℝ) + 1 = 925 by norm_num] at h1
  rw [show (923 : ℝ) + 1 = 924 by norm_num] at h2
  have s1 : √925 ≤ 30.414 := (sqrt_le_left (by norm_num)).mpr (by norm_num)
  have s2 : 30.413 ≤ √925 := le_sqrt_of_sq_le (by norm_num)
  have s3 : √923 ≤ 30.381 := (sqrt_le_left (by norm_num)).mpr (by norm_num)
  have s4 : 30.38 ≤ √923 := le_sqrt_of_sq_le (by norm_num)
  have l1 : (27 : ℝ) / 5 ≤ log (1.69 / 0.23 * √925) := by
    refine le_trans ?_ (log_le_log (by norm_num) (show (223 : ℝ) ≤ 1.69 / 0.23 * √925 by linarith))
    have := le_log_of (x := 223) 27 5 (by norm_num) (by norm_num) (by norm_num)
    exact_mod_cast this
  have l2 : log (4.588 * √923) ≤ 99 / 20 := by
    refine (log_le_log (by positivity) (show 4.588 * √923 ≤ 139.4 by linarith)).trans ?_
    have := log_le_of (x := 139.4) 99 20 (by norm_num) (by norm_num) (by norm_num)
    exact_mod_cast this
  have d1 : (27 / 5 + 1) / (2 * 30.414) ≤ (log (1.69 / 0.23 * √925) + 1) / (2 * √925) := div_le_div₀ (by linarith) (by linarith) (by linarith) (by linarith)
  have d2 : (log (4.588 * √923) + 1) / (2 * √923) ≤ (99 / 20 + 1) / (2 * 30.38) := div_le_div₀ (by norm_num) (by linarith) (by norm_num) (by linarith)
  have d3 : (0.105 : ℝ) ≤ (27 / 5 + 1) / (2 * 30.414) := by norm_num
  have d4 : ((99 : ℝ) / 20 + 1) / (2 * 30.38) ≤ 0.098 := by norm_num
  linarith

theorem zero_pow' {p : ℝ} (hp : p ≠ 0) : (1 - 1 : ℝ) ^ p = 0 := by rw [sub_self, Real.zero_rpow hp]

/-- **C77, zirconium** Bounds of the energy of a vacancy: the lower limit of 0.1 never acts, the formation energy is never reached. -/
theorem zrV_bounds {n : ℝ} (hn : 1 ≤ n) : 0.13 ≤ zrV n ∧ zrV n < 2.03 := by
  have h1 : zrV 1 = 0.13 := by
    rw [zrV_small (by norm_num), zero_pow' (by norm_num), Real.one_rpow]; norm_num
  rcases lt_or_ge n 925 with h | h
  · refine ⟨by rw [← h1]; exact zrV_mono le_rfl hn h, ?_⟩
    rcases lt_or_ge n 18 with n1 | n1
    · rw [zrV_small n1]; have := pow_inc_pos (p := 0.84) (by norm_num) hn; linarith
    rcases lt_or_ge n 66 with n2 | n2
    · rw [zrV_mid n1 n2]; have := pow_inc_pos (p := 0.70) (by norm_num) hn; linarith
    · rw [zrV_large n2 h]; have := loop_inc_pos (k := 4.588) (n := n) (by norm_num) (by linarith); linarith
  · constructor
    · refine le_trans ?_ (zrV_mono' le_rfl h)
      rw [zrV_huge le_rfl, show (925 : ℝ) - 1 = 924 by norm_num]
      have h2 := loop_inc_le (k := 1.69 / 0.23) (n := 924) (by norm_num) (by norm_num)
      rw [show (924 : ℝ) + 1 = 925 by norm_num] at h2
      have s3 : √924 ≤ 30.4 := (sqrt_le_left (by norm_num)).mpr (by norm_num)
      have s4 : 30 ≤ √924 := le_sqrt_of_sq_le (by norm_num)
      have l2 : log (1.69 / 0.23 * √924) ≤ 6 := by
        refine (log_le_log (by positivity) (show 1.69 / 0.23 * √924 ≤ 300 by linarith)).trans ?_
        have := log_le_of (x := 300) 6 1 (by norm_num) (by norm_num) (by norm_num)
        simpa using this
      have d2 : (log (1.69 / 0.23 * √924) + 1) / (2 * √924) ≤ (6 + 1) / (2 * 30) := div_le_div₀ (by norm_num) (by linarith) (by norm_num) (by linarith)
      linarith
    · rw [zrV_huge h]; have := loop_inc_pos (k := 1.69 / 0.23) (n := n) (by norm_num) (by linarith); linarith

theorem zrI_small {n : ℝ} (h : n < 7) : zrI n = 2.94 - 2.8 * (n ^ (0.81 : ℝ) - (n - 1) ^ (0.81 : ℝ)) := if_pos h
theorem zrI_large {n : ℝ} (h : 7 ≤ n) : zrI n = 2.94 - 4.6 * (n ^ (0.66 : ℝ) - (n - 1) ^ (0.66 : ℝ)) := if_neg (by linarith)

theorem fit_7 : 4.6 * ((7 : ℝ) ^ (0.66 : ℝ) - (7 - 1) ^ (0.66 : ℝ)) ≤ 2.8 * ((6.5 : ℝ) ^ (0.81 : ℝ) - (6.5 - 1) ^ (0.81 : ℝ)) := by
  have e1 : (0.81 : ℝ) = ((81 : ℕ) : ℝ) / ((100 : ℕ) : ℝ) := by norm_num
  have e2 : (0.66 : ℝ) = ((33 : ℕ) : ℝ) / ((50 : ℕ) : ℝ) := by norm_num
  have h1 : (4.5547 : ℝ) ≤ 6.5 ^ (0.81 : ℝ) := by rw [e1]; exact le_rpow_of 81 100 (by norm_num) (by norm_num) (by norm_num) (by norm_num)
  have h2 : (5.5 : ℝ) ^ (0.81 : ℝ) ≤ 3.97827 := by rw [e1]; exact rpow_le_of 81 100 (by norm_num) (by norm_num) (by norm_num) (by norm_num)
  have h3 : (7 : ℝ) ^ (0.66 : ℝ) ≤ 3.61215 := by rw [e2]; exact rpow_le_of 33 50 (by norm_num) (by norm_num) (by norm_num) (by norm_num)
  have h4 : (3.26272 : ℝ) ≤ 6 ^ (0.66 : ℝ) := by rw [e2]; exact le_rpow_of 33 50 (by norm_num) (by norm_num) (by norm_num) (by norm_num)
  rw [show (7 : ℝ) - 1 = 6 by norm_num, show (6.5 : ℝ) - 1 = 5.5 by norm_num]
  linarith

/-- **C77, zirconium** An interstitial is bound the more strongly the larger the cluster: mean sizes are multiples of one half, so that the fits, which cross between 6.5 and 7, do not meet there. -/
theorem zrI_mono {a b : ℕ} (ha : 2 ≤ a) (h : a ≤ b) : zrI ((a : ℝ) / 2) ≤ zrI ((b : ℝ) / 2) := by
  have a1 : ∀ {n m : ℝ}, 1 ≤ n → n ≤ m → 2.94 - 2.8 * (n ^ (0.81 : ℝ) - (n - 1) ^ (0.81 : ℝ)) ≤ 2.94 - 2.8 * (m ^ (0.81 : ℝ) - (m - 1) ^ (0.81 : ℝ)) := fun h1 h2 => by
    have := pow_inc (p := 0.81) (by norm_num) (by norm_num) h1 h2; linarith
  have b1 : ∀ {n m : ℝ}, 1 ≤ n → n ≤ m → 2.94 - 4.6 * (n ^ (0.66 : ℝ) - (n - 1) ^ (0.66 : ℝ)) ≤ 2.94 - 4.6 * (m ^ (0.66 : ℝ) - (m - 1) ^ (0.66 : ℝ)) := fun h1 h2 => by
    have := pow_inc (p := 0.66) (by norm_num) (by norm_num) h1 h2; linarith
  have ha' : (1 : ℝ) ≤ (a : ℝ) / 2 := by
    have : (2 : ℝ) ≤ a := by exact_mod_cast ha
    linarith
  have h' : (a : ℝ) / 2 ≤ (b : ℝ) / 2 := by
    have : (a : ℝ) ≤ b := by exact_mod_cast h
    linarith
  have cut : ∀ {c : ℕ}, ((c : ℝ) / 2 < 7 ↔ c ≤ 13) := fun {c} => by
    constructor
    · intro hc
      have : (c : ℝ) < 14 := by linarith
      have : c < 14 := by exact_mod_cast this
      omega
    · intro hc
      have : (c : ℝ) ≤ 13 := by exact_mod_cast hc
      linarith
  by_cases hb : b ≤ 13
  · rw [zrI_small (cut.mpr hb), zrI_small (cut.mpr (h.trans hb))]; exact a1 ha' h'
  · have hb' := not_lt.mp fun e => hb (cut.mp e)
    rw [zrI_large hb']
    by_cases hc : a ≤ 13
    · rw [zrI_small (cut.mpr hc)]
      have h65 : (a : ℝ) / 2 ≤ 6.5 := by
        have : (a : ℝ) ≤ 13 := by exact_mod_cast hc
        norm_num; linarith
      have e1 := a1 ha' h65
      have e2 := fit_7
      have e3 := b1 (n := 7) (by norm_num) hb'
      linarith
    · rw [zrI_large (not_lt.mp fun e => hc (cut.mp e))]; exact b1 ha' h'

/-- **C77, zirconium** Bounds of the energy of an interstitial. -/
theorem zrI_bounds {n : ℝ} (hn : 1 ≤ n) : 0.14 ≤ zrI n ∧ zrI n < 2.94 := by
  rcases lt_or_ge n 7 with h | h
  · rw [zrI_small h]
    have h1 := pow_inc (p := 0.81) (by norm_num) (by norm_num) le_rfl hn
    have h2 := pow_inc_pos (p := 0.81) (by norm_num) hn
    rw [zero_pow' (by norm_num), Real.one_rpow] at h1
    constructor <;> linarith
  · rw [zrI_large h]
    have h2 := pow_inc_pos (p := 0.66) (by norm_num) hn
    have h1 := pow_inc (p := 0.66) (by norm_num) (by norm_num) (show (1 : ℝ) ≤ 7 by norm_num) h
    have f := fit_7
    have e1 : (0.81 : ℝ) = ((81 : ℕ) : ℝ) / ((100 : ℕ) : ℝ) := by norm_num
    have h3 := pow_inc (p := 0.81) (by norm_num) (by norm_num) le_rfl (show (1 : ℝ) ≤ 6.5 by norm_num)
    rw [zero_pow' (by norm_num), Real.one_rpow] at h3
    constructor <;> linarith

theorem basal_small {t : ℕ} {n : ℝ} (h : n < t) : zrBasal t n = some (1.486 - 5.352 * (√n - √(n - 1))) := by
  rw [zrBasal, if_pos h]
  congr 1
  ring

theorem basal_large {t : ℕ} {n : ℝ} (h : (t : ℝ) ≤ n) (h2 : 200 ≤ n) : zrBasal t n = some (1.9466456 - 3.02 * (loopE 1.64 n - loopE 1.64 (n - 1))) := by
  rw [zrBasal, if_neg (by linarith), if_neg (by intro e; linarith), if_neg (by linarith)]
  congr 1
  simp only [loopE]
  ring

theorem sqrt_inc {n m : ℝ} (hn : 1 ≤ n) (h : n ≤ m) : √m - √(m - 1) ≤ √n - √(n - 1) := by
  have := pow_inc (p := 1 / 2) (by norm_num) (by norm_num) hn h
  simpa only [Real.sqrt_eq_rpow] using this

theorem basal_200 {n : ℝ} (h : 200 ≤ n) : 1.486 ≤ 1.9466456 - 3.02 * (loopE 1.64 n - loopE 1.64 (n - 1)) := by
  have h1 := loop_inc (k := 1.64) (by norm_num) (show (2 : ℝ) ≤ 200 by norm_num) h
  have h2 := loop_inc_le (k := 1.64) (n := 199) (by norm_num) (by norm_num)
  rw [show (199 : ℝ) + 1 = 200 by norm_num] at h2
  rw [show (200 : ℝ) - 1 = 199 by norm_num] at h1
  have s1 : √199 ≤ 14.11 := (sqrt_le_left (by norm_num)).mpr (by norm_num)
  have s2 : 14.1 ≤ √199 := le_sqrt_of_sq_le (by norm_num)
  have l2 : log (1.64 * √199) ≤ 16 / 5 := by
    refine (log_le_log (by positivity) (show 1.64 * √199 ≤ 23.15 by linarith)).trans ?_
    have := log_le_of (x := 23.15) 16 5 (by norm_num) (by norm_num) (by norm_num)
    exact_mod_cast this
  have d2 : (log (1.64 * √199) + 1) / (2 * √199) ≤ (16 / 5 + 1) / (2 * 14.1) := div_le_div₀ (by norm_num) (by linarith) (by norm_num) (by linarith)
  have d4 : ((16 : ℝ) / 5 + 1) / (2 * 14.1) ≤ 0.149 := by norm_num
  linarith

/-- **C77, zirconium** Basal loops with a transition size of 200 or more (the default is 325): the energy is a number, grows with the loop, stays below the formation energy, and the lower limit acts exactly up to
loops of 4. -/
theorem basal_mono {t : ℕ} (ht : 200 ≤ t) {n m : ℝ} (hn : 1 ≤ n) (h : n ≤ m) : ∃ x y, zrBasal t n = some x ∧ zrBasal t m = some y ∧ x ≤ y ∧ y < 2.03 ∧ (n ≤ 4 → x < 0.1) ∧ (5 ≤ n → 0.1 < x) := by
  have ht' : (200 : ℝ) ≤ t := by exact_mod_cast ht
  have up : ∀ {n : ℝ}, 1 ≤ n → 1.486 - 5.352 * (√n - √(n - 1)) < 1.486 := fun {n} h1 => by
    have : √(n - 1) < √n := sqrt_lt_sqrt (by linarith) (by linarith)
    linarith
  have four : ∀ {n : ℝ}, 1 ≤ n → n ≤ 4 → 1.486 - 5.352 * (√n - √(n - 1)) < 0.1 := fun {n} h1 h4 => by
    have := sqrt_inc h1 h4
    have e1 : √4 = 2 := by rw [show (4 : ℝ) = 2 ^ 2 by norm_num]; exact sqrt_sq (by norm_num)
    have e2 : √(4 - 1) ≤ 1.7321 := (sqrt_le_left (by norm_num)).mpr (by norm_num)
    rw [e1] at this
    generalize √(4 - 1 : ℝ) = z at this e2
    nlinarith
  have five : ∀ {n : ℝ}, 5 ≤ n → 0.1 < 1.486 - 5.352 * (√n - √(n - 1)) := fun {n} h5 => by
    have := sqrt_inc (n := 5) (by norm_num) h5
    have e1 : √(5 - 1) = 2 := by rw [show (5 : ℝ) - 1 = 2 ^ 2 by norm_num]; exact sqrt_sq (by norm_num)
    have e2 : √5 ≤ 2.2361 := (sqrt_le_left (by norm_num)).mpr (by norm_num)
    rw [e1] at this
    linarith
  rcases lt_or_ge m t with hm | hm
  · refine ⟨_, _, basal_small (h.trans_lt hm), basal_small hm, ?_, ?_, four hn, five⟩
    · have := sqrt_inc hn h; linarith
    · have := up (hn.trans h); linarith
  · have lm := loop_inc_pos (k := 1.64) (n := m) (by norm_num) (by linarith)
    have bm := basal_200 (n := m) (by linarith)
    rcases lt_or_ge n t with hn' | hn'
    · refine ⟨_, _, basal_small hn', basal_large hm (by linarith), ?_, by linarith, four hn, five⟩
      have := up hn; linarith
    · refine ⟨_, _, basal_large hn' (by linarith), basal_large hm (by linarith), ?_, by linarith, fun h4 => by linarith, fun _ => ?_⟩
      · have := loop_inc (k := 1.64) (by norm_num) (show (2 : ℝ) ≤ n by linarith) h
        linarith
      · have := basal_200 (n := n) (by linarith); linarith

/-- **C77, zirconium** The energy of a cluster with products on its own axis, by kind. -/
theorem zrBinding_spec {t : ℕ} (ht : 200 ≤ t) {k p1 p2 : ZrKind} {n : ℝ} (hn : 1 ≤ n) :
    0.1 ≤ zrBinding t k p1 p2 n ∧ zrBinding t k p1 p2 n = zrBinding t k p2 p1 n ∧
    (p1 ≠ k → p2 ≠ k → zrBinding t k p1 p2 n = 5) ∧
    (p1 = k ∨ p2 = k → (k = .v → zrBinding t k p1 p2 n = zrV n) ∧ (k = .i → zrBinding t k p1 p2 n = zrI n) ∧
      (k = .basal → zrBasal t n = some (zrBinding t k p1 p2 n) ∨ n < 5 ∧ zrBinding t k p1 p2 n = 0.1)) := by
  refine ⟨?_, ?_, ?_, ?_⟩
  · unfold zrBinding
    split_ifs
    · cases k
      · exact le_max_left _ _
      · simp only
        split
        · exact le_max_left _ _
        · exact le_rfl
      · exact le_max_left _ _
    · exact le_max_left _ _
  · unfold zrBinding
    exact if_congr or_comm rfl rfl
  · intro h1 h2
    unfold zrBinding
    rw [if_neg (by tauto)]
    norm_num
  · intro hp
    unfold zrBinding
    rw [if_pos hp]
    refine ⟨?_, ?_, ?_⟩
    · rintro rfl
      exact max_eq_right (by have := (zrV_bounds hn).1; linarith)
    · rintro rfl
      exact max_eq_right (by have := (zrI_bounds hn).1; linarith)
    · rintro rfl
      obtain ⟨x, y, e, -, -, -, -, h5⟩ := basal_mono ht hn (le_refl n)
      simp only [e]
      by_cases hx : 0.1 < x
      · left; rw [max_eq_right hx.le]
      · right
        exact ⟨not_le.mp fun h => hx (h5 h), max_eq_left (not_lt.mp hx)⟩

/-- **C77, zirconium** A basal loop of one vacancy with a transition size of at most 1 has no energy; the limit is returned. -/
theorem basal_nan (t : ℕ) : zrBasal t 1 = none ↔ t ≤ 1 := by
  unfold zrBasal
  by_cases h : (1 : ℝ) < t
  · have : 1 < t := by exact_mod_cast h
    rw [if_pos h]
    simp; omega
  · have : t ≤ 1 := by
      have : (t : ℝ) ≤ 1 := not_lt.mp h
      exact_mod_cast this
    rw [if_neg h, if_pos rfl]
    simp [this]

/-! ### Capture radii -/

/-- **C77, zirconium** The capture radii of every cluster are positive; the constants from 1000 on continue the fits within 0.005 nm. -/
theorem capture (t : ℕ) (k : ZrKind) : (∀ n : ℕ, 0 < n → 0 < (zrCapture t k n).1 ∧ 0 < (zrCapture t k n).2) ∧
    (∀ n : ℕ, 1000 ≤ n → zrCapture t k n = zrCapture t k 1000) ∧
    (∀ m n : ℕ, 0 < m → m ≤ n → n < 1000 → (k = .basal → n < t ∨ t ≤ m) → (zrCapture t k m).1 ≤ (zrCapture t k n).1 ∧ (zrCapture t k m).2 ≤ (zrCapture t k n).2) := by
  refine ⟨fun n hn => ?_, fun n hn => ?_, fun m n hm h hn hb => ?_⟩
  · have : (0 : ℝ) < n := by exact_mod_cast hn
    cases k <;> unfold zrCapture <;> simp only <;> split_ifs <;> constructor <;> positivity
  · cases k <;> simp only [zrCapture, if_neg (show ¬ n < 1000 by omega), lt_irrefl, if_false]
  · have hp : ∀ p : ℝ, 0 ≤ p → (m : ℝ) ^ p ≤ (n : ℝ) ^ p := fun p h0 => Real.rpow_le_rpow (by positivity) (by exact_mod_cast h) h0
    cases k with
    | v =>
      simp only [zrCapture, if_pos hn, if_pos (h.trans_lt hn)]
      have h1 := hp 0.15 (by norm_num); have h2 := hp 0.3 (by norm_num)
      constructor <;> linarith
    | i =>
      simp only [zrCapture, if_pos hn, if_pos (h.trans_lt hn)]
      have h1 := hp 0.205 (by norm_num); have h2 := hp 0.08 (by norm_num)
      constructor <;> linarith
    | basal =>
      simp only [zrCapture, if_pos hn, if_pos (h.trans_lt hn)]
      have h1 := hp 0.06 (by norm_num); have h2 := hp 0.28 (by norm_num)
      refine ⟨?_, by linarith⟩
      rcases hb rfl with h3 | h3
      · rw [if_pos h3, if_pos (h.trans_lt h3)]
      · rw [if_neg (by omega), if_neg (by omega)]; linarith

/-- The fits at 1000 against the constants. -/
theorem capture_1000 : |2.8 * (1000 : ℝ) ^ (0.15 : ℝ) / 10 - 0.79| ≤ 0.005 ∧ |2 * (1000 : ℝ) ^ (0.3 : ℝ) / 10 - 1.59| ≤ 0.005 ∧ |5.2 * (1000 : ℝ) ^ (0.06 : ℝ) / 10 - 0.787| ≤ 0.005 ∧
    |1.55 * (1000 : ℝ) ^ (0.28 : ℝ) / 10 - 1.072| ≤ 0.005 ∧ |4.5 * (1000 : ℝ) ^ (0.205 : ℝ) / 10 - 1.85| ≤ 0.005 ∧ |6 * (1000 : ℝ) ^ (0.08 : ℝ) / 10 - 1.04| ≤ 0.005 := by
  have b : ∀ (p q : ℕ) (e lo hi : ℝ), q ≠ 0 → e = (p : ℝ) / q → 0 ≤ lo → 0 ≤ hi → lo ^ q ≤ 1000 ^ p → (1000 : ℝ) ^ p ≤ hi ^ q → lo ≤ (1000 : ℝ) ^ e ∧ (1000 : ℝ) ^ e ≤ hi := by
    intro p q e lo hi hq he h1 h2 h3 h4
    rw [he]
    exact ⟨le_rpow_of p q hq (by norm_num) h1 h3, rpow_le_of p q hq (by norm_num) h2 h4⟩
  have h1 := b 3 20 0.15 2.818 2.819 (by norm_num) (by norm_num) (by norm_num) (by norm_num) (by norm_num) (by norm_num)
  have h2 := b 3 10 0.3 7.943 7.944 (by norm_num) (by norm_num) (by norm_num) (by norm_num) (by norm_num) (by norm_num)
  have h3 := b 3 50 0.06 1.513 1.514 (by norm_num) (by norm_num) (by norm_num) (by norm_num) (by norm_num) (by norm_num)
  have h4 := b 7 25 0.28 6.918 6.919 (by norm_num) (by norm_num) (by norm_num) (by norm_num) (by norm_num) (by norm_num)
  have h5 := b 41 200 0.205 4.12 4.121 (by norm_num) (by norm_num) (by norm_num) (by norm_num) (by norm_num) (by norm_num)
  have h6 := b 2 25 0.08 1.737 1.738 (by norm_num) (by norm_num) (by norm_num) (by norm_num) (by norm_num) (by norm_num)
  refine ⟨?_, ?_, ?_, ?_, ?_, ?_⟩ <;> rw [abs_le] <;> constructor <;> linarith

/-- The exponents of the two capture radii. -/
noncomputable def powers : ZrKind → ℝ × ℝ
  | .v => (3 / 20, 3 / 10)
  | .basal => (3 / 50, 7 / 25)
  | .i => (41 / 200, 2 / 25)

/-- **C77, zirconium** Below 1000 the radii follow power laws from the single defect on, but for the first of basal clusters under the transition, which is 1.1 nm; the constants from 1000 on continue these laws within 0.005 nm. -/
theorem capture_power (t : ℕ) (k : ZrKind) (hk : k = .basal → t ≤ 1) :
    (∀ n : ℕ, 0 < n → n < 1000 → (zrCapture t k n).1 = (zrCapture t k 1).1 * (n : ℝ) ^ (powers k).1 ∧ (zrCapture t k n).2 = (zrCapture t k 1).2 * (n : ℝ) ^ (powers k).2) ∧
    |(zrCapture t k 1).1 * (1000 : ℝ) ^ (powers k).1 - (zrCapture t k 1000).1| ≤ 0.005 ∧ |(zrCapture t k 1).2 * (1000 : ℝ) ^ (powers k).2 - (zrCapture t k 1000).2| ≤ 0.005 := by
  obtain ⟨h1, h2, h3, h4, h5, h6⟩ := capture_1000
  have f : ∀ a b c : ℝ, a * b / 10 - c = a / 10 * b - c := fun a b c => by ring
  rw [f] at h1 h2 h3 h4 h5 h6
  have e1 : (0.15 : ℝ) = 3 / 20 := by norm_num
  have e2 : (0.3 : ℝ) = 3 / 10 := by norm_num
  have e3 : (0.06 : ℝ) = 3 / 50 := by norm_num
  have e4 : (0.28 : ℝ) = 7 / 25 := by norm_num
  have e5 : (0.205 : ℝ) = 41 / 200 := by norm_num
  have e6 : (0.08 : ℝ) = 2 / 25 := by norm_num
  rw [e1] at h1; rw [e2] at h2; rw [e3] at h3; rw [e4] at h4; rw [e5] at h5; rw [e6] at h6
  have one : (1 : ℕ) < 1000 := by norm_num
  cases k with
  | v =>
    refine ⟨fun n hn hl => ?_, ?_, ?_⟩
    · simp only [zrCapture, if_pos hl, if_pos one, powers, e1, e2, Nat.cast_one, Real.one_rpow]; constructor <;> ring
    · simpa only [zrCapture, if_pos one, lt_irrefl, if_false, powers, Nat.cast_one, Real.one_rpow, mul_one] using h1
    · simpa only [zrCapture, if_pos one, lt_irrefl, if_false, powers, Nat.cast_one, Real.one_rpow, mul_one] using h2
  | i =>
    refine ⟨fun n hn hl => ?_, ?_, ?_⟩
    · simp only [zrCapture, if_pos hl, if_pos one, powers, e5, e6, Nat.cast_one, Real.one_rpow]; constructor <;> ring
    · simpa only [zrCapture, if_pos one, lt_irrefl, if_false, powers, Nat.cast_one, Real.one_rpow, mul_one] using h5
    · simpa only [zrCapture, if_pos one, lt_irrefl, if_false, powers, Nat.cast_one, Real.one_rpow, mul_one] using h6
  | basal =>
    have ht := hk rfl
    refine ⟨fun n hn hl => ?_, ?_, ?_⟩
    · simp only [zrCapture, if_pos hl, if_pos one, powers, e3, e4, Nat.cast_one, Real.one_rpow, if_neg (show ¬ n < t by omega), if_neg (show ¬ 1 < t by omega)]; constructor <;> ring
    · simpa only [zrCapture, if_pos one, lt_irrefl, if_false, powers, Nat.cast_one, Real.one_rpow, mul_one, if_neg (show ¬ 1 < t by omega)] using h3
    · simpa only [zrCapture, if_pos one, lt_irrefl, if_false, powers, Nat.cast_one, Real.one_rpow, mul_one, if_neg (show ¬ 1 < t by omega)] using h4

/-- **C77, zirconium** The transition changes the radii of basal clusters under it only, and of them the first, to 1.1 nm. -/
theorem capture_transition (t n : ℕ) (hn : n < 1000) : (zrCapture t .basal n).2 = (zrCapture 0 .basal n).2 ∧ (zrCapture t .basal n).1 = if n < t then 11 / 10 else (zrCapture 0 .basal n).1 := by
  refine ⟨by simp only [zrCapture, if_pos hn], ?_⟩
  simp only [zrCapture, if_pos hn, Nat.not_lt_zero, if_false]
  split_ifs <;> norm_num

example : (zrCapture 5 .basal 4).1 = 11 / 10 ∧ (zrCapture 5 .v 1).1 = 7 / 25 := by
  constructor
  · rw [(capture_transition 5 4 (by norm_num)).2]; norm_num
  · simp [zrCapture]; norm_num

theorem basal_middle {t : ℕ} {n : ℝ} (h : (t : ℝ) ≤ n) (h1 : 2 ≤ n) (h2 : n < 200) : zrBasal t n = some (1.874732 - 2.87 * (loopE 1.50 n - loopE 1.50 (n - 1))) := by
  rw [zrBasal, if_neg (by linarith), if_neg (by intro e; linarith), if_pos h2]
  congr 1
  simp only [loopE]
  ring

/-- **C77, zirconium** Between the transition and 200 the energy of basal clusters grows with their size, and stays under its limit 1.874732. -/
theorem basal_middle_mono {t : ℕ} {n m : ℝ} (h : (t : ℝ) ≤ n) (h1 : 2 ≤ n) (hm : n ≤ m) (h2 : m < 200) : ∃ x y, zrBasal t n = some x ∧ zrBasal t m = some y ∧ x ≤ y ∧ y < 1.874732 := by
  refine ⟨_, _, basal_middle h h1 (hm.trans_lt h2), basal_middle (h.trans hm) (h1.trans hm) h2, ?_, ?_⟩
  · have := loop_inc (k := 1.50) (by norm_num) h1 hm; linarith
  · have := loop_inc_pos (k := 1.50) (n := m) (by norm_num) (h1.trans hm); linarith

example : ∃ x y, zrBasal 10 10 = some x ∧ zrBasal 10 100 = some y ∧ x ≤ y ∧ y < 1.874732 := basal_middle_mono (by norm_num) (by norm_num) (by norm_num) (by norm_num)

/-! ### Iron -/

/-- **C77, iron** Within its limits when there is a value; the order of the products does not matter. -/
theorem fe_range (c p1 p2 : Clu Unit) : feBinding c p1 p2 = feBinding c p2 p1 ∧ ∀ x, feBinding c p1 p2 = some x → -5 ≤ x ∧ x ≤ 5 := by
  constructor
  · unfold feBinding feRaw feBubble
    simp only [or_comm (a := onV [()] p1), or_comm (a := onI [()] p1), or_comm (a := onG [()] () p1), and_comm (a := simplex [()] p1)]
  · intro x hx
    simp only [feBinding, Option.map_eq_some_iff] at hx
    obtain ⟨b, -, rfl⟩ := hx
    cases b with
    | none => constructor <;> norm_num
    | some be => exact ⟨le_min (by norm_num) (le_max_right _ _), min_le_left _ _⟩

/-- **C77, iron** The table is read outside exactly for a single cluster of more than 8 helium atoms that gives up an interstitial. -/
theorem fe_undefined (c p1 p2 : Clu Unit) :
    feBinding c p1 p2 = none ↔ (simplex [()] c ∧ simplex [()] p1 ∧ simplex [()] p2) ∧ onG [()] () c ∧ (onI [()] p1 ∨ onI [()] p2) ∧ 8 < (c.g ()).b := by
  unfold feBinding feRaw
  rw [Option.map_eq_none_iff]
  by_cases h : simplex [()] c ∧ simplex [()] p1 ∧ simplex [()] p2
  · rw [if_pos h]
    by_cases h2 : onG [()] () c
    · rw [if_pos h2]
      by_cases h3 : onI [()] p1 ∨ onI [()] p2
      · simp only [if_pos h3, Option.map_eq_none_iff, List.getElem?_eq_none_iff, heTrap, List.length_cons, List.length_nil]
        have := h2.1
        constructor
        · intro h4; exact ⟨h, h2, h3, by omega⟩
        · intro h4; have := h4.2.2.2; omega
      · simp [h3]
    · rw [if_neg h2]
      simp only [h2, false_and, and_false, iff_false]
      split_ifs <;> simp
  · rw [if_neg h]
    simp [h]

/-- **C77, iron** The clusters the generator selects stay inside the table. -/
theorem fe_table (o : Select.O3) (g : ℕ) (hg : Select.feSelect o (Select.point3 ⟨g, 0, 0⟩) = true) : g ≤ 8 := by
  by_contra h
  have : 8 < g := by omega
  simp [Select.feSelect, Select.point3, this] at hg

/-- **C77, iron** The table: the more helium, the less an interstitial is bound, until the cluster gives it up by itself from 7 on. -/
theorem fe_trap (m n : ℕ) (hm : 1 ≤ m) (h : m < n) (hn : n ≤ 8) : heTrap.getD n 0 < heTrap.getD m 0 ∧ (heTrap.getD n 0 < 0 ↔ 7 ≤ n) := by
  unfold heTrap
  interval_cases n <;> interval_cases m <;> norm_num

/-- **C77, iron** Whatever the helium content, the energies of a vacancy and of an interstitial add up to the same. -/
theorem fe_pair (he v : ℝ) : feV he v + feI he v = 6.61 := by
  unfold feV feI
  ring

/-- **C77, iron** Clusters of vacancies: the larger the cluster, the more a vacancy is bound; it is positive from two on, below the formation energy, and the limits do not act. -/
theorem fe_vacancy {n m : ℝ} (hn : 1 ≤ n) (h : n ≤ m) : feVac n ≤ feVac m ∧ -0.86 ≤ feVac n ∧ feVac n < 1.73 ∧ (2 ≤ n → 0 < feVac n) ∧ feVac 1 = -0.86 := by
  have mono : ∀ {n m : ℝ}, 1 ≤ n → n ≤ m → feVac n ≤ feVac m := fun h1 h2 => by
    have := pow_inc (p := 2 / 3) (by norm_num) (by norm_num) h1 h2
    unfold feVac
    linarith
  have one : feVac 1 = -0.86 := by
    rw [feVac, zero_pow' (by norm_num), Real.one_rpow]; norm_num
  refine ⟨mono hn h, by rw [← one]; exact mono le_rfl hn, ?_, fun h2 => ?_, one⟩
  · have := pow_inc_pos (p := 2 / 3) (by norm_num) hn
    unfold feVac
    linarith
  · refine lt_of_lt_of_le ?_ (mono (by norm_num) h2)
    have e : (2 / 3 : ℝ) = ((2 : ℕ) : ℝ) / ((3 : ℕ) : ℝ) := by norm_num
    have h3 : (2 : ℝ) ^ (2 / 3 : ℝ) ≤ 1.588 := by rw [e]; exact rpow_le_of 2 3 (by norm_num) (by norm_num) (by norm_num) (by norm_num)
    rw [feVac, show (2 : ℝ) - 1 = 1 by norm_num, Real.one_rpow]
    linarith

/-- **C77, iron** Helium binds vacancies and loosens interstitials: strictly monotone in its amount, the value of the empty cluster at none. -/
theorem fe_helium {g h v : ℝ} (hg : 0 ≤ g) (hgh : g < h) (hv : 1 ≤ v) : feV g v < feV h v ∧ feI h v < feI g v ∧ feV 0 v = feVac v := by
  have h1 : log (1 + g / v) < log (1 + h / v) := by
    refine log_lt_log (by positivity) ?_
    have : g / v < h / v := div_lt_div_of_pos_right hgh (by linarith)
    linarith
  refine ⟨?_, ?_, ?_⟩
  · unfold feV; linarith
  · unfold feI; linarith
  · simp [feV, feVac]

/-- **C77, iron** What a bubble (helium and vacancies, single or grouped, at least one vacancy) pays: for an interstitial, for a vacancy, and 5 for anything else, among it a helium atom. -/
theorem fe_bubble {c p1 p2 : Clu Unit} (hc : 0 < (c.g ()).b ∧ 0 < c.v.b) (he : (c.g ()).b < (c.g ()).e ∧ c.v.b < c.v.e) :
    ∃ he v : ℝ, 1 ≤ v ∧ (((c.g ()).b : ℝ) ≤ he ∧ he ≤ ((c.g ()).e : ℝ) - 1) ∧ ((c.v.b : ℝ) ≤ v ∧ v ≤ (c.v.e : ℝ) - 1) ∧
      feBinding c p1 p2 = some (min 5 (max (if onI [()] p1 ∨ onI [()] p2 then feI he v else if onV [()] p1 ∨ onV [()] p2 then feV he v else 5) (-5))) := by
  have hb : (1 : ℝ) ≤ c.v.b := by exact_mod_cast hc.2
  have hve : (c.v.b : ℝ) + 1 ≤ c.v.e := by exact_mod_cast he.2
  have hge : ((c.g ()).b : ℝ) + 1 ≤ (c.g ()).e := by exact_mod_cast he.1
  have key : ∀ g v : ℝ, 1 ≤ v → feBubble g v p1 p2 = some (if onI [()] p1 ∨ onI [()] p2 then feI g v else if onV [()] p1 ∨ onV [()] p2 then feV g v else 5) := by
    intro g v hv
    unfold feBubble
    rw [if_neg (not_lt.mpr hv), if_neg (not_lt.mpr hv)]
    split_ifs <;> rfl
  by_cases h : simplex [()] c ∧ simplex [()] p1 ∧ simplex [()] p2
  · refine ⟨(c.g ()).b, c.v.b, hb, ⟨le_rfl, by linarith⟩, ⟨le_rfl, by linarith⟩, ?_⟩
    have n1 : ¬ onG [()] () c := fun e => by have := e.2.1; omega
    have n2 : ¬ onV [()] c := fun e => by have := e.2.2 () (by simp); omega
    have n3 : ¬ onI [()] c := fun e => by have := e.2.1; omega
    simp only [feBinding, feRaw, if_pos h, if_neg n1, if_neg n2, if_neg n3, key _ _ hb, Option.map_some]
  · refine ⟨(((c.g ()).b + (c.g ()).e - 1 : ℤ) : ℝ) / 2, ((c.v.b + c.v.e - 1 : ℤ) : ℝ) / 2, ?_, ⟨?_, ?_⟩, ⟨?_, ?_⟩, ?_⟩
    rotate_left 5
    · simp only [feBinding, feRaw, if_neg h]
      rw [key]
      · rfl
      · push_cast; linarith
    all_goals push_cast; linarith

/-! ### Sinks of iron -/

/-- **C77, iron** The strength of a sink is a positive number as long as the cluster is smaller than the distance between sinks, and grows with its radius. -/
theorem fe_strength {a r r' : ℝ} (ha : 0 < a) (hr : 0 ≤ r) (h : r < r') (hl : π * 0.0003 * (r' + a * 0.75 * √3) * (r' + a * 0.75 * √3) < 1) :
    ∃ s s', feStrength a r = some s ∧ feStrength a r' = some s' ∧ 0 < s ∧ s < s' := by
  have h3 : 0 < √3 := by positivity
  have hpi := pi_pos
  set q := a * 0.75 * √3 with hq
  have hq0 : 0 < q := by positivity
  have x1 : 0 < π * 0.0003 * (r + q) * (r + q) := by positivity
  have x2 : π * 0.0003 * (r + q) * (r + q) < π * 0.0003 * (r' + q) * (r' + q) := by
    have e1 : r + q < r' + q := by linarith
    have e2 : 0 < r + q := by linarith
    have : (r + q) * (r + q) < (r' + q) * (r' + q) := by nlinarith
    have h4 : 0 < π * 0.0003 := by positivity
    nlinarith
  have l1 := log_lt_log x1 x2
  have l2 : log (π * 0.0003 * (r' + q) * (r' + q)) < 0 := log_neg (x1.trans x2) hl
  have e1 : feStrength a r = some (-4 * π * 0.0003 / log (π * 0.0003 * (r + q) * (r + q))) := by
    simp only [feStrength, ← hq]
    rw [if_neg (by linarith)]
  have e2 : feStrength a r' = some (-4 * π * 0.0003 / log (π * 0.0003 * (r' + q) * (r' + q))) := by
    simp only [feStrength, ← hq]
    rw [if_neg l2.ne]
  refine ⟨_, _, e1, e2, ?_, ?_⟩
  · exact div_pos_of_neg_of_neg (by nlinarith) (l1.trans l2)
  · rw [← neg_div_neg_eq, ← neg_div_neg_eq (-4 * π * 0.0003)]
    exact div_lt_div_of_pos_left (by nlinarith) (by linarith) (by linarith)

/-- **C77, iron** The clusters with sinks (single interstitials and up to four vacancies) have positive strengths for every lattice parameter up to 10 nm. -/
theorem fe_sinks (p : Radius.Par) (h0 : 0 < p.a) (h1 : p.a ≤ 10) {c : Select.C3} (hc : c ∈ ([⟨0, 0, 1⟩, ⟨0, 1, 0⟩, ⟨0, 2, 0⟩, ⟨0, 3, 0⟩, ⟨0, 4, 0⟩] : List Select.C3)) :
    ∃ s, feStrength p.a (Radius.feRadius p (Select.point3 c)) = some s ∧ 0 < s := by
  have hpi := pi_gt_three
  have cb : ∀ x : ℝ, 0 ≤ x → x ≤ 4 → 0 ≤ Radius.cbrt (3 * x / π) ∧ Radius.cbrt (3 * x / π) ≤ 2 := by
    intro x hx0 hx
    refine ⟨by unfold Radius.cbrt; positivity, ?_⟩
    have e : (1 / 3 : ℝ) = ((1 : ℕ) : ℝ) / ((3 : ℕ) : ℝ) := by norm_num
    rw [Radius.cbrt, e]
    refine rpow_le_of 1 3 (by norm_num) (by positivity) (by norm_num) ?_
    rw [pow_one, div_le_iff₀ (by linarith)]
    nlinarith
  have rad : 0 ≤ Radius.feRadius p (Select.point3 c) ∧ Radius.feRadius p (Select.point3 c) ≤ p.a := by
    simp only [List.mem_cons, List.not_mem_nil, or_false] at hc
    have b : ∀ x : ℝ, 0 ≤ x → x ≤ 4 → 0 ≤ p.a * Radius.cbrt (3 * x / π) * (1 / 2) ∧ p.a * Radius.cbrt (3 * x / π) * (1 / 2) ≤ p.a := by
      intro x hx0 hx
      obtain ⟨c1, c2⟩ := cb x hx0 hx
      constructor
      · positivity
      · nlinarith
    rcases hc with rfl | rfl | rfl | rfl | rfl <;>
      simp only [Radius.feRadius, Radius.simplex3, Select.point3, if_true, Radius.feV]
    · simpa using b 1 (by norm_num) (by norm_num)
    · simpa using b 1 (by norm_num) (by norm_num)
    · simpa using b 2 (by norm_num) (by norm_num)
    · simpa using b 3 (by norm_num) (by norm_num)
    · simpa using b 4 (by norm_num) (by norm_num)
  have s3 : √3 ≤ 1.74 := (sqrt_le_left (by norm_num)).mpr (by norm_num)
  have s3' : 0 ≤ √3 := sqrt_nonneg 3
  obtain ⟨s, s', e, -, hs, -⟩ := fe_strength (a := p.a) (r := Radius.feRadius p (Select.point3 c)) (r' := 11) h0 rad.1 (by linarith [rad.2]) (by
    have hq : p.a * 0.75 * √3 ≤ 13.05 := by nlinarith
    have hq0 : 0 ≤ p.a * 0.75 * √3 := by positivity
    have hp4 := pi_lt_d2
    set q := p.a * 0.75 * √3
    have e1 : (11 + q) * (11 + q) ≤ 24.05 * 24.05 := by nlinarith
    have e2 : π * 0.0003 * (11 + q) * (11 + q) = π * 0.0003 * ((11 + q) * (11 + q)) := by ring
    rw [e2]
    have e3 : π * 0.0003 * ((11 + q) * (11 + q)) ≤ π * 0.0003 * (24.05 * 24.05) := mul_le_mul_of_nonneg_left e1 (by positivity)
    refine e3.trans_lt ?_
    nlinarith)
  exact ⟨s, e, hs⟩

/-! ### Concrete cases -/

/-- He_9 is outside the table, He_8 is not; He_2 gives up a helium atom for 0.5. -/
example : feBinding (cl1 (9, 10) (0, 1) (0, 1)) (cl1 (9, 10) (1, 2) (0, 1)) (cl1 (0, 1) (0, 1) (1, 2)) = none ∧
    feBinding (cl1 (8, 9) (0, 1) (0, 1)) (cl1 (8, 9) (1, 2) (0, 1)) (cl1 (0, 1) (0, 1) (1, 2)) ≠ none := by
  constructor
  · exact (fe_undefined _ _ _).mpr (by decide)
  · exact fun h => by
      have := (fe_undefined _ _ _).mp h
      exact absurd this (by decide)

example : feBinding (cl1 (2, 3) (0, 1) (0, 1)) (cl1 (1, 2) (0, 1) (0, 1)) (cl1 (1, 2) (0, 1) (0, 1)) = some 0.5 := by
  have h1 : simplex [()] (cl1 (2, 3) (0, 1) (0, 1)) ∧ simplex [()] (cl1 (1, 2) (0, 1) (0, 1)) ∧ simplex [()] (cl1 (1, 2) (0, 1) (0, 1)) := by decide
  have h2 : onG [()] () (cl1 (2, 3) (0, 1) (0, 1)) := by decide
  have h3 : ¬ (onI [()] (cl1 (1, 2) (0, 1) (0, 1)) ∨ onI [()] (cl1 (1, 2) (0, 1) (0, 1))) := by decide
  have h4 : onG [()] () (cl1 (1, 2) (0, 1) (0, 1)) ∨ onG [()] () (cl1 (1, 2) (0, 1) (0, 1)) := by decide
  have h5 : ((cl1 (2, 3) (0, 1) (0, 1)).g ()).b = 2 := by decide
  simp only [feBinding, feRaw, if_pos h1, if_pos h2, if_neg h3, if_pos h4, if_pos h5, Option.map_some]
  norm_num

/-- A group of bubbles has the hypotheses of `fe_bubble`. -/
example : (0 < ((cl1 (3, 6) (5, 8) (0, 1)).g ()).b ∧ 0 < (cl1 (3, 6) (5, 8) (0, 1)).v.b) ∧ ((cl1 (3, 6) (5, 8) (0, 1)).g ()).b < ((cl1 (3, 6) (5, 8) (0, 1)).g ()).e ∧ (cl1 (3, 6) (5, 8) (0, 1)).v.b < (cl1 (3, 6) (5, 8) (0, 1)).v.e := by
  decide

/-- Four vacancies in iron hold one of them more strongly than two do, both positively. -/
example : 0 < feVac 2 ∧ feVac 2 ≤ feVac 4 := ⟨(fe_vacancy (n := 2) (m := 4) (by norm_num) (by norm_num)).2.2.2.1 le_rfl, (fe_vacancy (by norm_num) (by norm_num)).1⟩

/-- Iron's lattice parameter. -/
example : ∃ s, feStrength 0.287 (Radius.feRadius ⟨0.287, 1.15, 0.3, 0.25⟩ (Select.point3 ⟨0, 4, 0⟩)) = some s ∧ 0 < s := fe_sinks ⟨0.287, 1.15, 0.3, 0.25⟩ (by norm_num) (by norm_num) (by simp)

example : zrBinding 325 .v .v .v 1 = 0.13 ∧ zrBinding 325 .v .i .basal 30 = 5 := by
  refine ⟨?_, (zrBinding_spec (by norm_num) (by norm_num)).2.2.1 (by decide) (by decide)⟩
  rw [((zrBinding_spec (k := .v) (t := 325) (by norm_num) (le_refl 1)).2.2.2 (.inl rfl)).1 rfl, zrV_small (by norm_num), zero_pow' (by norm_num), Real.one_rpow]
  norm_num

/-- **Bias of the sinks of iron**: single interstitials are taken up five per cent faster than everything else. -/
theorem feBias_spec (c : Clu Unit) : (simplex [()] c ∧ onI [()] c → feBias c = 21 / 20 ∧ 1 < feBias c) ∧ (¬ (simplex [()] c ∧ onI [()] c) → feBias c = 1) := by
  unfold feBias
  constructor
  · intro h; rw [if_pos h]; norm_num
  · intro h; rw [if_neg h]


end Xolotl.Network.Bind
