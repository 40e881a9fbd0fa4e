import Verif.Network.RatesProps
import Mathlib.Analysis.Calculus.Deriv.Inv
import Mathlib.Analysis.Calculus.Deriv.Add

/-!
# C58: shape of the rate constants

What the formulas of `Rates.lean` have to satisfy independently of how they are written: the Arrhenius law, the flux of a steady diffusion profile into a sphere, the interpolation between the spherical and the toroidal capture coefficient of dislocation loops, and the range in which the fit of the binding energies of alloys is used.
-/

set_option linter.unusedSectionVars false

namespace Xolotl.Network.Rates

open Real

/-! ## Diffusion -/

/-- **C58, diffusion coefficients.** The migration energy is what the logarithm of the diffusion coefficient shows against the temperature, the diffusion factor its limit at high temperature. -/
theorem arrhenius_law (d0 em T : ℝ) (hd : 0 < d0) (hT : 0 < T) :
    kB * T * log (d0 / arrhenius d0 em T) = em ∧ arrhenius d0 0 T = d0 ∧ ∀ c, arrhenius (c * d0) em T = c * arrhenius d0 em T := by
  have hk : kB * T ≠ 0 := (mul_pos kB_pos hT).ne'
  refine ⟨?_, by simp [arrhenius], fun c => by simp only [arrhenius]; ring⟩
  have e : d0 / arrhenius d0 em T = exp (em / (kB * T)) := by
    unfold arrhenius
    rw [neg_div, exp_neg]
    field_simp
  rw [e, log_exp]
  exact mul_div_cancel₀ _ hk

/-- **C58, diffusion coefficients.** A higher migration energy means slower diffusion, a higher temperature faster, and the diffusion factor is never exceeded. -/
theorem arrhenius_order (d0 em em' T T' : ℝ) (hd : 0 < d0) (hT : 0 < T) :
    0 < arrhenius d0 em T ∧ (em < em' → arrhenius d0 em' T < arrhenius d0 em T) ∧ (0 < em → T < T' → arrhenius d0 em T < arrhenius d0 em T') ∧ (0 < em → arrhenius d0 em T < d0) := by
  have hk := kB_pos
  have anti : ∀ a b : ℝ, a < b → arrhenius d0 b T < arrhenius d0 a T := by
    intro a b h
    unfold arrhenius
    exact mul_lt_mul_of_pos_left (exp_lt_exp.mpr (div_lt_div_of_pos_right (by linarith) (by positivity))) hd
  refine ⟨by unfold arrhenius; positivity, anti em em', fun he h => ?_, fun he => ?_⟩
  · unfold arrhenius
    refine mul_lt_mul_of_pos_left (exp_lt_exp.mpr ?_) hd
    rw [neg_div, neg_div, neg_lt_neg_iff]
    exact div_lt_div_of_pos_left he (by positivity) (mul_lt_mul_of_pos_left h hk)
  · have := anti 0 em he
    rwa [(arrhenius_law d0 em T hd hT).2.1] at this

/-! ## Capture by spheres -/

/-- The profile `1 - R / x` around an absorbing sphere of radius `R` has the slope `1 / R` at its surface. -/
theorem profile_slope (R : ℝ) (hR : 0 < R) : HasDerivAt (fun x : ℝ => 1 - R / x) (1 / R) R := by
  have h : HasDerivAt (fun x : ℝ => 1 - R * x⁻¹) (-(R * -(R ^ 2)⁻¹)) R := HasDerivAt.const_sub 1 (HasDerivAt.const_mul R (hasDerivAt_inv hR.ne'))
  have e : -(R * -(R ^ 2)⁻¹) = 1 / R := by field_simp
  rw [e] at h
  exact h.congr_of_eventuallyEq (Filter.Eventually.of_forall fun x => by simp [div_eq_mul_inv])

/-- **C58, tungsten and iron.** The rate is the flux of the steady profile into a sphere with the sum of the radii, the clusters diffusing towards each other. -/
theorem sphere_flux (r0 r1 d0 d1 g : ℝ) (hr : 0 < r0 + r1) (hg : HasDerivAt (fun x : ℝ => 1 - (r0 + r1) / x) g (r0 + r1)) :
    sphereRate r0 r1 d0 d1 = (4 * π * (r0 + r1) ^ 2) * (d0 + d1) * g := by
  rw [hg.unique (profile_slope _ hr)]
  unfold sphereRate
  field_simp

/-- **C58, alloy and zirconium.** Two clusters that are not loops: the same, with the core radius added to the radii. -/
theorem core_flux (r0 r1 d0 d1 : ℝ) :
    (∀ k0 k1 : AlloyKind, k0 ∈ [AlloyKind.v, .void, .i] → k1 ∈ [AlloyKind.v, .void, .i] → alloyRate k0 k1 r0 r1 d0 d1 = sphereRate (r0 + 0.36) r1 d0 d1)
    ∧ (∀ (c0 c1 : Cl ZrKind) (p : ℝ) (t : ℕ), c0.size ≤ 9 → c1.size ≤ 9 → zrRate c0 c1 p t = some (sphereRate (c0.radius + 0.645) c1.radius c0.dc c1.dc)) := by
  constructor
  · intro k0 k1 h0 h1
    have s0 : k0.sphere = true := by cases k0 <;> simp_all [AlloyKind.sphere]
    have s1 : k1.sphere = true := by cases k1 <;> simp_all [AlloyKind.sphere]
    simp only [alloyRate, s0, s1, Bool.and_self, if_true, alloyZs, alloyCore, sphereRate]
    ring
  · intro c0 c1 p t h0 h1
    unfold zrRate
    rw [if_neg (by unfold ZrLoop; omega), if_neg (by unfold ZrLoop; omega)]
    simp only [zrCore, sphereRate, Option.some.injEq]
    ring

/-! ## Capture by loops -/

/-- **C58, alloy.** Capture of a cluster of radius `r0` by a loop of radius `r1`, where `ρ` is the radius of the loop over that of the other plus the core: the mean of the spherical and the toroidal coefficient with the weights `1` and `ρ²`, and a fifth more for interstitials.  Of two loops the larger one captures. -/
theorem alloy_loop (k0 k1 : AlloyKind) (r0 r1 d0 d1 ρ : ℝ) (hr : 0 ≤ r0) (hρ : ρ = r1 / (r0 + 0.36)) (h1 : k1 ∈ [AlloyKind.faulted, .perfect, .frank])
    (h0 : k0 ∈ [AlloyKind.v, .void, .i] ∨ r0 ≤ r1) :
    alloyRate k0 k1 r0 r1 d0 d1 * (1 + ρ ^ 2)
      = (d0 + d1) * (4 * π * (r0 + r1 + 0.36) + ρ ^ 2 * (4 * π ^ 2 * r1 / log (1 + 8 * ρ))) * (if k0 = .i then 1.2 else 1) := by
  have s1 : k1.sphere = false := by cases k1 <;> simp_all [AlloyKind.sphere]
  have n1 : k1 ≠ .i := by rintro rfl; simp at h1
  have hc : 0 < r0 + 0.36 := by linarith [show (0 : ℝ) < 0.36 by norm_num]
  have main : ∀ b : ℝ, alloyLoop (alloyZs r0 r1) r1 r0 (d0 + d1) * b * (1 + ρ ^ 2)
      = (d0 + d1) * (4 * π * (r0 + r1 + 0.36) + ρ ^ 2 * (4 * π ^ 2 * r1 / log (1 + 8 * ρ))) * b := by
    intro b
    unfold alloyLoop alloyZs alloyCore
    simp only []
    rw [show 8 * r1 / (r0 + 0.36) = 8 * ρ by rw [hρ]; ring, ← hρ]
    have : (1 + ρ ^ 2) ≠ 0 := by positivity
    have e : 1 / (1 + ρ ^ 2) * (1 + ρ ^ 2) = 1 := by field_simp
    generalize 1 / (1 + ρ ^ 2) = w at e ⊢
    generalize log (1 + 8 * ρ) = l
    linear_combination (b * (d0 + d1) * (4 * π * (r0 + r1 + 0.36) - 4 * π ^ 2 * r1 / l)) * e
  have hb : (if k0 = .i ∨ k1 = .i then (1.2 : ℝ) else 1) = if k0 = .i then 1.2 else 1 := by simp [n1]
  unfold alloyRate
  rw [hb]
  rcases hs : k0.sphere with _ | _
  · have hle : r0 ≤ r1 := h0.resolve_left (by intro h; cases k0 <;> simp_all [AlloyKind.sphere])
    simp only [s1, Bool.and_self, Bool.false_eq_true, if_false, Bool.not_false, if_true]
    rcases hle.lt_or_eq with h | rfl
    · rw [if_pos h, if_pos h]; exact main _
    · rw [if_neg (lt_irrefl _)]; exact main _
  · simp only [s1, Bool.and_false, Bool.false_eq_true, if_false, Bool.not_true, Bool.not_false, Bool.and_true, if_true]
    exact main _

/-- **C58, zirconium.** The capture efficiency of loops: `p` itself on the basal plane, one for vacancies and one percent more for interstitials when the diffusion is isotropic. -/
theorem efficiency_isotropic : zrEfficiency .basal 1 = some 1 ∧ zrEfficiency .v 1 = some 1 ∧ zrEfficiency .i 1 = some 1.01 := by
  refine ⟨rfl, ?_, ?_⟩ <;> simp only [zrEfficiency, one_ne_zero, if_false, Option.some.injEq] <;> norm_num

/-- **C58, zirconium.** A loop captures vacancies with the capture radius for vacancies and anything else with the one for interstitials.  Small loops on the basal plane are spheres; for the others the spherical and the toroidal coefficient, times the efficiency, have the weights `1` and `ρ²`. -/
theorem zr_loop (c o : Cl ZrKind) (p : ℝ) (t : ℕ) (rd ρ : ℝ) (hl : 9 < c.size) (hc : 0 < c.radius) (ho : 0 < o.radius) (hrd : 0 ≤ rd) (hp : 0 < p)
    (hv : o.kind = .v → rd = c.rdV) (hi : o.kind ≠ .v → rd = c.rdI) (hρ : ρ = c.radius / (3 * (o.radius + rd))) :
    (c.kind = .basal → c.size < t → zrRate c o p t = some (4 * π * (c.radius + o.radius + rd) * (c.dc + o.dc)))
    ∧ (¬(c.kind = .basal ∧ c.size < t) → ∃ x e, zrRate c o p t = some x ∧ zrEfficiency c.kind p = some e
      ∧ x * (1 + ρ ^ 2) = (c.dc + o.dc) * (4 * π * (c.radius + o.radius + rd) + ρ ^ 2 * (4 * π ^ 2 * c.radius / log (1 + 24 * ρ)) * e)) := by
  have hrd' : zrRd c o = rd := by
    unfold zrRd
    split_ifs with h
    · exact (hv h).symm
    · exact (hi h).symm
  have hs : 0 < o.radius + rd := by linarith
  have base : zrRate c o p t = zrLoopRate c o p t (c.dc + o.dc) := by
    unfold zrRate
    rw [if_pos (show ZrLoop c from hl)]
  have ng : ¬(o.radius + rd ≤ 0 ∨ c.radius ≤ 0) := by push Not; exact ⟨hs, hc⟩
  rw [base]
  unfold zrLoopRate
  simp only [hrd']
  rw [if_neg ng]
  constructor
  · intro hk ht
    rw [if_pos ⟨hk, ht⟩, hk]
    simp only [zrEfficiency, Option.map_some, Option.some.injEq]
    ring
  · intro hn
    rw [if_neg hn]
    obtain ⟨e, he⟩ : ∃ e, zrEfficiency c.kind p = some e := by
      cases c.kind <;> simp [zrEfficiency, hp.ne']
    refine ⟨_, e, by rw [he]; rfl, he, ?_⟩
    rw [← hρ, show 8 * c.radius / (o.radius + rd) = 24 * ρ by rw [hρ]; field_simp; norm_num]
    have : (1 + ρ ^ 2) ≠ 0 := by positivity
    have h1 : (1 + ρ ^ 2)⁻¹ * (1 + ρ ^ 2) = 1 := inv_mul_cancel₀ this
    generalize (1 + ρ ^ 2)⁻¹ = w at h1 ⊢
    generalize log (1 + 24 * ρ) = l
    linear_combination ((c.dc + o.dc) * (4 * π * (c.radius + o.radius + rd) - 4 * π ^ 2 * c.radius / l * e)) * h1

/-! ## Binding energies of alloys -/

/-- The cube roots of four and nine. -/
theorem increment_three : (3 : ℝ) ^ (2 / 3 : ℝ) - 2 ^ (2 / 3 : ℝ) ≤ 0.5 := by
  have cube : ∀ x : ℝ, 0 ≤ x → (x ^ (2 / 3 : ℝ)) ^ 3 = x ^ 2 := by
    intro x hx
    rw [← rpow_natCast, ← rpow_mul hx, ← rpow_natCast]
    norm_num
  have a : (3 : ℝ) ^ (2 / 3 : ℝ) ≤ 2.081 := by
    refine le_of_pow_le_pow_left₀ (n := 3) (by norm_num) (by norm_num) ?_
    rw [cube 3 (by norm_num)]; norm_num
  have b : (1.587 : ℝ) ≤ 2 ^ (2 / 3 : ℝ) := by
    refine le_of_pow_le_pow_left₀ (n := 3) (by norm_num) (by positivity) ?_
    rw [cube 2 (by norm_num)]; norm_num
  linarith [show (2.081 : ℝ) - 1.587 ≤ 0.5 by norm_num]

/-- **C58, alloy binding energies.** From three vacancies on the energy of a vacancy in a vacancy cluster, a void or a faulted loop is the fit itself, between 0.3 and 1.9 eV and lower in the loop; every other dissociation has the largest energy, five eV, which makes it negligible. -/
theorem alloyBinding_fit (p1 p2 : AlloyKind) (n : ℝ) (hn : 3 ≤ n) :
    ((p1 = .v ∨ p2 = .v) →
      alloyBinding .v p1 p2 n = 1.9 - 3.1 * (n ^ (2 / 3 : ℝ) - (n - 1) ^ (2 / 3 : ℝ)) ∧ alloyBinding .void p1 p2 n = alloyBinding .v p1 p2 n
      ∧ alloyBinding .faulted p1 p2 n = 1.9 - 3.2 * (n ^ (2 / 3 : ℝ) - (n - 1) ^ (2 / 3 : ℝ))
      ∧ alloyBinding .faulted p1 p2 n < alloyBinding .void p1 p2 n ∧ 0.3 ≤ alloyBinding .faulted p1 p2 n ∧ alloyBinding .void p1 p2 n < 1.9)
    ∧ (∀ k : AlloyKind, k ∉ [AlloyKind.v, .void, .faulted] ∨ (p1 ≠ .v ∧ p2 ≠ .v) → alloyBinding k p1 p2 n = 5) := by
  have hx : n ^ (2 / 3 : ℝ) - (n - 1) ^ (2 / 3 : ℝ) ≤ 0.5 := by
    refine (increments 3 n (by norm_num) hn).trans ?_
    rw [show (3 : ℝ) - 1 = 2 by norm_num]
    exact increment_three
  have hx0 : 0 < n ^ (2 / 3 : ℝ) - (n - 1) ^ (2 / 3 : ℝ) := sub_pos.mpr (rpow_lt_rpow (by linarith) (by linarith) (by norm_num))
  constructor
  · intro h
    have fit : ∀ a : ℝ, 0 < a → a ≤ 3.2 → min 5 (max (alloyFit a n) 0.1) = 1.9 - a * (n ^ (2 / 3 : ℝ) - (n - 1) ^ (2 / 3 : ℝ)) := by
      intro a ha h'
      unfold alloyFit
      generalize n ^ (2 / 3 : ℝ) - (n - 1) ^ (2 / 3 : ℝ) = x at hx hx0
      have h1 : a * x ≤ 1.6 := by nlinarith
      have h2 : 0 < a * x := mul_pos ha hx0
      rw [max_eq_left (by norm_num at h1 ⊢; linarith), min_eq_right (by norm_num; linarith)]
    have e1 : alloyBinding .v p1 p2 n = 1.9 - 3.1 * (n ^ (2 / 3 : ℝ) - (n - 1) ^ (2 / 3 : ℝ)) := by
      rw [← fit 3.1 (by norm_num) (by norm_num)]; simp only [alloyBinding, if_pos h]
    have e2 : alloyBinding .void p1 p2 n = 1.9 - 3.1 * (n ^ (2 / 3 : ℝ) - (n - 1) ^ (2 / 3 : ℝ)) := by
      rw [← fit 3.1 (by norm_num) (by norm_num)]; simp only [alloyBinding, if_pos h]
    have e3 : alloyBinding .faulted p1 p2 n = 1.9 - 3.2 * (n ^ (2 / 3 : ℝ) - (n - 1) ^ (2 / 3 : ℝ)) := by
      rw [← fit 3.2 (by norm_num) (by norm_num)]; simp only [alloyBinding, if_pos h]
    refine ⟨e1, e2.trans e1.symm, e3, ?_, ?_, ?_⟩
    · rw [e2, e3]
      generalize n ^ (2 / 3 : ℝ) - (n - 1) ^ (2 / 3 : ℝ) = x at hx hx0
      norm_num; linarith
    · rw [e3]
      generalize n ^ (2 / 3 : ℝ) - (n - 1) ^ (2 / 3 : ℝ) = x at hx hx0
      norm_num at hx ⊢; linarith
    · rw [e2]
      generalize n ^ (2 / 3 : ℝ) - (n - 1) ^ (2 / 3 : ℝ) = x at hx hx0
      norm_num; linarith
  · intro k h
    have : (max 5 0.1 : ℝ) = 5 := by norm_num
    cases k <;> simp_all [alloyBinding]

/-! ## Examples -/

example : sphereRate 0.2 0.3 1 0 = (4 * π * (0.2 + 0.3) ^ 2) * (1 + 0) * (1 / (0.2 + 0.3)) := sphere_flux _ _ _ _ _ (by norm_num) (profile_slope _ (by norm_num))

example : alloyRate .i .perfect 0.14 1 3 0 * (1 + 2 ^ 2) = (3 + 0) * (4 * π * (0.14 + 1 + 0.36) + 2 ^ 2 * (4 * π ^ 2 * 1 / log (1 + 8 * 2))) * 1.2 := by
  have := alloy_loop .i .perfect 0.14 1 3 0 2 (by norm_num) (by norm_num) (by decide) (Or.inl (by decide))
  rwa [if_pos rfl] at this

example : zrRate ⟨.basal, 40, 1, 0, 0, 0.9, 0.8⟩ ⟨.v, 2, 0.2, 5, 1.1, 0.3, 0.2⟩ 1.1 325 = some (4 * π * (1 + 0.2 + 0.8) * (0 + 5)) :=
  (zr_loop ⟨.basal, 40, 1, 0, 0, 0.9, 0.8⟩ ⟨.v, 2, 0.2, 5, 1.1, 0.3, 0.2⟩ 1.1 325 0.8 _ (by norm_num) (by norm_num) (by norm_num) (by norm_num) (by norm_num) (fun _ => rfl)
    (fun h => absurd rfl h) rfl).1 rfl (by norm_num)

example : alloyBinding .perfect .v .perfect 40 = 5 := (alloyBinding_fit _ _ 40 (by norm_num)).2 _ (Or.inl (by decide))

example : 0.3 ≤ alloyBinding .faulted .v .faulted 40 := ((alloyBinding_fit .v .faulted 40 (by norm_num)).1 (Or.inl rfl)).2.2.2.2.1

/-- **C58, zirconium.** Vacancy clusters of up to six and interstitial clusters of up to three diffuse, each with the factor 1, and nothing else does. -/
theorem zr_mobile (k : ZrKind) (n : ℕ) : (zrDiffusionFactor k n = 1 ↔ (k = .v ∧ n ≤ 6) ∨ (k = .i ∧ n ≤ 3)) ∧ (zrDiffusionFactor k n ≠ 1 → zrDiffusionFactor k n = 0) := by
  unfold zrDiffusionFactor
  cases k <;> by_cases h6 : n ≤ 6 <;> by_cases h3 : n ≤ 3 <;> simp_all

example : zrDiffusionFactor .i 3 = 1 ∧ zrDiffusionFactor .i 4 = 0 :=
  ⟨(zr_mobile .i 3).1.mpr (Or.inr ⟨rfl, le_rfl⟩), (zr_mobile .i 4).2 fun h => by have := (zr_mobile .i 4).1.mp h; simp at this⟩

/-- **C58, zirconium sinks.** Of the interstitial clusters that do not diffuse, those of nine would have a sink of their own; the rate of larger ones does not depend on anything. -/
theorem zrSink_large (c : Cl ZrKind) (h : c.kind = .i) : (c.size = 9 → zrSink c = some (c.dc * 7.975e-8)) ∧ (9 < c.size → zrSink c = some 1) := by
  constructor
  · intro hs
    simp only [zrSink, h, hs, lt_irrefl, if_false, if_true]
    congr 1
    norm_num
    ring
  · intro hs
    simp [zrSink, h, show ¬c.size < 9 by omega, show c.size ≠ 9 by omega]

end Xolotl.Network.Rates
