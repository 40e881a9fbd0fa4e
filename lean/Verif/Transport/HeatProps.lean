import Verif.Transport.Heat
import Mathlib.Analysis.Calculus.Deriv.Add
import Mathlib.Analysis.Calculus.Deriv.Mul
import Mathlib.Analysis.Calculus.Deriv.Inv
import Mathlib.Analysis.Calculus.Deriv.Pow
import Mathlib.Tactic.FieldSimp
import Mathlib.Tactic.Ring
import Mathlib.Tactic.Linarith
import Mathlib.Tactic.NormNum

set_option linter.unusedSectionVars false

/-!
# Properties of the heat equation (C30)
-/

namespace Xolotl.Transport.Heat

open Finset Function

/-! ### Material functions -/

/-- `getDBeta` is the derivative of `getLocalHeatBeta`. -/
theorem hasDerivAt_beta (t : ℝ) : HasDerivAt (beta : ℝ → ℝ) (dBeta t) t := by
  have h := hasDerivAt_id t
  have := (((((((h.const_mul (-(24 / 10 ^ 13))).mul h).mul h).mul h).sub ((((h.const_mul (367 / 10 ^ 12)).mul h).mul h))).add
    ((h.const_mul (465 / 10 ^ 7)).mul h)).sub (h.const_mul (131 / 1000))).add_const 207 |>.mul_const (1 / 10 ^ 9 : ℝ)
  refine (this.congr_deriv ?_)
  simp only [dBeta, id, Pi.mul_apply]; ring

/-- `getDDBeta` is the derivative of `getDBeta`. -/
theorem hasDerivAt_dBeta (t : ℝ) : HasDerivAt (dBeta : ℝ → ℝ) (ddBeta t) t := by
  have h := hasDerivAt_id t
  have := ((((((h.const_mul (-(96 / 10 ^ 13))).mul h).mul h).sub (((h.const_mul (1101 / 10 ^ 12)).mul h))).add
    (h.const_mul (93 / 10 ^ 6))).sub_const (131 / 1000)).mul_const (1 / 10 ^ 9 : ℝ)
  refine (this.congr_deriv ?_)
  simp only [ddBeta, id, Pi.mul_apply]; ring

theorem hasDerivAt_capacity (t : ℝ) : HasDerivAt (capacity : ℝ → ℝ) (361 / 10 ^ 4 - 802 / 10 ^ 8 * t) t := by
  have h := hasDerivAt_id t
  have := (((h.const_mul (-(401 / 10 ^ 8))).mul h).add (h.const_mul (361 / 10 ^ 4))).add_const (119 : ℝ)
  refine (this.congr_deriv ?_)
  simp only [id]; ring

/-- `getDGamma` is the derivative of `getLocalHeatGamma` wherever the heat capacity is not zero. -/
theorem hasDerivAt_gamma (t : ℝ) (hc : capacity t ≠ 0) : HasDerivAt (gamma : ℝ → ℝ) (dGamma t) t := by
  have hd : (density : ℝ) ≠ 0 := by norm_num [density]
  have := ((hasDerivAt_capacity t).const_mul (density : ℝ)).inv (mul_ne_zero hd hc)
  have e : (gamma : ℝ → ℝ) = fun y => (density * capacity y)⁻¹ := by funext y; simp [gamma]
  rw [e]
  refine this.congr_deriv ?_
  unfold dGamma; field_simp

/-- `getBulkHeatFluxDerivative` is the derivative of `getBulkHeatFlux`. -/
theorem hasDerivAt_bulkFlux (t : ℝ) : HasDerivAt (bulkFlux : ℝ → ℝ) (dBulkFlux t) t := by
  have h := hasDerivAt_id t
  have := (((h.sub_const 273).const_mul (845 / 10 ^ 4)).const_add (-(87993 / 10 ^ 4))).mul_const (1 / 10 ^ 12 : ℝ)
  refine this.congr_deriv ?_
  unfold dBulkFlux; ring

example : capacity (300 : ℝ) ≠ 0 := by norm_num [capacity]

/-! ### Neighbours -/

/-- The right-hand side as a function of one temperature of the stencil. -/
noncomputable def along (p : Ctx ℝ) (xi : ℕ) (c : ℕ → ℝ) (j : ℕ) (t : ℝ) : ℝ := rhs p xi (update c j t)

theorem transverse_other (p : Ctx ℝ) (xi : ℕ) (c : ℕ → ℝ) (j : ℕ) (h1 : 1 ≤ j) (h2 : j ≤ 2) (t : ℝ) :
    transverse p xi (update c j t) = transverse p xi c := by
  unfold transverse
  refine sum_congr rfl fun d hd => ?_
  have := mem_Ico.mp hd
  rw [update_of_ne (by omega), update_of_ne (by omega), update_of_ne (by omega)]

theorem dAlpha_zero (p : Ctx ℝ) (xi : ℕ) : dAlpha p xi = 0 := rfl

/-- At every kind of grid point that is not at the interface, and in every dimension, the values reported for the left and right neighbours are the derivatives of the right-hand side. -/
theorem neighbours (p : Ctx ℝ) (xi : ℕ) (c : ℕ → ℝ) (hL : p.hL ≠ 0) (hR : p.hR ≠ 0) (hs : p.hL + p.hR ≠ 0)
    (hi : ¬atInterface p xi ∨ xi = p.surf) :
    HasDerivAt (along p xi c 1) (part p xi c).2.1 (c 1) ∧ HasDerivAt (along p xi c 2) (part p xi c).2.2 (c 2) := by
  have i1 := hasDerivAt_id (c 1)
  have i2 := hasDerivAt_id (c 2)
  have u10 : ∀ t, update c 1 t 0 = c 0 := fun t => update_of_ne (by norm_num) _ _
  have u20 : ∀ t, update c 2 t 0 = c 0 := fun t => update_of_ne (by norm_num) _ _
  have u12 : ∀ t, update c 1 t 2 = c 2 := fun t => update_of_ne (by norm_num) _ _
  have u21 : ∀ t, update c 2 t 1 = c 1 := fun t => update_of_ne (by norm_num) _ _
  have t1 := fun t => transverse_other p xi c 1 (by norm_num) (by norm_num) t
  have t2 := fun t => transverse_other p xi c 2 (by norm_num) (by norm_num) t
  unfold along rhs part
  simp only [u10, u20, u12, u21, t1, t2, update_self, dAlpha_zero]
  generalize hal : alpha p xi = al
  generalize beta (c 0) = b
  generalize gamma (c 0) = g
  generalize dBeta (c 0) = db
  generalize transverse p xi c = tr
  by_cases h1 : xi = p.surf
  · simp only [h1, true_or, if_true]
    refine ⟨(hasDerivAt_const _ _), ?_⟩
    have := (((i2.sub_const (c 0)).const_mul (2 * al * b * g / (p.hL * p.hR))).const_add
      (2 * p.flux * g / p.hL)).add_const (-p.flux * 0 * g / al + p.flux * p.flux * g * db / (al * b * b) + tr)
    refine (this.congr_deriv (by ring)).congr_of_eventuallyEq (Filter.Eventually.of_forall fun t => ?_)
    simp only [id]; ring
  · have hi' : ¬atInterface p xi := hi.resolve_right h1
    simp only [h1, hi', false_or, if_false]
    by_cases h2 : xi = p.bulk
    · simp only [h2, if_true]
      by_cases h3 : p.por ≥ 0
      · simp only [h3, if_true]
        refine ⟨?_, hasDerivAt_const _ _⟩
        have e := i1.sub_const (c 0)
        have := ((e.const_mul (2 * al * b * g * (1 - p.por) / (p.hL * (p.hL + p.hR)))).add
          ((e.mul e).const_mul (al * db * g * (1 + p.hR * p.por / p.hL) * (1 + p.hR * p.por / p.hL) / ((p.hL + p.hR) * (p.hL + p.hR))))).add_const tr
        refine (this.congr_deriv ?_).congr_of_eventuallyEq (Filter.Eventually.of_forall fun t => ?_)
        · simp only [id]; field_simp; ring
        · simp only [id, Pi.add_apply, Pi.mul_apply]; ring
      · simp only [h3, if_false]
        refine ⟨?_, hasDerivAt_const _ _⟩
        have := (((i1.sub_const (c 0)).const_mul (2 * al * b * g / (p.hL * p.hR))).const_add
          (-(2 * bulkFlux (c 0) * g / p.hR))).add_const (-bulkFlux (c 0) * 0 * g / al + bulkFlux (c 0) * bulkFlux (c 0) * g * db / (al * b * b) + tr)
        refine (this.congr_deriv (by ring)).congr_of_eventuallyEq (Filter.Eventually.of_forall fun t => ?_)
        simp only [id]; ring
    · simp only [h2, if_false]
      constructor
      · have e := i1.const_sub (c 2)
        have e2 := (i1.add_const (p.hL / p.hR * c 2)).sub_const ((1 + p.hL / p.hR) * c 0)
        have := ((e2.const_mul (2 * al * b * g / (p.hL * (p.hL + p.hR)))).add
          ((e.mul e).const_mul (al * db * g / ((p.hL + p.hR) * (p.hL + p.hR))))).add_const tr
        refine (this.congr_deriv ?_).congr_of_eventuallyEq (Filter.Eventually.of_forall fun t => ?_)
        · simp only [id]; field_simp; ring
        · simp only [id, Pi.add_apply, Pi.mul_apply]; ring
      · have e := i2.sub_const (c 1)
        have e2 := ((i2.const_mul (p.hL / p.hR)).const_add (c 1)).sub_const ((1 + p.hL / p.hR) * c 0)
        have := ((e2.const_mul (2 * al * b * g / (p.hL * (p.hL + p.hR)))).add
          ((e.mul e).const_mul (al * db * g / ((p.hL + p.hR) * (p.hL + p.hR))))).add_const tr
        refine (this.congr_deriv ?_).congr_of_eventuallyEq (Filter.Eventually.of_forall fun t => ?_)
        · simp only [id]; field_simp; ring
        · simp only [id, Pi.add_apply, Pi.mul_apply]; ring

/-- In two and three dimensions the values reported for the neighbours along the additional axes are the derivatives. -/
theorem neighbours_transverse (p : Ctx ℝ) (xi : ℕ) (c : ℕ → ℝ) (d : ℕ) (h1 : 1 ≤ d) (h2 : d < p.dim) (e : ℕ) (he : e = 1 ∨ e = 2) :
    HasDerivAt (along p xi c (2 * d + e)) (partT p xi c d) (c (2 * d + e)) := by
  have u : ∀ t j, j ≤ 2 → update c (2 * d + e) t j = c j := fun t j hj => update_of_ne (by omega) _ _
  have tr : ∀ t, transverse p xi (update c (2 * d + e) t) = partT p xi c d * t + (transverse p xi c - partT p xi c d * c (2 * d + e)) := by
    intro t
    unfold transverse partT
    rw [← sum_erase_add _ _ (mem_Ico.mpr ⟨h1, h2⟩ : d ∈ Ico 1 p.dim), ← sum_erase_add (Ico 1 p.dim) (fun d => alpha p xi * beta (c 0) * gamma (c 0) * p.s d * (c (2 * d + 1) + c (2 * d + 2) - 2 * c 0)) (mem_Ico.mpr ⟨h1, h2⟩ : d ∈ Ico 1 p.dim)]
    have : ∀ x ∈ (Ico 1 p.dim).erase d, alpha p xi * beta (update c (2 * d + e) t 0) * gamma (update c (2 * d + e) t 0) * p.s x *
        (update c (2 * d + e) t (2 * x + 1) + update c (2 * d + e) t (2 * x + 2) - 2 * update c (2 * d + e) t 0)
        = alpha p xi * beta (c 0) * gamma (c 0) * p.s x * (c (2 * x + 1) + c (2 * x + 2) - 2 * c 0) := by
      intro x hx
      have hne := (mem_erase.mp hx).1
      have hx1 := (mem_Ico.mp (mem_erase.mp hx).2).1
      rw [u t 0 (by omega), update_of_ne (by omega), update_of_ne (by omega)]
    rw [sum_congr rfl this, u t 0 (by omega)]
    rcases he with rfl | rfl
    · rw [update_self, update_of_ne (by omega)]; ring
    · rw [update_self, update_of_ne (by omega)]; ring
  unfold along rhs
  simp only [u _ 0 (by norm_num), u _ 1 (by norm_num), u _ 2 (by norm_num), tr]
  have := (((hasDerivAt_id (c (2 * d + e))).const_mul (partT p xi c d)).add_const (transverse p xi c - partT p xi c d * c (2 * d + e)))
  refine ((this.const_add _).congr_deriv (by ring))

/-! ### The point itself -/

/-- The derivative, at the middle point, of the sum over the additional dimensions. -/
theorem transverse_mid (p : Ctx ℝ) (xi : ℕ) (c : ℕ → ℝ) (hc : capacity (c 0) ≠ 0) :
    HasDerivAt (fun t => transverse p xi (update c 0 t))
      (∑ d ∈ Ico 1 p.dim, (alpha p xi * (dBeta (c 0) * gamma (c 0) + beta (c 0) * dGamma (c 0)) * p.s d * (c (2 * d + 1) + c (2 * d + 2) - 2 * c 0)
        - 2 * alpha p xi * beta (c 0) * gamma (c 0) * p.s d)) (c 0) := by
  unfold transverse
  have u : ∀ t j, j ≠ 0 → update c 0 t j = c j := fun t j hj => update_of_ne hj _ _
  have e : (fun t => ∑ d ∈ Ico 1 p.dim, alpha p xi * beta (update c 0 t 0) * gamma (update c 0 t 0) * p.s d *
        (update c 0 t (2 * d + 1) + update c 0 t (2 * d + 2) - 2 * update c 0 t 0))
      = fun t => ∑ d ∈ Ico 1 p.dim, alpha p xi * beta t * gamma t * p.s d * (c (2 * d + 1) + c (2 * d + 2) - 2 * t) := by
    funext t
    refine sum_congr rfl fun d _ => ?_
    rw [u t (2 * d + 1) (by omega), u t (2 * d + 2) (by omega), update_self]
  rw [e]
  refine HasDerivAt.fun_sum fun d _ => ?_
  have hb := hasDerivAt_beta (c 0)
  have hg := hasDerivAt_gamma (c 0) hc
  have := (((hb.mul hg).const_mul (alpha p xi * p.s d)).mul (((hasDerivAt_id (c 0)).const_mul 2).const_sub (c (2 * d + 1) + c (2 * d + 2))))
  refine (this.congr_deriv ?_).congr_of_eventuallyEq (Filter.Eventually.of_forall fun t => ?_)
  · simp only [id, Pi.mul_apply]; ring
  · simp only [id, Pi.mul_apply]; ring

/-- What the reported middle value lacks in two and three dimensions: the derivative of the conductivity and of the capacity in the transverse terms. -/
noncomputable def lackT (p : Ctx ℝ) (xi : ℕ) (c : ℕ → ℝ) : ℝ :=
  ∑ d ∈ Ico 1 p.dim, alpha p xi * (dBeta (c 0) * gamma (c 0) + beta (c 0) * dGamma (c 0)) * p.s d * (c (2 * d + 1) + c (2 * d + 2) - 2 * c 0)

/-- Interior points: the derivative of the right-hand side is the reported value plus `lackT`. -/
theorem interior_mid (p : Ctx ℝ) (xi : ℕ) (c : ℕ → ℝ) (hL : p.hL ≠ 0) (hR : p.hR ≠ 0) (hs : p.hL + p.hR ≠ 0) (hc : capacity (c 0) ≠ 0)
    (h1 : xi ≠ p.surf) (h2 : xi ≠ p.bulk) (hi : ¬atInterface p xi) :
    HasDerivAt (along p xi c 0) ((part p xi c).1 + lackT p xi c) (c 0) := by
  have hb := hasDerivAt_beta (c 0)
  have hdb := hasDerivAt_dBeta (c 0)
  have hg := hasDerivAt_gamma (c 0) hc
  have ht := transverse_mid p xi c hc
  have u1 : ∀ t, update c 0 t 1 = c 1 := fun t => update_of_ne (by norm_num) _ _
  have u2 : ∀ t, update c 0 t 2 = c 2 := fun t => update_of_ne (by norm_num) _ _
  unfold along rhs part midInner
  simp only [u1, u2, update_self, dAlpha_zero, h1, h2, hi, false_or, if_false]
  have e2 := ((hasDerivAt_id (c 0)).const_mul (1 + p.hL / p.hR)).const_sub (c 1 + p.hL / p.hR * c 2)
  have := (((hb.mul hg).mul e2).const_mul (2 * alpha p xi / (p.hL * (p.hL + p.hR)))).add
    ((hdb.mul hg).const_mul (alpha p xi * (c 2 - c 1) * (c 2 - c 1) / ((p.hL + p.hR) * (p.hL + p.hR)))) |>.add ht
  refine (this.congr_deriv ?_).congr_of_eventuallyEq (Filter.Eventually.of_forall fun t => ?_)
  · rw [sum_sub_distrib]; unfold lackT
    generalize ∑ d ∈ Ico 1 p.dim, 2 * alpha p xi * beta (c 0) * gamma (c 0) * p.s d = S
    generalize ∑ d ∈ Ico 1 p.dim, alpha p xi * (dBeta (c 0) * gamma (c 0) + beta (c 0) * dGamma (c 0)) * p.s d * (c (2 * d + 1) + c (2 * d + 2) - 2 * c 0) = L
    simp only [id, Pi.mul_apply]
    generalize beta (c 0) = b
    generalize gamma (c 0) = g
    generalize dGamma (c 0) = dg
    generalize dBeta (c 0) = db
    generalize ddBeta (c 0) = ddb
    field_simp
    ring
  · simp only [id, Pi.add_apply, Pi.mul_apply]; ring

/-- In one dimension nothing is lacking: at interior points all reported values are the derivatives.  Missing from the full claim: points at the interface (`interface_wrong`), the surface and the bulk (`surface_mid`, `bulk_mid`, `bulk_flux_mid`) and more dimensions (`interior_mid` with `lackT`). -/
theorem interior_partial (p : Ctx ℝ) (xi : ℕ) (c : ℕ → ℝ) (hd : p.dim ≤ 1) (hL : p.hL ≠ 0) (hR : p.hR ≠ 0) (hs : p.hL + p.hR ≠ 0) (hc : capacity (c 0) ≠ 0)
    (h1 : xi ≠ p.surf) (h2 : xi ≠ p.bulk) (hi : ¬atInterface p xi) :
    HasDerivAt (along p xi c 0) (part p xi c).1 (c 0) ∧ HasDerivAt (along p xi c 1) (part p xi c).2.1 (c 1) ∧
      HasDerivAt (along p xi c 2) (part p xi c).2.2 (c 2) := by
  refine ⟨?_, neighbours p xi c hL hR hs (Or.inl hi)⟩
  have := interior_mid p xi c hL hR hs hc h1 h2 hi
  have e : lackT p xi c = 0 := by unfold lackT; rw [Ico_eq_empty (by omega), sum_empty]
  rwa [e, add_zero] at this

/-- Surface: the derivative of the right-hand side is the reported value plus an error.  The reported value multiplies by `alpha * beta³` where the derivative divides by it, and in two and three dimensions the transverse terms are dropped altogether. -/
theorem surface_mid (p : Ctx ℝ) (c : ℕ → ℝ) (hL : p.hL ≠ 0) (hR : p.hR ≠ 0) (hc : capacity (c 0) ≠ 0) (hb0 : beta (c 0) ≠ 0) :
    HasDerivAt (along p p.surf c 0)
      ((part p p.surf c).1
        + 2 * p.flux * p.flux * gamma (c 0) * dBeta (c 0) * dBeta (c 0)
            * (alpha p p.surf * beta (c 0) ^ 3 - 1 / (alpha p p.surf * beta (c 0) ^ 3))
        + (lackT p p.surf c - ∑ d ∈ Ico 1 p.dim, 2 * alpha p p.surf * beta (c 0) * gamma (c 0) * p.s d)) (c 0) := by
  have hal : alpha p p.surf ≠ 0 := by unfold alpha; split_ifs <;> norm_num
  have hb := hasDerivAt_beta (c 0)
  have hdb := hasDerivAt_dBeta (c 0)
  have hg := hasDerivAt_gamma (c 0) hc
  have ht := transverse_mid p p.surf c hc
  have u1 : ∀ t, update c 0 t 1 = c 1 := fun t => update_of_ne (by norm_num) _ _
  have u2 : ∀ t, update c 0 t 2 = c 2 := fun t => update_of_ne (by norm_num) _ _
  unfold along rhs part
  simp only [u1, u2, update_self, dAlpha_zero, true_or, if_true]
  have hden : alpha p p.surf * beta (c 0) * beta (c 0) ≠ 0 := mul_ne_zero (mul_ne_zero hal hb0) hb0
  have e2 := (hasDerivAt_id (c 0)).const_sub (c 2)
  have := (((hg.const_mul (2 * p.flux / p.hL)).add (((hb.mul hg).mul e2).const_mul (2 * alpha p p.surf / (p.hL * p.hR)))).add
    (((hg.mul hdb).const_mul (p.flux * p.flux)).div ((hb.const_mul (alpha p p.surf)).mul hb) hden)).add ht
  refine (this.congr_deriv ?_).congr_of_eventuallyEq (Filter.Eventually.of_forall fun t => ?_)
  · rw [sum_sub_distrib]; unfold lackT
    generalize ∑ d ∈ Ico 1 p.dim, 2 * alpha p p.surf * beta (c 0) * gamma (c 0) * p.s d = S
    generalize ∑ d ∈ Ico 1 p.dim, alpha p p.surf * (dBeta (c 0) * gamma (c 0) + beta (c 0) * dGamma (c 0)) * p.s d * (c (2 * d + 1) + c (2 * d + 2) - 2 * c 0) = L
    simp only [id, Pi.mul_apply]
    generalize beta (c 0) = b at *
    generalize gamma (c 0) = g
    generalize dGamma (c 0) = dg
    generalize dBeta (c 0) = db
    generalize ddBeta (c 0) = ddb
    generalize alpha p p.surf = al at *
    field_simp
    ring
  · simp only [id, Pi.add_apply, Pi.mul_apply, Pi.div_apply]; ring

/-- With a heat flux and the conductivity of tungsten at 300 K the reported value is not the derivative, already in one dimension. -/
theorem surface_wrong (p : Ctx ℝ) (c : ℕ → ℝ) (hd : p.dim ≤ 1) (hL : p.hL ≠ 0) (hR : p.hR ≠ 0) (h300 : c 0 = 300) (hf : p.flux ≠ 0) :
    ¬HasDerivAt (along p p.surf c 0) (part p p.surf c).1 (c 0) := by
  intro h
  have hb : beta (300 : ℝ) ≠ 0 := by norm_num [beta]
  have hc : capacity (300 : ℝ) ≠ 0 := by norm_num [capacity]
  have h2 := surface_mid p c hL hR (h300 ▸ hc) (h300 ▸ hb)
  have e := h.unique h2
  have el : lackT p p.surf c = 0 := by unfold lackT; rw [Ico_eq_empty (by omega), sum_empty]
  rw [el, Ico_eq_empty (by omega), sum_empty, sub_zero, add_zero, left_eq_add, h300] at e
  have hdb : dBeta (300 : ℝ) ≠ 0 := by norm_num [dBeta]
  have hg : gamma (300 : ℝ) ≠ 0 := by norm_num [gamma, capacity, density]
  have hal : alpha p p.surf = 1 / 5 ∨ alpha p p.surf = 1 := by unfold alpha; split_ifs <;> simp
  have hne : alpha p p.surf * beta (300 : ℝ) ^ 3 - 1 / (alpha p p.surf * beta (300 : ℝ) ^ 3) ≠ 0 := by
    rcases hal with h | h <;> rw [h] <;> norm_num [beta]
  exact absurd e (mul_ne_zero (mul_ne_zero (mul_ne_zero (mul_ne_zero (mul_ne_zero (mul_ne_zero (by norm_num) hf) hf) hg) hdb) hdb) hne)

/-- Bulk with a heat-loss portion: the reported middle value lacks the derivative of the conductivity and of the capacity. -/
theorem bulk_mid (p : Ctx ℝ) (c : ℕ → ℝ) (hL : p.hL ≠ 0) (hs : p.hL + p.hR ≠ 0) (hc : capacity (c 0) ≠ 0)
    (hne : p.bulk ≠ p.surf) (hi : ¬atInterface p p.bulk) (hp : 0 ≤ p.por) :
    HasDerivAt (along p p.bulk c 0)
      ((part p p.bulk c).1
        + (2 * alpha p p.bulk * (dBeta (c 0) * gamma (c 0) + beta (c 0) * dGamma (c 0)) * (1 - p.por) * (c 1 - c 0) / (p.hL * (p.hL + p.hR))
          + alpha p p.bulk * (ddBeta (c 0) * gamma (c 0) + dBeta (c 0) * dGamma (c 0)) * (1 + p.hR * p.por / p.hL) ^ 2 * (c 1 - c 0) ^ 2 / (p.hL + p.hR) ^ 2)
        + (lackT p p.bulk c - ∑ d ∈ Ico 1 p.dim, 2 * alpha p p.bulk * beta (c 0) * gamma (c 0) * p.s d)) (c 0) := by
  have hb := hasDerivAt_beta (c 0)
  have hdb := hasDerivAt_dBeta (c 0)
  have hg := hasDerivAt_gamma (c 0) hc
  have ht := transverse_mid p p.bulk c hc
  have u1 : ∀ t, update c 0 t 1 = c 1 := fun t => update_of_ne (by norm_num) _ _
  have u2 : ∀ t, update c 0 t 2 = c 2 := fun t => update_of_ne (by norm_num) _ _
  unfold along rhs part
  simp only [u1, u2, update_self, dAlpha_zero, hne, hi, false_or, if_false, if_true, hp]
  have e2 := (hasDerivAt_id (c 0)).const_sub (c 1)
  have := (((hb.mul hg).mul e2).const_mul (2 * alpha p p.bulk * (1 - p.por) / (p.hL * (p.hL + p.hR)))).add
    (((hdb.mul hg).mul (e2.mul e2)).const_mul (alpha p p.bulk * (1 + p.hR * p.por / p.hL) * (1 + p.hR * p.por / p.hL) / ((p.hL + p.hR) * (p.hL + p.hR)))) |>.add ht
  refine (this.congr_deriv ?_).congr_of_eventuallyEq (Filter.Eventually.of_forall fun t => ?_)
  · rw [sum_sub_distrib]; unfold lackT
    generalize ∑ d ∈ Ico 1 p.dim, 2 * alpha p p.bulk * beta (c 0) * gamma (c 0) * p.s d = S
    generalize ∑ d ∈ Ico 1 p.dim, alpha p p.bulk * (dBeta (c 0) * gamma (c 0) + beta (c 0) * dGamma (c 0)) * p.s d * (c (2 * d + 1) + c (2 * d + 2) - 2 * c 0) = L
    simp only [id, Pi.mul_apply]
    generalize beta (c 0) = b
    generalize gamma (c 0) = g
    generalize dGamma (c 0) = dg
    generalize dBeta (c 0) = db
    generalize ddBeta (c 0) = ddb
    field_simp
    ring
  · simp only [id, Pi.add_apply, Pi.mul_apply]; ring

/-- Bulk with the bulk heat flux: same error as at the surface. -/
theorem bulk_flux_mid (p : Ctx ℝ) (c : ℕ → ℝ) (hL : p.hL ≠ 0) (hR : p.hR ≠ 0) (hc : capacity (c 0) ≠ 0) (hb0 : beta (c 0) ≠ 0)
    (hne : p.bulk ≠ p.surf) (hi : ¬atInterface p p.bulk) (hp : ¬0 ≤ p.por) :
    HasDerivAt (along p p.bulk c 0)
      ((part p p.bulk c).1
        + 2 * bulkFlux (c 0) * bulkFlux (c 0) * gamma (c 0) * dBeta (c 0) * dBeta (c 0)
            * (alpha p p.bulk * beta (c 0) ^ 3 - 1 / (alpha p p.bulk * beta (c 0) ^ 3))
        + (lackT p p.bulk c - ∑ d ∈ Ico 1 p.dim, 2 * alpha p p.bulk * beta (c 0) * gamma (c 0) * p.s d)) (c 0) := by
  have hal : alpha p p.bulk ≠ 0 := by unfold alpha; split_ifs <;> norm_num
  have hb := hasDerivAt_beta (c 0)
  have hdb := hasDerivAt_dBeta (c 0)
  have hg := hasDerivAt_gamma (c 0) hc
  have hf := hasDerivAt_bulkFlux (c 0)
  have ht := transverse_mid p p.bulk c hc
  have u1 : ∀ t, update c 0 t 1 = c 1 := fun t => update_of_ne (by norm_num) _ _
  have u2 : ∀ t, update c 0 t 2 = c 2 := fun t => update_of_ne (by norm_num) _ _
  unfold along rhs part
  simp only [u1, u2, update_self, dAlpha_zero, hne, hi, false_or, if_false, if_true, hp]
  have hden : alpha p p.bulk * beta (c 0) * beta (c 0) ≠ 0 := mul_ne_zero (mul_ne_zero hal hb0) hb0
  have e2 := (hasDerivAt_id (c 0)).const_sub (c 1)
  have := ((((hf.mul hg).const_mul (-2 / p.hR)).add (((hb.mul hg).mul e2).const_mul (2 * alpha p p.bulk / (p.hL * p.hR)))).add
    (((hf.mul hf).mul (hg.mul hdb)).div ((hb.const_mul (alpha p p.bulk)).mul hb) hden)).add ht
  refine (this.congr_deriv ?_).congr_of_eventuallyEq (Filter.Eventually.of_forall fun t => ?_)
  · rw [sum_sub_distrib]; unfold lackT
    generalize ∑ d ∈ Ico 1 p.dim, 2 * alpha p p.bulk * beta (c 0) * gamma (c 0) * p.s d = S
    generalize ∑ d ∈ Ico 1 p.dim, alpha p p.bulk * (dBeta (c 0) * gamma (c 0) + beta (c 0) * dGamma (c 0)) * p.s d * (c (2 * d + 1) + c (2 * d + 2) - 2 * c 0) = L
    simp only [id, Pi.mul_apply]
    generalize beta (c 0) = b at *
    generalize gamma (c 0) = g
    generalize dGamma (c 0) = dg
    generalize dBeta (c 0) = db
    generalize ddBeta (c 0) = ddb
    generalize bulkFlux (c 0) = bf
    generalize dBulkFlux (c 0) = dbf
    generalize alpha p p.bulk = al at *
    field_simp
    ring
  · simp only [id, Pi.add_apply, Pi.mul_apply, Pi.div_apply]; ring

/-- At a point of the interface the right-hand side is the one of an interior point, but the reported values are those of the surface: the derivative in the left temperature of a flat profile is not the reported zero. -/
theorem interface_wrong (p : Ctx ℝ) (xi : ℕ) (c : ℕ → ℝ) (hL : p.hL ≠ 0) (hs : p.hL + p.hR ≠ 0)
    (h1 : xi ≠ p.surf) (h2 : xi ≠ p.bulk) (hi : atInterface p xi) (hflat : c 1 = c 2) (h300 : c 0 = 300) :
    (part p xi c).2.1 = 0 ∧ ¬HasDerivAt (along p xi c 1) (part p xi c).2.1 (c 1) := by
  have hz : (part p xi c).2.1 = 0 := by unfold part; simp [hi]
  refine ⟨hz, fun h => ?_⟩
  rw [hz] at h
  -- the same point with the interface moved away has the same right-hand side up to `alpha`
  have i1 := hasDerivAt_id (c 1)
  have u10 : ∀ t, update c 1 t 0 = c 0 := fun t => update_of_ne (by norm_num) _ _
  have u12 : ∀ t, update c 1 t 2 = c 2 := fun t => update_of_ne (by norm_num) _ _
  have t1 := fun t => transverse_other p xi c 1 (by norm_num) (by norm_num) t
  have hd : HasDerivAt (along p xi c 1) (2 * alpha p xi * beta (c 0) * gamma (c 0) / (p.hL * (p.hL + p.hR))) (c 1) := by
    unfold along rhs
    simp only [u10, u12, t1, update_self, dAlpha_zero, h1, h2, if_false]
    have e := i1.const_sub (c 2)
    have e2 := (i1.add_const (p.hL / p.hR * c 2)).sub_const ((1 + p.hL / p.hR) * c 0)
    have := ((e2.const_mul (2 * alpha p xi * beta (c 0) * gamma (c 0) / (p.hL * (p.hL + p.hR)))).add
      ((e.mul e).const_mul (alpha p xi * dBeta (c 0) * gamma (c 0) / ((p.hL + p.hR) * (p.hL + p.hR))))).add_const (transverse p xi c)
    refine (this.congr_deriv ?_).congr_of_eventuallyEq (Filter.Eventually.of_forall fun t => ?_)
    · simp only [id, hflat]; ring
    · simp only [id, Pi.add_apply, Pi.mul_apply]; ring
  have e := h.unique hd
  have hb : beta (300 : ℝ) ≠ 0 := by norm_num [beta]
  have hg : gamma (300 : ℝ) ≠ 0 := by norm_num [gamma, capacity, density]
  have hal : alpha p xi ≠ 0 := by unfold alpha; split_ifs <;> norm_num
  rw [h300] at e
  exact absurd e.symm (div_ne_zero (mul_ne_zero (mul_ne_zero (mul_ne_zero (by norm_num) hal) hb) hg) (mul_ne_zero hL hs))

/-! ### A concrete case -/

/-- A grid of spacing 1 with the surface at index 0, the bulk at index 9 and an interface at depth 4.5, in one dimension. -/
noncomputable def sample : Ctx ℝ := ⟨1, 0, 9, fun i => (i : ℝ) - 1, 9 / 2, 1 / 2, 1, 1, 1, fun _ => 0⟩

example : HasDerivAt (along sample 2 (fun i => 300 + i) 0) (part sample 2 (fun i => 300 + i)).1 (300 + ((0 : ℕ) : ℝ)) :=
  (interior_partial sample 2 (fun i => 300 + i) (by norm_num [sample]) (by norm_num [sample]) (by norm_num [sample]) (by norm_num [sample])
    (by norm_num [capacity]) (by norm_num [sample]) (by norm_num [sample]) (by unfold atInterface; norm_num [sample])).1

example : ¬HasDerivAt (along sample 0 (fun _ => 300) 0) (part sample 0 (fun _ => 300)).1 300 :=
  surface_wrong sample (fun _ => 300) (by norm_num [sample]) (by norm_num [sample]) (by norm_num [sample]) rfl (by norm_num [sample])

example : (part sample 5 (fun _ => 300)).2.1 = 0 ∧ ¬HasDerivAt (along sample 5 (fun _ => 300) 1) (part sample 5 (fun _ => 300)).2.1 300 :=
  interface_wrong sample 5 (fun _ => 300) (by norm_num [sample]) (by norm_num [sample]) (by norm_num [sample]) (by norm_num [sample])
    (by unfold atInterface; norm_num [sample]) rfl rfl

example : HasDerivAt (along sample 9 (fun i => 300 + i) 1) (part sample 9 (fun i => 300 + i)).2.1 (300 + ((1 : ℕ) : ℝ)) :=
  (neighbours sample 9 (fun i => 300 + i) (by norm_num [sample]) (by norm_num [sample]) (by norm_num [sample])
    (Or.inl (by unfold atInterface; norm_num [sample]))).1

/-- **C30, interface.** A fifth of the conductivity at points less deep than the interface, measured from the surface; the full one from the interface on. -/
theorem alpha_spec {K : Type*} [Field K] [LinearOrder K] [IsStrictOrderedRing K] (p : Ctx K) (xi : ℕ) :
    (p.grid (xi + 1) < p.grid (p.surf + 1) + p.loc → alpha p xi = 1 / 5) ∧ (p.grid (p.surf + 1) + p.loc ≤ p.grid (xi + 1) → alpha p xi = 1) := by
  unfold alpha
  constructor
  · intro h; rw [if_pos (by linarith)]
  · intro h; rw [if_neg (by linarith)]

/-- **C30, interface.** The point treated as the interface is the first one with the full conductivity: its shallower neighbour has a fifth of it. -/
theorem atInterface_spec {K : Type*} [Field K] [LinearOrder K] [IsStrictOrderedRing K] (p : Ctx K) (xi : ℕ) :
    atInterface p (xi + 1) ↔ alpha p xi = 1 / 5 ∧ alpha p (xi + 1) = 1 := by
  have hne : (1 : K) ≠ 1 / 5 := by norm_num
  have hne' : (1 / 5 : K) ≠ 1 := by norm_num
  unfold atInterface alpha
  split_ifs with h1 h2 h2 <;> simp_all

/-- **C30, interface.** On an increasing grid there is at most one interface point. -/
theorem atInterface_unique {K : Type*} [Field K] [LinearOrder K] [IsStrictOrderedRing K] (p : Ctx K) (hg : StrictMono p.grid) (x y : ℕ)
    (hx : atInterface p x) (hy : atInterface p y) : x = y := by
  unfold atInterface at hx hy
  by_contra hne
  rcases lt_or_gt_of_ne hne with h | h
  · have := hg.monotone (show x + 1 ≤ y from h); linarith [hx.2, hy.1]
  · have := hg.monotone (show y + 1 ≤ x from h); linarith [hy.2, hx.1]

example : atInterface sample 5 ∧ alpha sample 4 = 1 / 5 ∧ alpha sample 5 = 1 := by
  unfold atInterface alpha; norm_num [sample]

end Xolotl.Transport.Heat
