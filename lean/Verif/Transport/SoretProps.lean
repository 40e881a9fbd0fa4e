import Verif.Transport.Soret
import Mathlib.Tactic.FieldSimp
import Mathlib.Tactic.Ring
import Mathlib.Tactic.Linarith
import Mathlib.Tactic.Positivity
import Mathlib.Tactic.NormNum

set_option linter.unusedSectionVars false

/-!
# Properties of thermo-migration (C29)
-/

namespace Xolotl.Transport.Soret

variable {K : Type*} [Field K] [LinearOrder K] [IsStrictOrderedRing K]

/-- Away from numerically empty stencils the rate is exactly the linear form in the concentrations with the reported coefficients.  Missing from the full claim: stencils whose three concentrations are below the machine epsilon, see `skipped_wrong`. -/
theorem rate_eq_partial (eps beta hL hR : K) (d t c old : S1 K) (h : eps ≤ |c.mid| ∨ eps ≤ |c.left| ∨ eps ≤ |c.right|) :
    rate beta hL hR d t c = (part eps beta hL hR d t c old).mid * c.mid + (part eps beta hL hR d t c old).left * c.left
      + (part eps beta hL hR d t c old).right * c.right := by
  unfold part
  rw [if_neg (by rintro ⟨a, b, e⟩; rcases h with h | h | h <;> linarith)]
  simp only [rate, div_eq_mul_inv, mul_inv]; ring

/-- The reported values do not depend on the concentrations, so that away from empty stencils every increment of the concentrations changes the rate by exactly the reported coefficients times the increments. -/
theorem rate_increment_partial (eps beta hL hR : K) (d t c c' old : S1 K)
    (h : eps ≤ |c.mid| ∨ eps ≤ |c.left| ∨ eps ≤ |c.right|) :
    rate beta hL hR d t c' - rate beta hL hR d t c
      = (part eps beta hL hR d t c old).mid * (c'.mid - c.mid) + (part eps beta hL hR d t c old).left * (c'.left - c.left)
        + (part eps beta hL hR d t c old).right * (c'.right - c.right) := by
  unfold part
  rw [if_neg (by rintro ⟨a, b, e⟩; rcases h with h | h | h <;> linarith)]
  simp only [rate, div_eq_mul_inv, mul_inv]; ring

example : rate (1 / 2 : ℚ) 1 2 ⟨3, 2, 5⟩ ⟨300, 310, 270⟩ ⟨7, 11, 13⟩
    = (-(3 * (310 + 1 / 2 * 270 - 3 / 2 * 300) / 3) - 1 / 2 * 3 * (-40) / 9) * 7 + 1 / 2 * 3 * (-40) / 9 * 11 + 1 / 2 * 3 * 40 / 9 * 13 := by
  rw [rate_eq_partial (1 / 1000000) _ _ _ _ _ _ ⟨0, 0, 0⟩ (Or.inl (by norm_num))]; norm_num [part]

/-- At an empty stencil the values already in the array (zeros, after the reset of the previous Jacobian) are kept although the derivative of the rate is not zero: the first atoms to arrive are not seen by the Jacobian. -/
theorem skipped_wrong : ∃ (eps beta hL hR : ℚ) (d t : S1 ℚ), 0 < eps ∧ 0 < hL ∧ 0 < hR ∧
    (part eps beta hL hR d t ⟨0, 0, 0⟩ ⟨0, 0, 0⟩).left = 0 ∧ ∀ δ : ℚ, δ ≠ 0 → rate beta hL hR d t ⟨0, δ, 0⟩ - rate beta hL hR d t ⟨0, 0, 0⟩ ≠ 0 * δ := by
  refine ⟨1 / 1000000, 1, 1, 1, ⟨1, 1, 1⟩, ⟨1, 2, 0⟩, by norm_num, by norm_num, by norm_num, by norm_num [part], fun δ hδ => ?_⟩
  norm_num [rate]
  exact hδ

/-- Without a temperature gradient nothing moves. -/
theorem isothermal (beta hL hR T : K) (d c : S1 K) : rate beta hL hR d ⟨T, T, T⟩ c = 0 := by
  simp only [rate]
  have : T + hL / hR * T - (1 + hL / hR) * T = 0 := by ring
  rw [this]; ring

example : rate (1 / 2 : ℚ) 1 2 ⟨3, 2, 5⟩ ⟨300, 300, 300⟩ ⟨7, 11, 13⟩ = 0 := isothermal _ _ _ _ _ _

theorem append_fold {α : Type*} (l m : List α) : l.foldl (fun l b => l ++ [b]) m = m ++ l := by
  induction l generalizing m with
  | nil => simp
  | cons a l ih => rw [List.foldl_cons, ih, List.append_assoc]; rfl

/-- After the first initialisation cluster and beta factor are at the same position. -/
theorem betas_first (ids : List ℕ) (found : List K) : betasAfter [] found = found ∧ clustersAfter [] ids = ids := by
  unfold betasAfter clustersAfter; rw [append_fold, append_fold]; simp

/-- After a second initialisation, the factors of the first are still in front: with a different set of mobile clusters they are the wrong ones. -/
theorem betas_stale (before found : List K) (i : ℕ) (h : i < before.length) : (betasAfter before found)[i]? = before[i]? := by
  unfold betasAfter; rw [append_fold, List.getElem?_append_left h]

example : (betasAfter [(65 : ℚ), 110] [128])[0]? = some 65 ∧ (clustersAfter [0, 1] [7])[0]? = some 7 :=
  ⟨by rw [betas_stale _ _ 0 (by norm_num)]; rfl, rfl⟩

end Xolotl.Transport.Soret
