import Verif.Network.Region
import Verif.Util.MathSumsProps

/-!
# C02: the overlap counts the composition quadruples; axis sums are lattice sums over them
-/

set_option linter.unusedSectionVars false

namespace Xolotl.Network

open Xolotl.Util

variable {K : Type*} [Field K] [LinearOrder K] [IsStrictOrderedRing K]

theorem mem_pts {I : Ival} {x : ℤ} : x ∈ I.pts ↔ I.b ≤ x ∧ x < I.e := by
  simp [Ival.pts]

/-- Membership in the specification set, spelled out. -/
theorem mem_quads {c1 c2 p1 p2 : Ival} {a l c m : ℤ} :
    (a, l, c, m) ∈ quads c1 c2 p1 p2 ↔
      (c1.b ≤ a ∧ a < c1.e) ∧ (c2.b ≤ l ∧ l < c2.e) ∧ (p1.b ≤ c ∧ c < p1.e) ∧
      (p2.b ≤ m ∧ m < p2.e) ∧ a + l = c + m := by
  simp only [quads, Finset.mem_filter, Finset.mem_product, mem_pts]
  tauto

/-- Parametrisation of the quadruples by second product, second reactant and first reactant. -/
theorem sum_quads_r1 (c1 c2 p1 p2 : Ival) (g : Quad → K) :
    ∑ q ∈ quads c1 c2 p1 p2, g q
      = ∑ m ∈ p2.pts, ∑ l ∈ c2.pts,
          ∑ a ∈ Finset.Icc (max (p1.b + m - l) c1.b) (min (p1.e - 1 + m - l) (c1.e - 1)),
            g (a, l, a + l - m, m) := by
  rw [Finset.sum_sigma' p2.pts, Finset.sum_sigma']
  refine Finset.sum_bij' (fun q _ => ⟨⟨q.2.2.2, q.2.1⟩, q.1⟩)
    (fun s _ => (s.2, s.1.2, s.2 + s.1.2 - s.1.1, s.1.1)) ?_ ?_ ?_ ?_ ?_
  · rintro ⟨a, l, c, m⟩ h
    rw [mem_quads] at h
    simp only [Finset.mem_sigma, mem_pts, Finset.mem_Icc, max_le_iff, le_min_iff]
    omega
  · rintro ⟨⟨m, l⟩, a⟩ h
    simp only [Finset.mem_sigma, mem_pts, Finset.mem_Icc, max_le_iff, le_min_iff] at h
    rw [mem_quads]
    dsimp only
    omega
  · rintro ⟨a, l, c, m⟩ h
    rw [mem_quads] at h
    simp only [Prod.mk.injEq, true_and, and_true]
    omega
  · rintro ⟨⟨m, l⟩, a⟩ h
    rfl
  · rintro ⟨a, l, c, m⟩ h
    rw [mem_quads] at h
    have : c = a + l - m := by omega
    subst this; rfl

/-- Exchanging the two reactants. -/
theorem sum_quads_swapR (c1 c2 p1 p2 : Ival) (g : Quad → K) :
    ∑ q ∈ quads c1 c2 p1 p2, g q
      = ∑ q ∈ quads c2 c1 p1 p2, g (q.2.1, q.1, q.2.2.1, q.2.2.2) := by
  refine Finset.sum_bij' (fun q _ => (q.2.1, q.1, q.2.2.1, q.2.2.2))
    (fun q _ => (q.2.1, q.1, q.2.2.1, q.2.2.2)) ?_ ?_ ?_ ?_ ?_
  · rintro ⟨a, l, c, m⟩ h; rw [mem_quads] at *; dsimp only; omega
  · rintro ⟨a, l, c, m⟩ h; rw [mem_quads] at *; dsimp only; omega
  · rintro ⟨a, l, c, m⟩ h; rfl
  · rintro ⟨a, l, c, m⟩ h; rfl
  · rintro ⟨a, l, c, m⟩ h; rfl

/-- Exchanging the two products. -/
theorem sum_quads_swapP (c1 c2 p1 p2 : Ival) (g : Quad → K) :
    ∑ q ∈ quads c1 c2 p1 p2, g q
      = ∑ q ∈ quads c1 c2 p2 p1, g (q.1, q.2.1, q.2.2.2, q.2.2.1) := by
  refine Finset.sum_bij' (fun q _ => (q.1, q.2.1, q.2.2.2, q.2.2.1))
    (fun q _ => (q.1, q.2.1, q.2.2.2, q.2.2.1)) ?_ ?_ ?_ ?_ ?_
  · rintro ⟨a, l, c, m⟩ h; rw [mem_quads] at *; dsimp only; omega
  · rintro ⟨a, l, c, m⟩ h; rw [mem_quads] at *; dsimp only; omega
  · rintro ⟨a, l, c, m⟩ h; rfl
  · rintro ⟨a, l, c, m⟩ h; rfl
  · rintro ⟨a, l, c, m⟩ h; rfl

/-- Exchanging reactants and products. -/
theorem sum_quads_swapRP (c1 c2 p1 p2 : Ival) (g : Quad → K) :
    ∑ q ∈ quads c1 c2 p1 p2, g q
      = ∑ q ∈ quads p1 p2 c1 c2, g (q.2.2.1, q.2.2.2, q.1, q.2.1) := by
  refine Finset.sum_bij' (fun q _ => (q.2.2.1, q.2.2.2, q.1, q.2.1))
    (fun q _ => (q.2.2.1, q.2.2.2, q.1, q.2.1)) ?_ ?_ ?_ ?_ ?_
  · rintro ⟨a, l, c, m⟩ h; rw [mem_quads] at *; dsimp only; omega
  · rintro ⟨a, l, c, m⟩ h; rw [mem_quads] at *; dsimp only; omega
  · rintro ⟨a, l, c, m⟩ h; rfl
  · rintro ⟨a, l, c, m⟩ h; rfl
  · rintro ⟨a, l, c, m⟩ h; rfl

/-- **C02 (one axis)** The width accumulated by `computeOverlap` is the number of quadruples. -/
theorem overlapWidth_eq_card (c1 c2 p1 p2 : Ival) :
    (overlapWidth c1 c2 p1 p2 : K) = ((quads c1 c2 p1 p2).card : K) := by
  have h := sum_quads_r1 (K := K) c1 c2 p1 p2 (fun _ => 1)
  rw [Finset.sum_const, nsmul_eq_mul, mul_one] at h
  rw [h, overlapWidth]
  refine Finset.sum_congr rfl fun m _ => Finset.sum_congr rfl fun l _ => ?_
  rw [Finset.sum_const, nsmul_eq_mul, mul_one, Int.card_Icc, cmax_eq_max]
  set u : ℤ := min (c1.e - 1 + l) (p1.e - 1 + m) - max (c1.b + l) (p1.b + m) with hu
  have h2 : min (p1.e - 1 + m - l) (c1.e - 1) + 1 - max (p1.b + m - l) c1.b = u + 1 := by
    rw [hu]; omega
  rw [h2]
  rcases le_or_gt 0 (u + 1) with h0 | h0
  · have : ((u + 1).toNat : K) = (((u + 1).toNat : ℤ) : K) := by push_cast; rfl
    rw [this, Int.toNat_of_nonneg h0, max_eq_right]
    · push_cast; rfl
    · exact_mod_cast h0
  · rw [Int.toNat_of_nonpos h0.le, Nat.cast_zero, max_eq_left]
    have : ((u + 1 : ℤ) : K) < 0 := by exact_mod_cast h0
    push_cast at this
    exact this.le

/-- Positive overlap is the same as the existence of a reachable composition quadruple. -/
theorem overlapWidth_pos_iff (c1 c2 p1 p2 : Ival) :
    0 < (overlapWidth c1 c2 p1 p2 : K) ↔ ∃ a l c m : ℤ,
      (c1.b ≤ a ∧ a < c1.e) ∧ (c2.b ≤ l ∧ l < c2.e) ∧ (p1.b ≤ c ∧ c < p1.e) ∧
      (p2.b ≤ m ∧ m < p2.e) ∧ a + l = c + m := by
  rw [overlapWidth_eq_card, Nat.cast_pos, Finset.card_pos]
  constructor
  · rintro ⟨⟨a, l, c, m⟩, h⟩
    exact ⟨a, l, c, m, mem_quads.mp h⟩
  · rintro ⟨a, l, c, m, h⟩
    exact ⟨(a, l, c, m), mem_quads.mpr h⟩

/-- The example in the source comment: `X_[3,5) + X_[5,7) -> X_[9,11)` has width 3. -/
example : (overlapWidth ⟨3, 5⟩ ⟨5, 7⟩ ⟨9, 11⟩ ⟨0, 1⟩ : ℚ) = 3 := by decide +kernel

/-- First order sum over quadruples. -/
theorem computeFirstOrderSum_eq (c1 c2 c3 c4 : Ival) :
    (computeFirstOrderSum c1 c2 c3 c4 : K)
      = ∑ q ∈ quads c1 c2 c3 c4, ((q.1 : K) - c1.mid) := by
  rw [sum_quads_r1, computeFirstOrderSum]
  exact Finset.sum_congr rfl fun m _ => Finset.sum_congr rfl fun l _ => firstOrderSum_eq _ _ _

/-- Second order sum over quadruples. -/
theorem computeSecondOrderSum_eq (c1 c2 c3 c4 : Ival) :
    (computeSecondOrderSum c1 c2 c3 c4 : K)
      = ∑ q ∈ quads c1 c2 c3 c4, ((q.1 : K) - c1.mid) ^ 2 := by
  rw [sum_quads_r1, computeSecondOrderSum]
  exact Finset.sum_congr rfl fun m _ => Finset.sum_congr rfl fun l _ => secondOrderSum_eq _ _ _

/-- Mixed reactant/product second order sum over quadruples. -/
theorem computeSecondOrderOffsetSum_eq (c1 c2 c3 c4 : Ival) :
    (computeSecondOrderOffsetSum c1 c2 c3 c4 : K)
      = ∑ q ∈ quads c1 c2 c3 c4, ((q.1 : K) - c1.mid) * ((q.2.2.1 : K) - c3.mid) := by
  rw [sum_quads_r1, computeSecondOrderOffsetSum]
  refine Finset.sum_congr rfl fun m _ => Finset.sum_congr rfl fun l _ => ?_
  rw [secondOrderOffsetSum_eq]
  refine Finset.sum_congr rfl fun a _ => ?_
  push_cast
  ring

/-- Third order sum over quadruples. -/
theorem computeThirdOrderSum_eq (c1 c2 c3 c4 : Ival) :
    (computeThirdOrderSum c1 c2 c3 c4 : K)
      = ∑ q ∈ quads c1 c2 c3 c4, ((q.2.1 : K) - c2.mid) ^ 2 * ((q.1 : K) - c1.mid) := by
  rw [sum_quads_r1, computeThirdOrderSum]
  refine Finset.sum_congr rfl fun m _ => Finset.sum_congr rfl fun l _ => ?_
  rw [firstOrderSum_eq, Finset.mul_sum]

/-- Second order sum of the two reactants. -/
theorem reactantsSecondOrderSum_eq (c1 c2 p1 p2 : Ival) :
    (reactantsSecondOrderSum c1 c2 p1 p2 : K)
      = ∑ q ∈ quads c1 c2 p1 p2, ((q.1 : K) - c1.mid) * ((q.2.1 : K) - c2.mid) := by
  rw [sum_quads_swapR, sum_quads_r1, reactantsSecondOrderSum]
  refine Finset.sum_congr rfl fun m _ => Finset.sum_congr rfl fun l _ => ?_
  rw [firstOrderSum_eq, Finset.mul_sum]

/-- Third order sum with a product. -/
theorem productThirdOrderSum_eq (c1 c2 this other : Ival) :
    (productThirdOrderSum c1 c2 this other : K)
      = ∑ q ∈ quads c1 c2 this other,
          ((q.1 : K) - c1.mid) * (((q.2.1 : K) - c2.mid) * ((q.2.2.1 : K) - this.mid)) := by
  rw [sum_quads_swapR, sum_quads_r1, productThirdOrderSum]
  refine Finset.sum_congr rfl fun m _ => Finset.sum_congr rfl fun l _ => ?_
  rw [secondOrderOffsetSum_eq, Finset.mul_sum]
  refine Finset.sum_congr rfl fun a _ => ?_
  push_cast
  ring

end Xolotl.Network
