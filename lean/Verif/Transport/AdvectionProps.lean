import Verif.Transport.Advection
import Mathlib.Algebra.BigOperators.Intervals
import Mathlib.Tactic.FieldSimp
import Mathlib.Tactic.Ring
import Mathlib.Tactic.Linarith
import Mathlib.Tactic.Positivity
import Mathlib.Tactic.NormNum

set_option linter.unusedSectionVars false

/-!
# Properties of advection (C28)
-/

namespace Xolotl.Transport.Adv

open Finset

variable {K : Type*} [Field K] [LinearOrder K] [IsStrictOrderedRing K]

/-! ### The reported partial derivatives -/

/-- Surface advection: the rate is exactly the linear form with the reported coefficients, for every mask, temperature and diffusion coefficient.  Nothing about the sizes is needed, so this also holds where a division by zero is a convention of the field. -/
theorem surf_eq (A k loc x hR D D2 T T2 gM gR c cR : K) :
    surfConc A k loc x hR D D2 T T2 gM gR c cR
      = (surfPart A k loc x hR D D2 T T2 gM gR).1 * c + (surfPart A k loc x hR D D2 T T2 gM gR).2 * cR := by
  simp only [surfConc, surfPart, div_eq_mul_inv, mul_inv]; ring

example : surfConc (2 : ℚ) 1 0 1 1 3 5 2 4 1 1 7 16 = (-(2 * 9) / 2 + 6 * (5 / 4 - 3 / 2)) * 7 + 18 / 32 * 16 := by
  rw [surf_eq]; norm_num [surfPart]

theorem cmp_cases (loc x : K) (h : ¬onSink loc x) : (x > loc ∧ ¬x < loc) ∨ (x < loc ∧ ¬x > loc) := by
  rcases lt_trichotomy x loc with h1 | h1 | h1
  · exact Or.inr ⟨h1, not_lt.mpr h1.le⟩
  · exfalso; apply h; subst h1; simp [onSink]
  · exact Or.inl ⟨h1, not_lt.mpr h1.le⟩

/-- The index in the concentration stencil of the neighbour in direction `s` along the axis with the given indices. -/
def nbr (low high : ℕ) (s : ℤ) : ℕ := if s = 1 then high else low

/-- Grain boundary across x, off the sink: the rate is the linear form with the reported coefficients in the point itself and the neighbour named by `getStencilForAdvection`. -/
theorem x_eq_off (n dim : ℕ) (hn : 5 ≤ n) (A k loc x hL hR D T : K) (old : K × K) (c : ℕ → K) (h : ¬onSink loc x) :
    xConc n A k loc x hL hR D T c
      = some ((xPart dim A k loc x hL hR D T old).1 * c 0 + (xPart dim A k loc x hL hR D T old).2 * c (nbr 1 2 (stencil loc x))) := by
  unfold xConc xPart stencil
  rw [if_neg (not_lt.mpr hn), if_neg h, if_neg h, if_neg h]
  rcases cmp_cases loc x h with ⟨h1, h2⟩ | ⟨h1, h2⟩ <;>
  · simp only [h1, h2, ind, if_true, if_false, nbr]
    norm_num [div_eq_mul_inv, mul_inv]; ring

example : xConc 5 (1 : ℚ) 1 0 (-2) 1 3 1 1 (fun i => i + 1) = some (-(3 / 16) * 1 + 3 / 81 * 2) := by
  rw [x_eq_off 5 2 (by norm_num) _ _ _ _ _ _ _ _ (0, 0) _ (by norm_num [onSink])]
  norm_num [xPart, stencil, nbr, ind, onSink]

/-- Grain boundary across x, on the sink, if the handler believes that it is one-dimensional. -/
theorem x_eq_on (n : ℕ) (hn : 5 ≤ n) (A k loc x hL hR D T : K) (old : K × K) (c : ℕ → K) (h : onSink loc x) :
    xConc n A k loc x hL hR D T c
      = some ((xPart 1 A k loc x hL hR D T old).1 * c 1 + (xPart 1 A k loc x hL hR D T old).2 * c 2) := by
  unfold xConc xPart
  rw [if_neg (not_lt.mpr hn), if_pos h, if_pos h, if_pos rfl]
  simp only [div_eq_mul_inv, mul_inv]; congr 1; ring

/-- In one dimension, where the stencil has three views, the rate is never computed: the call throws. -/
theorem x_one_dimensional (A k loc x hL hR D T : K) (c : ℕ → K) : xConc 3 A k loc x hL hR D T c = none := by
  unfold xConc; rw [if_pos (by norm_num)]

/-- In two and three dimensions the derivatives on the sink are left at the zeros of the preallocated array although the rate depends on both neighbours: the claim fails for this handler. -/
theorem x_on_sink_missing (dim : ℕ) (hd : dim ≠ 1) :
    ∃ (A k loc x hL hR D T : ℚ) (c : ℕ → ℚ) (r : ℚ), onSink loc x ∧ xConc 5 A k loc x hL hR D T c = some r ∧ r ≠ 0 ∧
      (xPart dim A k loc x hL hR D T (0, 0)).1 * c 1 + (xPart dim A k loc x hL hR D T (0, 0)).2 * c 2 = 0 := by
  refine ⟨1, 1, 0, 0, 1, 1, 1, 1, fun _ => 1, 6, by norm_num [onSink], by norm_num [xConc, onSink], by norm_num, ?_⟩
  have : onSink (0 : ℚ) 0 := by norm_num [onSink]
  simp [xPart, this, hd]

/-- Grain boundary across y: on the sink the coefficients are those of the two neighbours, off the sink those of the point and of the neighbour named by `getStencilForAdvection`. -/
theorem y_eq (n : ℕ) (hn : 5 ≤ n) (A k loc y hy D T : K) (c : ℕ → K) :
    yConc n A k loc y hy D T c = some (if onSink loc y
      then (yPart A k loc y hy D T).1 * c 3 + (yPart A k loc y hy D T).2 * c 4
      else (yPart A k loc y hy D T).1 * c 0 + (yPart A k loc y hy D T).2 * c (nbr 3 4 (stencil loc y))) := by
  unfold yConc yPart stencil
  rw [if_neg (not_lt.mpr hn)]
  by_cases h : onSink loc y
  · simp only [h, if_true, div_eq_mul_inv, mul_inv]; congr 1; ring
  · simp only [h, if_false]
    generalize |loc - y| = a
    generalize a + hy = b
    rcases cmp_cases loc y h with ⟨h1, h2⟩ | ⟨h1, h2⟩ <;>
    · simp only [h1, h2, if_true, if_false, nbr]
      norm_num [div_eq_mul_inv, mul_inv]; ring

/-- Grain boundary across z. -/
theorem z_eq (n : ℕ) (hn : 7 ≤ n) (A k loc z hz D T : K) (c : ℕ → K) :
    zConc n A k loc z hz D T c = some (if onSink loc z
      then (zPart A k loc z hz D T).1 * c 5 + (zPart A k loc z hz D T).2 * c 6
      else (zPart A k loc z hz D T).1 * c 0 + (zPart A k loc z hz D T).2 * c (nbr 5 6 (stencil loc z))) := by
  unfold zConc zPart stencil
  rw [if_neg (not_lt.mpr hn)]
  by_cases h : onSink loc z
  · simp only [h, if_true, div_eq_mul_inv, mul_inv]; congr 1; ring
  · simp only [h, if_false]
    generalize |loc - z| = a
    generalize a + hz = b
    rcases cmp_cases loc z h with ⟨h1, h2⟩ | ⟨h1, h2⟩ <;>
    · simp only [h1, h2, if_true, if_false, nbr]
      norm_num [div_eq_mul_inv, mul_inv]; ring

example : yConc 5 (1 : ℚ) 1 0 2 1 1 1 (fun i => i + 1) = some (-(3 / 16) * 1 + 3 / 81 * 5) := by
  rw [y_eq 5 (by norm_num)]; norm_num [yPart, stencil, nbr, onSink]

example : zConc 7 (1 : ℚ) 1 0 0 2 1 1 (fun i => i + 1) = some (3 / 32 * 6 + 3 / 32 * 7) := by
  rw [z_eq 7 (by norm_num)]; norm_num [zPart, onSink]

/-! ### Direction -/

/-- The neighbour that gives atoms is always on the far side of the boundary, so that everything moves towards it. -/
theorem stencil_away (loc x : K) (h : ¬onSink loc x) : (stencil loc x = 1 ↔ loc < x) ∧ (stencil loc x = -1 ↔ x < loc) := by
  unfold stencil; rw [if_neg h]
  rcases cmp_cases loc x h with ⟨h1, h2⟩ | ⟨h1, h2⟩
  · simp [h1, h2]
  · simp [h1, h2]

/-- Signs: a point loses atoms in proportion to its own concentration and receives in proportion to its neighbour's (surface, uniform temperature; grain boundaries off the sink); on the sink it only receives. -/
theorem signs (A k loc x hL hR D T : K) (hA : 0 ≤ A) (hk : 0 < k) (hl : 0 < hL) (hr : 0 < hR) (hD : 0 ≤ D) (hT : 0 < T) :
    ((surfPart A k loc x hR D D T T 1 1).1 ≤ 0 ∧ 0 ≤ (surfPart A k loc x hR D D T T 1 1).2) ∧
    (¬onSink loc x → ∀ dim old, (xPart dim A k loc x hL hR D T old).1 ≤ 0 ∧ 0 ≤ (xPart dim A k loc x hL hR D T old).2) ∧
    (¬onSink loc x → (yPart A k loc x hR D T).1 ≤ 0 ∧ 0 ≤ (yPart A k loc x hR D T).2 ∧ (zPart A k loc x hR D T).1 ≤ 0 ∧ 0 ≤ (zPart A k loc x hR D T).2) ∧
    (onSink loc x → 0 ≤ (xPart 1 A k loc x hL hR D T 0).1 ∧ 0 ≤ (xPart 1 A k loc x hL hR D T 0).2 ∧
      0 ≤ (yPart A k loc x hR D T).1 ∧ 0 ≤ (yPart A k loc x hR D T).2 ∧ 0 ≤ (zPart A k loc x hR D T).1 ∧ 0 ≤ (zPart A k loc x hR D T).2) := by
  have q : ∀ t : K, t * t * t * t = t ^ 4 := fun t => by ring
  have p4 : ∀ t : K, 0 ≤ t ^ 4 := fun t => by positivity
  have h3 : 0 ≤ 3 * A * D := by positivity
  refine ⟨⟨?_, ?_⟩, fun h dim old => ?_, fun h => ?_, fun h => ?_⟩
  · simp only [surfPart, sub_self, mul_zero, zero_div, add_zero, mul_one]
    exact div_nonpos_of_nonpos_of_nonneg (by linarith) (mul_nonneg (by positivity) (p4 _))
  · simp only [surfPart, mul_one]; exact div_nonneg h3 (mul_nonneg (by positivity) (p4 _))
  · unfold xPart; rw [if_neg h]
    have hw : 0 ≤ hR * ind (x > loc) + hL * ind (x < loc) := by
      unfold ind; split_ifs <;> simp <;> linarith
    simp only [q]
    exact ⟨div_nonpos_of_nonpos_of_nonneg (by linarith) (mul_nonneg (mul_nonneg (by positivity) (p4 _)) hw),
      div_nonneg h3 (mul_nonneg (mul_nonneg (by positivity) (p4 _)) hw)⟩
  · unfold yPart zPart; simp only [if_neg h, q]
    exact ⟨div_nonpos_of_nonpos_of_nonneg (by linarith) (mul_nonneg (by positivity) (p4 _)), div_nonneg h3 (mul_nonneg (by positivity) (p4 _)),
      div_nonpos_of_nonpos_of_nonneg (by linarith) (mul_nonneg (by positivity) (p4 _)), div_nonneg h3 (mul_nonneg (by positivity) (p4 _))⟩
  · unfold xPart yPart zPart; simp only [if_pos h, if_true]
    refine ⟨?_, ?_, ?_, ?_, ?_, ?_⟩ <;> positivity

/-! ### What leaves a point arrives at its neighbour -/

/-- The drift flux `3 A D c / (k T d⁴)` at distance `d` of the sink. -/
def drift (A k D T d c : K) : K := 3 * A * D * c / (k * T * d ^ 4)

/-- Surface advection at uniform temperature: `hxRight` times the rate is the flux leaving the right neighbour towards the surface minus the flux leaving the point.  Whatever the grid: `x - loc + hxRight` is the distance of the right neighbour. -/
theorem surf_flux (A k loc x hR D T c cR : K) (hr : hR ≠ 0) (hT : T ≠ 0) (hk : k ≠ 0) (hx : x - loc ≠ 0) (hx' : x - loc + hR ≠ 0) :
    hR * surfConc A k loc x hR D D T T 1 1 c cR = drift A k D T (x - loc + hR) cR - drift A k D T (x - loc) c := by
  simp only [surfConc, drift, sub_self, mul_zero, zero_div, add_zero, mul_one]
  field_simp

/-- Uniform grid, points at distances `d, d + h, …`: summed over any interval, surface advection gives only what enters from the right minus what leaves on the left, so what leaves a point is what its left neighbour receives. -/
theorem surf_conserved (A k D T d h : K) (hd : 0 < d) (hh : 0 < h) (hT : T ≠ 0) (hk : k ≠ 0) (c : ℕ → K) (n : ℕ) :
    ∑ i ∈ range n, h * surfConc A k 0 (d + i * h) h D D T T 1 1 (c i) (c (i + 1))
      = drift A k D T (d + n * h) (c n) - drift A k D T d (c 0) := by
  have e : ∀ i : ℕ, h * surfConc A k 0 (d + i * h) h D D T T 1 1 (c i) (c (i + 1))
      = drift A k D T (d + ((i + 1 : ℕ) : K) * h) (c (i + 1)) - drift A k D T (d + (i : K) * h) (c i) := by
    intro i
    have : 0 < d + (i : K) * h := by positivity
    rw [surf_flux _ _ _ _ _ _ _ _ _ hh.ne' hT hk (by rw [sub_zero]; exact this.ne') (by rw [sub_zero]; positivity)]
    rw [sub_zero]; congr 2; push_cast; ring
  rw [sum_congr rfl (fun i _ => e i), sum_range_sub (fun i => drift A k D T (d + (i : K) * h) (c i))]
  norm_num

example : ∑ i ∈ range 3, (1 : ℚ) * surfConc (1 : ℚ) 1 0 (1 + (i : ℚ) * 1) 1 1 1 1 1 1 1 ((i : ℚ) ^ 4) (((i + 1 : ℕ) : ℚ) ^ 4) = 3 * 81 / 256 := by
  have := surf_conserved (1 : ℚ) 1 1 1 1 1 (by norm_num) (by norm_num) (by norm_num) (by norm_num) (fun i => (i : ℚ) ^ 4) 3
  rw [this]; norm_num [drift]

/-- With a temperature gradient the flux form is lost: an isolated bump changes its own integral even on a uniform grid. -/
theorem surf_gradient_not_conserved :
    ∃ (T c : ℕ → ℚ), (∀ i, 0 < T i) ∧ c 0 = 0 ∧ c 1 = 0 ∧ c 3 = 0 ∧
      ∑ i ∈ range 3, surfConc (1 : ℚ) 1 0 (1 + (i : ℚ)) 1 1 1 (T i) (T (i + 1)) 1 1 (c i) (c (i + 1)) ≠ 0 := by
  refine ⟨fun i => i + 1, fun i => if i = 2 then 1 else 0, fun i => by positivity, by simp, by simp, by simp, ?_⟩
  norm_num [sum_range_succ, surfConc]

/-- Off the sink: spacing times rate is what arrives from the far neighbour minus what leaves. -/
theorem y_off_flux (n : ℕ) (hn : 5 ≤ n) (A k loc y hy D T : K) (c : ℕ → K) (hs : ¬onSink loc y) (hh : 0 < hy) (hT : T ≠ 0) (hk : k ≠ 0) :
    ∃ r, yConc n A k loc y hy D T c = some r ∧
      hy * r = drift A k D T (|loc - y| + hy) (c (nbr 3 4 (stencil loc y))) - drift A k D T |loc - y| (c 0) := by
  have h1 : |loc - y| ≠ 0 := by
    intro h; apply hs; unfold onSink; rw [h]; norm_num
  have h2 : |loc - y| + hy ≠ 0 := by have := abs_nonneg (loc - y); linarith
  refine ⟨_, y_eq n hn A k loc y hy D T c, ?_⟩
  rw [if_neg hs]; unfold yPart drift; rw [if_neg hs]
  field_simp
  ring

/-- On the sink: everything that leaves the two neighbours arrives. -/
theorem y_on_flux (n : ℕ) (hn : 5 ≤ n) (A k loc y hy D T : K) (c : ℕ → K) (hs : onSink loc y) (hh : hy ≠ 0) (hT : T ≠ 0) (hk : k ≠ 0) :
    ∃ r, yConc n A k loc y hy D T c = some r ∧ hy * r = drift A k D T hy (c 3) + drift A k D T hy (c 4) := by
  refine ⟨_, y_eq n hn A k loc y hy D T c, ?_⟩
  rw [if_pos hs]; unfold yPart drift; rw [if_pos hs]
  field_simp

/-- The stencil of a profile `c` along y around point `j`. -/
def alongY (c : ℤ → K) (j : ℤ) (i : ℕ) : K := if i = 3 then c (j - 1) else if i = 4 then c (j + 1) else c j

/-- Balance of a grain boundary across y on the uniform grid `loc + j h`: the boundary point together with `n` points above and `m` points below only changes by what enters at the two far ends.  Nothing is lost and nothing passes through the boundary. -/
theorem y_conserved (N : ℕ) (hN : 5 ≤ N) (A k loc h D T : K) (hh : 1 / 1000 ≤ h) (hT : T ≠ 0) (hk : k ≠ 0) (c : ℤ → K) (n m : ℕ) :
    ∃ r : ℤ → K, (∀ j : ℤ, yConc N A k loc (loc + j * h) h D T (alongY c j) = some (r j)) ∧
      h * r 0 + ∑ i ∈ range n, h * r (i + 1) + ∑ i ∈ range m, h * r (-(i + 1))
        = drift A k D T ((n + 1) * h) (c (n + 1)) + drift A k D T ((m + 1) * h) (c (-(m + 1))) := by
  have hp : 0 < h := by linarith [show (0 : K) < 1 / 1000 by norm_num]
  have hsome : ∀ j : ℤ, ∃ q, yConc N A k loc (loc + j * h) h D T (alongY c j) = some q := fun j => ⟨_, y_eq N hN _ _ _ _ _ _ _ _⟩
  choose r hr using hsome
  refine ⟨r, hr, ?_⟩
  have dist : ∀ j : ℤ, |loc - (loc + j * h)| = |(j : K)| * h := by
    intro j; rw [show loc - (loc + j * h) = -(j * h) by ring, abs_neg, abs_mul, abs_of_pos hp]
  have off : ∀ i : ℕ, ∀ s : ℤ, |(s : K)| = (i : K) + 1 → ¬onSink loc (loc + s * h) := by
    intro i s hs
    unfold onSink; rw [dist, hs, not_lt]
    have : h ≤ ((i : K) + 1) * h := le_mul_of_one_le_left hp.le (by linarith [(Nat.cast_nonneg i : (0 : K) ≤ i)])
    linarith
  have h0 : h * r 0 = drift A k D T h (c (-1)) + drift A k D T h (c 1) := by
    have hs : onSink loc (loc + ((0 : ℤ) : K) * h) := by unfold onSink; rw [dist]; simp
    obtain ⟨q, h1, h2⟩ := y_on_flux N hN A k loc _ h D T (alongY c 0) hs hp.ne' hT hk
    rw [hr 0] at h1; cases h1; rw [h2]; simp [alongY]
  have hpos : ∀ i : ℕ, h * r (i + 1) = drift A k D T (((i + 1 : ℕ) : K) * h + h) (c ((i + 1 : ℕ) + 1)) - drift A k D T (((i : ℕ) : K) * h + h) (c ((i : ℕ) + 1)) := by
    intro i
    have ha : |(((i : ℤ) + 1 : ℤ) : K)| = (i : K) + 1 := by push_cast; exact abs_of_pos (by positivity)
    have hs := off i ((i : ℤ) + 1) ha
    have st : stencil loc (loc + (((i : ℤ) + 1 : ℤ) : K) * h) = 1 := (stencil_away _ _ hs).1.mpr (by
      have : (0 : K) < ((((i : ℤ) + 1 : ℤ)) : K) * h := mul_pos (by push_cast; positivity) hp
      linarith)
    obtain ⟨q, h1, h2⟩ := y_off_flux N hN A k loc _ h D T (alongY c ((i : ℤ) + 1)) hs hp hT hk
    rw [hr ((i : ℤ) + 1)] at h1; cases h1
    rw [h2, dist, ha, st]
    simp only [nbr, alongY, if_true]
    norm_num
    congr 2; ring
  have hneg : ∀ i : ℕ, h * r (-(i + 1)) = drift A k D T (((i + 1 : ℕ) : K) * h + h) (c (-((i + 1 : ℕ) + 1))) - drift A k D T (((i : ℕ) : K) * h + h) (c (-((i : ℕ) + 1))) := by
    intro i
    have ha : |((-((i : ℤ) + 1) : ℤ) : K)| = (i : K) + 1 := by push_cast; rw [← abs_neg, neg_neg]; exact abs_of_pos (by positivity)
    have hs := off i (-((i : ℤ) + 1)) ha
    have st : stencil loc (loc + ((-((i : ℤ) + 1) : ℤ) : K) * h) = -1 := (stencil_away _ _ hs).2.mpr (by
      have : (0 : K) < (((((i : ℤ) + 1) : ℤ)) : K) * h := mul_pos (by push_cast; positivity) hp
      push_cast at this ⊢; linarith)
    obtain ⟨q, h1, h2⟩ := y_off_flux N hN A k loc _ h D T (alongY c (-((i : ℤ) + 1))) hs hp hT hk
    rw [hr (-((i : ℤ) + 1))] at h1; cases h1
    rw [h2, dist, ha, st]
    simp only [nbr, alongY]
    norm_num
    rw [show -1 + -(i : ℤ) - 1 = -1 + (-1 + -(i : ℤ)) by ring]
    congr 2; ring
  rw [h0, sum_congr rfl (fun i _ => hpos i), sum_range_sub (fun i : ℕ => drift A k D T ((i : K) * h + h) (c ((i : ℤ) + 1))),
    sum_congr rfl (fun i _ => hneg i), sum_range_sub (fun i : ℕ => drift A k D T ((i : K) * h + h) (c (-((i : ℤ) + 1))))]
  have e : ∀ t : K, (t + 1) * h = t * h + h := fun t => by ring
  rw [e, e]
  norm_num
  ring

/-- The handler across z computes the same as the one across y, with front and back instead of bottom and top; so `y_conserved` holds for it. -/
theorem z_as_y (n : ℕ) (hn : 7 ≤ n) (A k loc z h D T : K) (c : ℕ → K) :
    zConc n A k loc z h D T c = yConc 5 A k loc z h D T (fun i => c (if i = 3 then 5 else if i = 4 then 6 else i)) := by
  unfold zConc yConc
  rw [if_neg (not_lt.mpr hn), if_neg (show ¬(5 : ℕ) < 5 by norm_num)]
  by_cases hs : onSink loc z
  · rw [if_pos hs, if_pos hs]; norm_num [add_div]
  · rw [if_neg hs, if_neg hs]
    rcases cmp_cases loc z hs with ⟨h1, h2⟩ | ⟨h1, h2⟩ <;> simp [h1, h2]

/-- On a uniform grid in x the handler across x computes the same with left and right; so `y_conserved` holds for it. -/
theorem x_as_y (n : ℕ) (hn : 5 ≤ n) (A k loc x h D T : K) (c : ℕ → K) :
    xConc n A k loc x h h D T c = yConc 5 A k loc x h D T (fun i => c (if i = 3 then 1 else if i = 4 then 2 else i)) := by
  have q : ∀ t : K, t * t * t * t = t ^ 4 := fun t => by ring
  unfold xConc yConc
  rw [if_neg (not_lt.mpr hn), if_neg (show ¬(5 : ℕ) < 5 by norm_num)]
  by_cases hs : onSink loc x
  · rw [if_pos hs, if_pos hs]; norm_num
  · rw [if_neg hs, if_neg hs]
    simp only [q]
    rcases cmp_cases loc x hs with ⟨h1, h2⟩ | ⟨h1, h2⟩ <;> simp [h1, h2, ind]

example : ∃ r : ℤ → ℚ, (∀ j : ℤ, yConc 5 (1 : ℚ) 1 0 (0 + j * (1 / 2)) (1 / 2) 1 1 (alongY (fun i => (i : ℚ) ^ 2) j) = some (r j)) ∧
    1 / 2 * r 0 + ∑ i ∈ range 2, 1 / 2 * r (i + 1) + ∑ i ∈ range 1, 1 / 2 * r (-(i + 1)) = 3 * 9 / (3 / 2) ^ 4 + 3 * 4 := by
  obtain ⟨r, h1, h2⟩ := y_conserved 5 (by norm_num) (1 : ℚ) 1 0 (1 / 2) 1 1 (by norm_num) (by norm_num) (by norm_num) (fun i => (i : ℚ) ^ 2) 2 1
  refine ⟨r, h1, h2.trans ?_⟩
  norm_num [drift]

end Xolotl.Transport.Adv
