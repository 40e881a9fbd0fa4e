import Verif.Transport.Stencil
import Mathlib.Algebra.BigOperators.Intervals
import Mathlib.Algebra.BigOperators.Ring.Finset
import Mathlib.Tactic.FieldSimp
import Mathlib.Tactic.Ring
import Mathlib.Tactic.Linarith
import Mathlib.Tactic.Positivity
import Mathlib.Tactic.NormNum
import Mathlib.Tactic.IntervalCases

set_option linter.unusedSectionVars false

/-!
# Properties of the diffusion stencils (C26)
-/

namespace Xolotl.Transport

open Finset

variable {K : Type*} [Field K] [LinearOrder K] [IsStrictOrderedRing K]

/-! ### The reported partial derivatives are the coefficients of the stencil -/

/-- In 1D the rate is exactly the linear form whose coefficients are the values reported for the Jacobian, whatever the mask and the diffusion coefficients. -/
theorem conc1_eq (hL hR : K) (hl : hL ≠ 0) (hr : hR ≠ 0) (hs : hL + hR ≠ 0) (d g c : S1 K) :
    conc1 hL hR d g c = (part1 hL hR d g).mid * c.mid + (part1 hL hR d g).left * c.left + (part1 hL hR d g).right * c.right := by
  simp only [conc1, part1]; field_simp; ring

example : conc1 (1 : ℚ) 2 ⟨3, 2, 5⟩ ⟨1, 0, 1⟩ ⟨7, 11, 13⟩ = -2 * 3 / 2 * 7 + (3 * 2 / 6 + 3 / 9) * 13 := by
  rw [conc1_eq 1 2 (by norm_num) (by norm_num) (by norm_num)]; norm_num [part1]

/-- The same in 2D. -/
theorem conc2_eq (hL hR sy : K) (hl : hL ≠ 0) (hr : hR ≠ 0) (hs : hL + hR ≠ 0) (d : S1 K) (g c : S2 K) :
    conc2 hL hR sy d g c = (part2 hL hR sy d g).mid * c.mid + (part2 hL hR sy d g).left * c.left
      + (part2 hL hR sy d g).right * c.right + (part2 hL hR sy d g).bottom * c.bottom + (part2 hL hR sy d g).top * c.top := by
  simp only [conc2, part2]; field_simp; ring

example : conc2 (1 : ℚ) 2 (1 / 4) ⟨3, 2, 5⟩ ⟨⟨1, 0, 1⟩, 1, 1⟩ ⟨⟨7, 11, 13⟩, 17, 19⟩ = -2 * 3 * (1 / 2 + 1 / 4) * 7 + (3 * 2 / 6 + 3 / 9) * 13 + 3 / 4 * 17 + 3 / 4 * 19 := by
  rw [conc2_eq 1 2 (1 / 4) (by norm_num) (by norm_num) (by norm_num)]; norm_num [part2]

/-- The same in 3D. -/
theorem conc3_eq (hL hR sy sz : K) (hl : hL ≠ 0) (hr : hR ≠ 0) (hs : hL + hR ≠ 0) (d : S1 K) (g c : S3 K) :
    conc3 hL hR sy sz d g c = (part3 hL hR sy sz d g).mid * c.mid + (part3 hL hR sy sz d g).left * c.left
      + (part3 hL hR sy sz d g).right * c.right + (part3 hL hR sy sz d g).bottom * c.bottom
      + (part3 hL hR sy sz d g).top * c.top + (part3 hL hR sy sz d g).front * c.front + (part3 hL hR sy sz d g).back * c.back := by
  simp only [conc3, part3]; field_simp; ring

example : conc3 (1 : ℚ) 2 (1 / 4) (1 / 9) ⟨3, 2, 5⟩ ⟨⟨⟨1, 0, 1⟩, 1, 1⟩, 1, 0⟩ ⟨⟨⟨7, 11, 13⟩, 17, 19⟩, 23, 29⟩
    = -2 * 3 * (1 / 2 + 1 / 4 + 1 / 9) * 7 + (3 * 2 / 6 + 3 / 9) * 13 + 3 / 4 * 17 + 3 / 4 * 19 + 3 / 9 * 23 := by
  rw [conc3_eq 1 2 (1 / 4) (1 / 9) (by norm_num) (by norm_num) (by norm_num)]; norm_num [part3]

/-! ### Flux form -/

/-- All mask entries set. -/
def open1 : S1 K := ⟨1, 1, 1⟩
/-- All mask entries set. -/
def open2 : S2 K := ⟨open1, 1, 1⟩
/-- All mask entries set. -/
def open3 : S3 K := ⟨open2, 1, 1⟩

/-- One cell: the rate times the half distance between the neighbours is the difference of the two fluxes `D (c_{i+1} - c_i) / h`. -/
theorem conc1_flux (hL hR D : K) (hl : hL ≠ 0) (hr : hR ≠ 0) (hs : hL + hR ≠ 0) (c : S1 K) :
    (hL + hR) / 2 * conc1 hL hR ⟨D, D, D⟩ open1 c = D * (c.right - c.mid) / hR - D * (c.mid - c.left) / hL := by
  simp only [conc1, open1]; field_simp; ring

/-- The stencil values of a 1D profile around point `i`. -/
def at1 (c : ℕ → K) (i : ℕ) : S1 K := ⟨c (i + 1), c i, c (i + 2)⟩

/-- Flux form in 1D, for any sequence of positive spacings: summed with the weights `(hL + hR) / 2` over any interval of points, diffusion with a constant coefficient gives the difference of the fluxes through the ends. -/
theorem flux_form1 (h : ℕ → K) (hpos : ∀ i, 0 < h i) (D : K) (c : ℕ → K) (a n : ℕ) :
    ∑ i ∈ range n, (h (a + i) + h (a + i + 1)) / 2 * conc1 (h (a + i)) (h (a + i + 1)) ⟨D, D, D⟩ open1 (at1 c (a + i))
      = D * (c (a + n + 1) - c (a + n)) / h (a + n) - D * (c (a + 1) - c a) / h a := by
  induction n with
  | zero => simp
  | succ n ih =>
    rw [sum_range_succ, ih, conc1_flux _ _ _ (hpos _).ne' (hpos _).ne' (add_pos (hpos _) (hpos _)).ne']
    simp only [at1]
    rw [show a + (n + 1) + 1 = a + n + 2 by ring, show a + (n + 1) = a + n + 1 by ring]
    ring

example : ∑ i ∈ range 2, ((2 : ℚ) ^ i + 2 ^ (i + 1)) / 2 * conc1 ((2 : ℚ) ^ i) (2 ^ (i + 1)) ⟨3, 3, 3⟩ open1 (at1 (fun j => (j : ℚ) ^ 2) i) = 3 * 5 / 4 - 3 := by
  have := flux_form1 (fun i => (2 : ℚ) ^ i) (fun i => by positivity) 3 (fun j => (j : ℚ) ^ 2) 0 2
  simp only [zero_add] at this
  rw [this]; norm_num

/-- With the spacings of the solver, the right spacing of a point is the left spacing of the next one (inside the grid), so that `flux_form1` applies to consecutive grid points. -/
theorem spacing_shared (nX : ℕ) (grid : ℕ → K) (xi : ℕ) (h : xi < nX) : hxRight nX grid xi = hxLeft grid (xi + 1) := by
  unfold hxRight hxLeft
  rcases Nat.eq_zero_or_pos xi with rfl | hx
  · simp
  · rw [if_pos ⟨hx, h⟩, if_neg (by omega)]; simp

/-- On an increasing grid all spacings are positive. -/
theorem spacing_pos (nX : ℕ) (grid : ℕ → K) (hg : ∀ i, grid i < grid (i + 1)) (xi : ℕ) : 0 < hxLeft grid xi ∧ 0 < hxRight nX grid xi := by
  have h0 := hg xi
  have h1 := hg (xi + 1)
  unfold hxLeft hxRight
  constructor
  · split_ifs with h
    · linarith
    · have h2 := hg (xi - 1)
      rw [Nat.sub_add_cancel (by omega)] at h2
      linarith
  · split_ifs <;> simp only [Nat.add_assoc] at * <;> norm_num at * <;> linarith

/-- The flux form for the grid of the solver: over any interval `a+1, …, a+n` of interior points of an increasing grid, the rates weighted with `(hxLeft + hxRight) / 2` sum to the difference of the boundary fluxes. -/
theorem flux_form_grid (nX : ℕ) (grid : ℕ → K) (hg : ∀ i, grid i < grid (i + 1)) (D : K) (c : ℕ → K) (a n : ℕ) (hn : a + n < nX) :
    ∑ i ∈ range n, (hxLeft grid (a + i + 1) + hxRight nX grid (a + i + 1)) / 2
        * conc1 (hxLeft grid (a + i + 1)) (hxRight nX grid (a + i + 1)) ⟨D, D, D⟩ open1 (at1 c (a + i))
      = D * (c (a + n + 1) - c (a + n)) / hxLeft grid (a + n + 1) - D * (c (a + 1) - c a) / hxLeft grid (a + 1) := by
  rw [← flux_form1 (fun i => hxLeft grid (i + 1)) (fun i => (spacing_pos nX grid hg _).1) D c a n]
  refine sum_congr rfl fun i hi => ?_
  have : i < n := mem_range.mp hi
  rw [spacing_shared nX grid (a + i + 1) (by omega)]

example : ∑ i ∈ range 3, (hxLeft (fun i => (2 : ℚ) ^ i) (1 + i + 1) + hxRight 10 (fun i => (2 : ℚ) ^ i) (1 + i + 1)) / 2
        * conc1 (hxLeft (fun i => (2 : ℚ) ^ i) (1 + i + 1)) (hxRight 10 (fun i => (2 : ℚ) ^ i) (1 + i + 1)) ⟨2, 2, 2⟩ open1 (at1 (fun j => (j : ℚ) ^ 2) (1 + i))
      = 2 * (25 - 16) / 24 - 2 * (4 - 1) / 3 := by
  rw [flux_form_grid 10 (fun i => (2 : ℚ) ^ i) (fun i => by simp only [pow_succ]; linarith [pow_pos (show (0 : ℚ) < 2 by norm_num) i]) 2 _ 1 3 (by norm_num)]
  norm_num [hxLeft]

/-- The same is false with the widths `grid[i+1] - grid[i]` that the solver uses to integrate concentrations over the depth: where the cells change from width 1 to width 2 an isolated bump, whose boundary fluxes are zero, changes its own integral. -/
theorem cell_width_not_conserved :
    ∃ (grid : ℕ → ℚ) (c : ℕ → ℚ), (∀ i, i < 8 → grid i < grid (i + 1)) ∧ c 1 = 0 ∧ c 2 = 0 ∧ c 4 = 0 ∧ c 5 = 0 ∧
      ∑ i ∈ range 3, (grid (1 + i + 2) - grid (1 + i + 1)) * conc1 (hxLeft grid (1 + i + 1)) (hxRight 7 grid (1 + i + 1)) ⟨1, 1, 1⟩ open1 (at1 c (1 + i)) ≠ 0 := by
  refine ⟨fun i => if i ≤ 3 then i else 2 * i - 3, fun i => if i = 3 then 1 else 0, fun i hi => ?_, by simp, by simp, by simp, by simp, ?_⟩
  · interval_cases i <;> norm_num
  · norm_num [sum_range_succ, hxLeft, hxRight, conc1, open1, at1]

/-- With a coefficient that depends on the position the stencil is not in flux form, even on a uniform grid: an isolated bump changes its own integral. -/
theorem variable_not_conserved :
    ∃ (d c : ℕ → ℚ), c 0 = 0 ∧ c 1 = 0 ∧ c 3 = 0 ∧ c 4 = 0 ∧ (∀ i, 0 < d i) ∧
      ∑ i ∈ range 3, conc1 1 1 (at1 d i) open1 (at1 c i) ≠ 0 := by
  refine ⟨fun i => if i = 1 then 2 else 1, fun i => if i = 2 then 1 else 0, by simp, by simp, by simp, by simp, fun i => ?_, ?_⟩
  · dsimp only; split_ifs <;> norm_num
  · norm_num [sum_range_succ, conc1, open1, at1]

/-- 2D is 1D plus the vertical part. -/
theorem conc2_split (hL hR sy : K) (d : S1 K) (c : S2 K) :
    conc2 hL hR sy d open2 c = conc1 hL hR d open1 c.toS1 + d.mid * (sy * (c.bottom + c.top - 2 * c.mid)) := by
  simp only [conc1, conc2, open1, open2]; ring

/-- 3D is 2D plus the transverse part. -/
theorem conc3_split (hL hR sy sz : K) (d : S1 K) (c : S3 K) :
    conc3 hL hR sy sz d open3 c = conc2 hL hR sy d open2 c.toS2 + d.mid * (sz * (c.front + c.back - 2 * c.mid)) := by
  simp only [conc2, conc3, open1, open2, open3]; ring

/-- The stencil values of a 2D profile around point `(i, j)`. -/
def at2 (c : ℕ → ℕ → K) (i j : ℕ) : S2 K := ⟨⟨c (i + 1) (j + 1), c i (j + 1), c (i + 2) (j + 1)⟩, c (i + 1) j, c (i + 1) (j + 2)⟩

/-- The stencil values of a 3D profile around point `(i, j, k)`. -/
def at3 (c : ℕ → ℕ → ℕ → K) (i j k : ℕ) : S3 K := ⟨at2 (fun i j => c i j (k + 1)) i j, c (i + 1) (j + 1) k, c (i + 1) (j + 1) (k + 2)⟩

theorem second_difference (f : ℕ → K) (m : ℕ) :
    ∑ j ∈ range m, (f j + f (j + 2) - 2 * f (j + 1)) = (f (m + 1) - f m) - (f 1 - f 0) := by
  induction m with
  | zero => simp
  | succ m ih => rw [sum_range_succ, ih]; ring

/-- Flux form in 2D over any rectangle. -/
theorem flux_form2 (h : ℕ → K) (hpos : ∀ i, 0 < h i) (sy D : K) (c : ℕ → ℕ → K) (n m : ℕ) :
    ∑ i ∈ range n, ∑ j ∈ range m, (h i + h (i + 1)) / 2 * conc2 (h i) (h (i + 1)) sy ⟨D, D, D⟩ open2 (at2 c i j)
      = ∑ j ∈ range m, (D * (c (n + 1) (j + 1) - c n (j + 1)) / h n - D * (c 1 (j + 1) - c 0 (j + 1)) / h 0)
        + ∑ i ∈ range n, (h i + h (i + 1)) / 2 * (D * sy) * ((c (i + 1) (m + 1) - c (i + 1) m) - (c (i + 1) 1 - c (i + 1) 0)) := by
  have e : ∀ i j, (h i + h (i + 1)) / 2 * conc2 (h i) (h (i + 1)) sy ⟨D, D, D⟩ open2 (at2 c i j)
      = (h i + h (i + 1)) / 2 * conc1 (h i) (h (i + 1)) ⟨D, D, D⟩ open1 (at1 (fun i => c i (j + 1)) i)
        + (h i + h (i + 1)) / 2 * (D * sy) * (c (i + 1) j + c (i + 1) (j + 2) - 2 * c (i + 1) (j + 1)) := by
    intro i j; rw [conc2_split]; simp only [at1, at2]; ring
  simp only [e, sum_add_distrib, ← mul_sum, second_difference (fun j => c (_ + 1) j)]
  congr 1
  simp only [mul_sum]
  rw [sum_comm]
  refine sum_congr rfl fun j _ => ?_
  have := flux_form1 h hpos D (fun i => c i (j + 1)) 0 n
  simpa only [Nat.zero_add] using this

/-- Flux form in 3D over any box. -/
theorem flux_form3 (h : ℕ → K) (hpos : ∀ i, 0 < h i) (sy sz D : K) (c : ℕ → ℕ → ℕ → K) (n m l : ℕ) :
    ∑ k ∈ range l, ∑ i ∈ range n, ∑ j ∈ range m, (h i + h (i + 1)) / 2 * conc3 (h i) (h (i + 1)) sy sz ⟨D, D, D⟩ open3 (at3 c i j k)
      = ∑ k ∈ range l, (∑ j ∈ range m, (D * (c (n + 1) (j + 1) (k + 1) - c n (j + 1) (k + 1)) / h n - D * (c 1 (j + 1) (k + 1) - c 0 (j + 1) (k + 1)) / h 0)
          + ∑ i ∈ range n, (h i + h (i + 1)) / 2 * (D * sy)
              * ((c (i + 1) (m + 1) (k + 1) - c (i + 1) m (k + 1)) - (c (i + 1) 1 (k + 1) - c (i + 1) 0 (k + 1))))
        + ∑ i ∈ range n, ∑ j ∈ range m, (h i + h (i + 1)) / 2 * (D * sz)
              * ((c (i + 1) (j + 1) (l + 1) - c (i + 1) (j + 1) l) - (c (i + 1) (j + 1) 1 - c (i + 1) (j + 1) 0)) := by
  have e : ∀ i j k, (h i + h (i + 1)) / 2 * conc3 (h i) (h (i + 1)) sy sz ⟨D, D, D⟩ open3 (at3 c i j k)
      = (h i + h (i + 1)) / 2 * conc2 (h i) (h (i + 1)) sy ⟨D, D, D⟩ open2 (at2 (fun i j => c i j (k + 1)) i j)
        + (h i + h (i + 1)) / 2 * (D * sz) * (c (i + 1) (j + 1) k + c (i + 1) (j + 1) (k + 2) - 2 * c (i + 1) (j + 1) (k + 1)) := by
    intro i j k; rw [conc3_split]; simp only [at3, at2]; ring
  simp only [e, sum_add_distrib]
  congr 1
  · rw [← sum_add_distrib]
    refine sum_congr rfl fun k _ => ?_
    exact flux_form2 h hpos sy D (fun i j => c i j (k + 1)) n m
  · rw [sum_comm]
    refine sum_congr rfl fun i _ => ?_
    rw [sum_comm]
    refine sum_congr rfl fun j _ => ?_
    rw [← mul_sum, second_difference (fun k => c (i + 1) (j + 1) k)]

example : ∑ i ∈ range 2, ∑ j ∈ range 1, ((2 : ℚ) ^ i + 2 ^ (i + 1)) / 2 * conc2 ((2 : ℚ) ^ i) (2 ^ (i + 1)) (1 / 4) ⟨3, 3, 3⟩ open2 (at2 (fun i j => (i : ℚ) ^ 2 * j ^ 2) i j)
    = (3 * 5 / 4 - 3) + (3 / 2 * (3 / 4) * (3 - 1) + 3 * (3 / 4) * (4 * (3 - 1))) := by
  rw [flux_form2 (fun i => (2 : ℚ) ^ i) (fun i => by positivity) (1 / 4) 3]
  norm_num [sum_range_succ]

/-! ### Exactness -/

/-- On a profile linear in depth the stencil gives slope times the centred difference quotient of the coefficient; with a constant coefficient it vanishes. -/
theorem conc1_linear (hL hR : K) (hl : hL ≠ 0) (hr : hR ≠ 0) (hs : hL + hR ≠ 0) (d : S1 K) (x α β : K) :
    conc1 hL hR d open1 ⟨α + β * x, α + β * (x - hL), α + β * (x + hR)⟩ = (d.right - d.left) / (hL + hR) * β := by
  simp only [conc1, open1]; field_simp; ring

/-- On a constant profile nothing moves, in 1D, 2D and 3D and for every choice of diffusion coefficients. -/
theorem constant_vanishes (hL hR sy sz : K) (hl : hL ≠ 0) (hr : hR ≠ 0) (hs : hL + hR ≠ 0) (d : S1 K) (α : K) :
    conc1 hL hR d open1 ⟨α, α, α⟩ = 0 ∧ conc2 hL hR sy d open2 ⟨⟨α, α, α⟩, α, α⟩ = 0 ∧
      conc3 hL hR sy sz d open3 ⟨⟨⟨α, α, α⟩, α, α⟩, α, α⟩ = 0 := by
  have h1 : conc1 hL hR d open1 ⟨α, α, α⟩ = 0 := by
    have := conc1_linear hL hR hl hr hs d 0 α 0
    simpa using this
  have h2 : conc2 hL hR sy d open2 ⟨⟨α, α, α⟩, α, α⟩ = 0 := by rw [conc2_split, h1]; ring
  exact ⟨h1, h2, by rw [conc3_split, h2]; ring⟩

/-- On a profile that is linear in all directions diffusion with a constant coefficient vanishes, in 1D, 2D and 3D. -/
theorem linear_vanishes (hL hR hy hz sy sz D : K) (hl : hL ≠ 0) (hr : hR ≠ 0) (hs : hL + hR ≠ 0) (x y z α β γ δ : K) :
    conc1 hL hR ⟨D, D, D⟩ open1 ⟨α + β * x, α + β * (x - hL), α + β * (x + hR)⟩ = 0 ∧
      (let f := fun x y => α + β * x + γ * y
       conc2 hL hR sy ⟨D, D, D⟩ open2 ⟨⟨f x y, f (x - hL) y, f (x + hR) y⟩, f x (y - hy), f x (y + hy)⟩ = 0) ∧
      (let f := fun x y z => α + β * x + γ * y + δ * z
       conc3 hL hR sy sz ⟨D, D, D⟩ open3 ⟨⟨⟨f x y z, f (x - hL) y z, f (x + hR) y z⟩, f x (y - hy) z, f x (y + hy) z⟩,
          f x y (z - hz), f x y (z + hz)⟩ = 0) := by
  refine ⟨by rw [conc1_linear hL hR hl hr hs]; simp, ?_, ?_⟩
  · simp only [conc2, open2, open1]; field_simp; ring
  · simp only [conc3, open3, open2, open1]; field_simp; ring

example : conc1 (1 : ℚ) 3 ⟨2, 2, 2⟩ open1 ⟨5 + 7 * 2, 5 + 7 * (2 - 1), 5 + 7 * (2 + 3)⟩ = 0 :=
  (linear_vanishes 1 3 1 1 1 1 2 (by norm_num) (by norm_num) (by norm_num) 2 0 0 5 7 0 0).1

/-- Diffusion with a constant positive coefficient smooths: at a point not above its neighbours the rate is not negative, so concentrations do not become negative through diffusion alone. -/
theorem minimum_principle (hL hR D : K) (hl : 0 < hL) (hr : 0 < hR) (hD : 0 ≤ D) (c : S1 K) (h1 : c.mid ≤ c.left) (h2 : c.mid ≤ c.right) :
    0 ≤ conc1 hL hR ⟨D, D, D⟩ open1 c := by
  have hs : 0 < hL + hR := add_pos hl hr
  have e := conc1_flux hL hR D hl.ne' hr.ne' hs.ne' c
  have a1 : 0 ≤ D * (c.right - c.mid) / hR := div_nonneg (mul_nonneg hD (by linarith)) hr.le
  have a2 : 0 ≤ D * (c.left - c.mid) / hL := div_nonneg (mul_nonneg hD (by linarith)) hl.le
  have a3 : D * (c.mid - c.left) / hL = -(D * (c.left - c.mid) / hL) := by ring
  have a4 : 0 ≤ (hL + hR) / 2 * conc1 hL hR ⟨D, D, D⟩ open1 c := by rw [e, a3]; linarith
  exact nonneg_of_mul_nonneg_right a4 (by linarith)

example : 0 ≤ conc1 (1 : ℚ) 3 ⟨2, 2, 2⟩ open1 ⟨0, 1, 4⟩ :=
  minimum_principle 1 3 2 (by norm_num) (by norm_num) (by norm_num) _ (by norm_num) (by norm_num)

/-! ### Loops over the clusters -/

theorem diffusing_aux (factor migration : ℕ → K) (eps threshold : K) (l acc : List ℕ) :
    l.foldl (fun acc i => if |factor i| < eps ∨ migration i > threshold then acc else acc ++ [i]) acc
      = acc ++ l.filter (fun i => decide (¬(|factor i| < eps ∨ migration i > threshold))) := by
  induction l generalizing acc with
  | nil => simp
  | cons a l ih =>
    rw [List.foldl_cons, ih]
    by_cases h : |factor a| < eps ∨ migration a > threshold
    · rw [if_pos h, List.filter_cons_of_neg (by rw [decide_eq_true_iff]; exact not_not.mpr h)]
    · rw [if_neg h, List.filter_cons_of_pos (by simpa using h), List.append_assoc]; rfl

/-- The list of diffusing clusters has no repetition and contains exactly the clusters that can diffuse. -/
theorem diffusing_spec (n : ℕ) (factor migration : ℕ → K) (eps threshold : K) :
    (diffusing n factor migration eps threshold).Pairwise (· < ·) ∧
      ∀ i, i ∈ diffusing n factor migration eps threshold ↔ i < n ∧ eps ≤ |factor i| ∧ migration i ≤ threshold := by
  unfold diffusing
  rw [diffusing_aux]
  refine ⟨?_, fun i => ?_⟩
  · rw [List.nil_append]; exact List.Pairwise.filter _ List.pairwise_lt_range
  · simp [not_or]

example : diffusing 4 (fun i => if i = 1 then 0 else (1 : ℚ)) (fun i => if i = 3 then 5 else 1) (1 / 100) 2 = [0, 2] := by decide +kernel

/-- Whatever the order in which the device handles the clusters, every diffusing cluster receives exactly its own rate and nothing else changes. -/
theorem addAll_spec (ids : ℕ → ℕ) (rate : ℕ → K) (n : ℕ) (inj : ∀ i < n, ∀ j < n, ids i = ids j → i = j)
    (order : List ℕ) (ho : order.Perm (List.range n)) (u : ℕ → K) :
    (∀ i < n, addAll ids rate order u (ids i) = u (ids i) + rate i) ∧
      ∀ x, (∀ i < n, ids i ≠ x) → addAll ids rate order u x = u x := by
  have nd : order.Nodup := ho.nodup_iff.mpr List.nodup_range
  have lt : ∀ i ∈ order, i < n := fun i hi => by simpa using ho.mem_iff.mp hi
  have gen : ∀ (l : List ℕ), l.Nodup → (∀ i ∈ l, i < n) → ∀ u : ℕ → K,
      (∀ i ∈ l, addAll ids rate l u (ids i) = u (ids i) + rate i) ∧ ∀ x, (∀ i ∈ l, ids i ≠ x) → addAll ids rate l u x = u x := by
    intro l
    induction l with
    | nil => intro _ _ u; simp [addAll]
    | cons a l ih =>
      intro hnd hlt u
      have hnd' := List.nodup_cons.mp hnd
      obtain ⟨h1, h2⟩ := ih hnd'.2 (fun i hi => hlt i (List.mem_cons_of_mem _ hi)) (Function.update u (ids a) (u (ids a) + rate a))
      have step : addAll ids rate (a :: l) u = addAll ids rate l (Function.update u (ids a) (u (ids a) + rate a)) := rfl
      have na : ∀ i ∈ l, ids i ≠ ids a := fun i hi he => hnd'.1 (inj i (hlt i (List.mem_cons_of_mem _ hi)) a (hlt a List.mem_cons_self) he ▸ hi)
      refine ⟨fun i hi => ?_, fun x hx => ?_⟩
      · rw [step]
        rcases List.mem_cons.mp hi with rfl | hi
        · rw [h2 _ na, Function.update_self]
        · rw [h1 i hi, Function.update_of_ne (na i hi)]
      · rw [step, h2 x (fun i hi => hx i (List.mem_cons_of_mem _ hi)), Function.update_of_ne (hx a List.mem_cons_self).symm]
  obtain ⟨h1, h2⟩ := gen order nd lt u
  exact ⟨fun i hi => h1 i (ho.mem_iff.mpr (by simpa using hi)), fun x hx => h2 x (fun i hi => hx i (lt i hi))⟩

example : (addAll (fun i => [4, 7].getD i 0) (fun i => [10, 20].getD i 0) [1, 0] (fun _ => (1 : ℚ))) 7 = 21 := by
  have := (addAll_spec (fun i => [4, 7].getD i 0) (fun i => [10, 20].getD i 0) 2 (by decide) [1, 0] (by decide) (fun _ => (1 : ℚ))).1 1 (by norm_num)
  simp at this; norm_num [this]

theorem writeRow_spec (s i : ℕ) (row : ℕ → ℕ → K) (m : ℕ) (v : ℕ → K) (p : ℕ) :
    (List.range m).foldl (fun v k => Function.update v (i * s + k) (row i k)) v p
      = if i * s ≤ p ∧ p < i * s + m then row i (p - i * s) else v p := by
  induction m with
  | zero => rw [if_neg (by omega)]; rfl
  | succ m ih =>
    rw [List.range_succ, List.foldl_append, List.foldl_cons, List.foldl_nil]
    by_cases h : p = i * s + m
    · subst h
      rw [Function.update_self, if_pos (by omega)]; congr 1; omega
    · rw [Function.update_of_ne h, ih]
      by_cases h2 : i * s ≤ p ∧ p < i * s + m
      · rw [if_pos h2, if_pos (by omega)]
      · rw [if_neg h2, if_neg (by omega)]

/-- Whatever the order in which the device handles the clusters, the value array holds row `i` at `s * i, …, s * i + s - 1` for every diffusing cluster and nothing outside is written. -/
theorem writeAll_spec (s : ℕ) (row : ℕ → ℕ → K) (n : ℕ) (order : List ℕ) (ho : order.Perm (List.range n)) (v : ℕ → K) :
    (∀ i < n, ∀ k < s, writeAll s row order v (i * s + k) = row i k) ∧ ∀ p, n * s ≤ p → writeAll s row order v p = v p := by
  have gen : ∀ (l : List ℕ) (v : ℕ → K),
      (∀ i ∈ l, ∀ k < s, writeAll s row l v (i * s + k) = row i k) ∧
        ∀ p, (∀ i ∈ l, ¬(i * s ≤ p ∧ p < i * s + s)) → writeAll s row l v p = v p := by
    intro l
    induction l with
    | nil => intro v; simp [writeAll]
    | cons a l ih =>
      intro v
      obtain ⟨h1, h2⟩ := ih ((List.range s).foldl (fun v k => Function.update v (a * s + k) (row a k)) v)
      have step : writeAll s row (a :: l) v = writeAll s row l ((List.range s).foldl (fun v k => Function.update v (a * s + k) (row a k)) v) := rfl
      refine ⟨fun i hi k hk => ?_, fun p hp => ?_⟩
      · rw [step]
        by_cases hil : i ∈ l
        · exact h1 i hil k hk
        · have hia : i = a := by simpa [hil] using List.mem_cons.mp hi
          subst hia
          rw [h2, writeRow_spec, if_pos (by omega)]
          · congr 1; omega
          · intro j hj hc
            have : j = i := by
              rcases Nat.lt_trichotomy j i with h | h | h
              · have := Nat.mul_le_mul_right s (Nat.succ_le_of_lt h); rw [Nat.succ_mul] at this; omega
              · exact h
              · have := Nat.mul_le_mul_right s (Nat.succ_le_of_lt h); rw [Nat.succ_mul] at this; omega
            exact hil (this ▸ hj)
      · rw [step, h2 p (fun i hi => hp i (List.mem_cons_of_mem _ hi)), writeRow_spec, if_neg (hp a List.mem_cons_self)]
  obtain ⟨h1, h2⟩ := gen order v
  refine ⟨fun i hi => h1 i (ho.mem_iff.mpr (by simpa using hi)), fun p hp => h2 p fun i hi => ?_⟩
  have : i < n := by simpa using ho.mem_iff.mp hi
  have := Nat.mul_le_mul_right s (Nat.succ_le_of_lt this)
  rw [Nat.succ_mul] at this
  omega

example : writeAll 3 (fun i k => (10 * i + k : ℚ)) [1, 0] (fun _ => 0) 4 = 11 := by
  have := (writeAll_spec 3 (fun i k => (10 * i + k : ℚ)) 2 [1, 0] (by decide) (fun _ => 0)).1 1 (by norm_num) 1 (by norm_num)
  norm_num at this; exact this

end Xolotl.Transport
