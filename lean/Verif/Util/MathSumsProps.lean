import Verif.Util.MathSums
import Mathlib.Algebra.BigOperators.Intervals
import Mathlib.Algebra.BigOperators.Fin
import Mathlib.Data.Int.Interval
import Mathlib.Order.Interval.Finset.Basic
import Mathlib.Algebra.Order.Interval.Finset.SuccPred
import Mathlib.Tactic.Ring
import Mathlib.Tactic.Linarith
import Mathlib.Tactic.FieldSimp
import Mathlib.Tactic.NormNum

/-!
# C01: closed-form sums equal the lattice sums

The specification is the plain finite sum over the integers of the closed interval `[a,b]`.
-/

set_option linter.unusedSectionVars false

namespace Xolotl.Util

variable {K : Type*} [Field K] [LinearOrder K] [IsStrictOrderedRing K]

omit [LinearOrder K] [IsStrictOrderedRing K] in
/-- A sum over `[a, a+n]` splits off its last point. -/
theorem sum_Icc_int_succ (f : ℤ → K) (a : ℤ) (n : ℕ) :
    ∑ k ∈ Finset.Icc a (a + (n + 1 : ℕ)), f k
      = (∑ k ∈ Finset.Icc a (a + (n : ℕ)), f k) + f (a + (n + 1 : ℕ)) := by
  have : Finset.Icc a (a + ((n + 1 : ℕ) : ℤ))
      = insert (a + ((n + 1 : ℕ) : ℤ)) (Finset.Icc a (a + (n : ℕ))) := by
    ext x; simp only [Finset.mem_Icc, Finset.mem_insert]; push_cast; omega
  rw [this, Finset.sum_insert (by simp), add_comm]

omit [LinearOrder K] [IsStrictOrderedRing K] in
/-- Induction principle: a function `F` with the right increments is the lattice sum. -/
theorem sum_Icc_int_closed (f : ℤ → K) (a b : ℤ) (hab : a ≤ b) (F : ℤ → K)
    (h0 : F a = f a) (hs : ∀ n : ℤ, a ≤ n → F (n + 1) = F n + f (n + 1)) :
    ∑ k ∈ Finset.Icc a b, f k = F b := by
  obtain ⟨n, rfl⟩ : ∃ n : ℕ, b = a + n := ⟨(b - a).toNat, by omega⟩
  clear hab
  induction n with
  | zero => simp [h0]
  | succ n ih =>
    rw [sum_Icc_int_succ, ih]
    have := hs (a + n) (by omega)
    push_cast
    rw [← add_assoc, this]

theorem sum_Icc_empty (f : ℤ → K) (a b : ℤ) (h : b < a) : ∑ k ∈ Finset.Icc a b, f k = 0 := by
  rw [Finset.Icc_eq_empty (by omega), Finset.sum_empty]

/-- **C01** `firstOrderSum a b mean = ∑_{n=a}^{b} (n - mean)` for all integer bounds. -/
theorem firstOrderSum_eq (a b : ℤ) (mean : K) :
    firstOrderSum (a : K) (b : K) mean = ∑ n ∈ Finset.Icc a b, ((n : K) - mean) := by
  unfold firstOrderSum
  split
  · next h =>
    have : b < a := by exact_mod_cast h
    rw [sum_Icc_empty _ _ _ this]
  · next h =>
    have hab : a ≤ b := by
      have := not_lt.mp h; exact_mod_cast this
    rw [sum_Icc_int_closed _ a b hab
      (fun b : ℤ => (((b:K) * ((b:K) + 1)) / 2) - (((a:K) * ((a:K) - 1)) / 2)
        - (((b:K) - (a:K) + 1) * mean))]
    · field_simp; ring
    · intro n _; push_cast; field_simp; ring

/-- **C01** `secondOrderSum a b mean = ∑_{n=a}^{b} (n - mean)^2`. -/
theorem secondOrderSum_eq (a b : ℤ) (mean : K) :
    secondOrderSum (a : K) (b : K) mean = ∑ n ∈ Finset.Icc a b, ((n : K) - mean) ^ 2 := by
  unfold secondOrderSum
  split
  · next h =>
    have : b < a := by exact_mod_cast h
    rw [sum_Icc_empty _ _ _ this]
  · next h =>
    have hab : a ≤ b := by
      have := not_lt.mp h; exact_mod_cast this
    rw [sum_Icc_int_closed _ a b hab
      (fun b : ℤ => ((b:K) * ((b:K) + 1) * ((2 * (b:K)) + 1)) / 6
        - ((a:K) * ((a:K) - 1) * ((2 * (a:K)) - 1)) / 6
        - 2 * mean * ((((b:K) * ((b:K) + 1)) / 2) - (((a:K) * ((a:K) - 1)) / 2))
        + mean * mean * ((b:K) - (a:K) + 1))]
    · field_simp; ring
    · intro n _; push_cast; field_simp; ring

/-- **C01** `secondOrderOffsetSum a b m1 m2 off = ∑_{n=a}^{b} (n - m1) (n + off - m2)`. -/
theorem secondOrderOffsetSum_eq (a b : ℤ) (mean1 mean2 offset : K) :
    secondOrderOffsetSum (a : K) (b : K) mean1 mean2 offset
      = ∑ n ∈ Finset.Icc a b, ((n : K) - mean1) * ((n : K) + offset - mean2) := by
  unfold secondOrderOffsetSum
  split
  · next h =>
    have : b < a := by exact_mod_cast h
    rw [sum_Icc_empty _ _ _ this]
  · next h =>
    have hab : a ≤ b := by
      have := not_lt.mp h; exact_mod_cast this
    rw [sum_Icc_int_closed _ a b hab
      (fun b : ℤ => ((b:K) * ((b:K) + 1) * (2 * (b:K) + 1)) / 6
        - ((a:K) * ((a:K) - 1) * (2 * (a:K) - 1)) / 6
        + (offset - mean1 - mean2) *
            ((((b:K) * ((b:K) + 1)) / 2) - (((a:K) * ((a:K) - 1)) / 2))
        + mean1 * (mean2 - offset) * ((b:K) - (a:K) + 1))]
    · field_simp; ring
    · intro n _; push_cast; field_simp; ring

/-- The hypotheses-free statements are exercised on a real range: `1-2.5 + ... + 4-2.5 = 0`,
and the sum of squares is `5`. -/
example : firstOrderSum (1 : ℚ) 4 (5/2) = 0 ∧ secondOrderSum (1 : ℚ) 4 (5/2) = 5 ∧
    secondOrderOffsetSum (1 : ℚ) 4 (5/2) 3 2 = 5 ∧ firstOrderSum (3 : ℚ) 2 (5/2) = 0 := by
  norm_num [firstOrderSum, secondOrderSum, secondOrderOffsetSum]

/-- `cmin`/`cmax` are the lattice operations (used wherever `util::min/max` occurs). -/
theorem cmin_eq_min (a b : K) : cmin a b = min a b := by
  unfold cmin; split
  · next h => exact (min_eq_right h.le).symm
  · next h => exact (min_eq_left (not_lt.mp h)).symm

theorem cmax_eq_max (a b : K) : cmax a b = max a b := by
  unfold cmax; split
  · next h => exact (max_eq_right h.le).symm
  · next h => exact (max_eq_left (not_lt.mp h)).symm

/-! ### Legendre polynomials -/

theorem legendreLoop_snd (x : K) (j : ℕ) (hj : 1 ≤ j) :
    (legendreLoop x j).2.1 = (legendreLoop x j).2.2 := by
  cases j with
  | zero => omega
  | succ j => rfl

theorem legendreLoop_pn1 (x : K) (j : ℕ) :
    (legendreLoop x j).2.1 = legendrePolynomial x (j + 1) := by
  cases j with
  | zero => simp [legendreLoop, legendrePolynomial]
  | succ j => simp [legendrePolynomial, legendreLoop]

theorem legendreLoop_pn2 (x : K) (j : ℕ) :
    (legendreLoop x j).1 = legendrePolynomial x j := by
  cases j with
  | zero => simp [legendreLoop, legendrePolynomial]
  | succ j =>
    rw [← legendreLoop_pn1]; rfl

/-- Bonnet recurrence for every degree: the loop computes the Legendre polynomials. -/
theorem legendre_recurrence (x : K) (n : ℕ) :
    ((n : K) + 2) * legendrePolynomial x (n + 2)
      = (2 * ((n : K) + 1) + 1) * x * legendrePolynomial x (n + 1)
        - ((n : K) + 1) * legendrePolynomial x n := by
  rw [← legendreLoop_pn1 x (n + 1)]
  have h1 := legendreLoop_pn1 x n
  have h2 := legendreLoop_pn2 x n
  have hn : ((n : K) + 1 + 1) ≠ 0 := by
    have : (0 : K) ≤ n := Nat.cast_nonneg n
    linarith
  simp only [legendreLoop, h1, h2]
  push_cast
  field_simp
  ring

theorem legendre_zero_one (x : K) :
    legendrePolynomial x 0 = 1 ∧ legendrePolynomial x 1 = x := by
  simp [legendrePolynomial]

theorem computeNthOrderLegendre_foldl (x : K) (l : List K) (s : K) (d : ℕ) :
    l.foldl (fun (s : K × ℕ) c => (s.1 + c * legendrePolynomial x s.2, s.2 + 1)) (s, d)
      = (s + ∑ i : Fin l.length, l[i] * legendrePolynomial x (d + i), d + l.length) := by
  induction l generalizing s d with
  | nil => simp
  | cons c l ih =>
    simp only [List.foldl_cons, ih, List.length_cons]
    rw [Fin.sum_univ_succ]
    refine Prod.ext ?_ (by simp; omega)
    simp only [Fin.getElem_fin, Fin.val_zero, List.getElem_cons_zero, Fin.val_succ,
      List.getElem_cons_succ, add_zero]
    rw [add_assoc]
    congr 1
    congr 1
    refine Finset.sum_congr rfl fun i _ => ?_
    congr 2
    omega

/-- The N-th order Legendre evaluation is `∑ c_i P_i(x)` for any coefficient list. -/
theorem computeNthOrderLegendre_eq (x : K) (l : List K) :
    computeNthOrderLegendre x l = ∑ i : Fin l.length, l[i] * legendrePolynomial x i := by
  unfold computeNthOrderLegendre
  rw [computeNthOrderLegendre_foldl]
  simp

example : computeNthOrderLegendre (1/2 : ℚ) [1, 2, 4] = 3/2 := by
  norm_num [computeNthOrderLegendre, legendrePolynomial, legendreLoop]

end Xolotl.Util
