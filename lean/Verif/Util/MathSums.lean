import Mathlib.Algebra.Order.Field.Basic
import Mathlib.Algebra.CharZero.Defs

/-!
# Closed-form lattice sums of `MathUtils.h`

Model of `/repo/xolotl/util/include/xolotl/util/MathUtils.h`.  `double` is modelled by an arbitrary
linearly ordered field `K` (exact arithmetic, no rounding).
-/

namespace Xolotl.Util

variable {K : Type*} [Field K] [LinearOrder K]

/-- `util::min`, MathUtils.h:44-52 (`if (b < a) return b; return a;`). -/
def cmin (a b : K) : K := if b < a then b else a

/-- `util::max`, MathUtils.h:54-62 (`if (a < b) return b; return a;`). -/
def cmax (a b : K) : K := if a < b then b else a

/-- `firstOrderSum`, MathUtils.h:163-173. -/
def firstOrderSum (alpha beta mean : K) : K :=
  if alpha > beta then 0
  else
    ((beta * (beta + 1)) / 2) - ((alpha * (alpha - 1)) / 2) - ((beta - alpha + 1) * mean)

/-- `secondOrderSum`, MathUtils.h:180-196 (the four successive updates of `toReturn`). -/
def secondOrderSum (alpha beta mean : K) : K :=
  if alpha > beta then 0
  else
    let r := (beta * (beta + 1) * ((2 * beta) + 1)) / 6
    let r := r - (alpha * (alpha - 1) * ((2 * alpha) - 1)) / 6
    let r := r - 2 * mean * (((beta * (beta + 1)) / 2) - ((alpha * (alpha - 1)) / 2))
    r + mean * mean * (beta - alpha + 1)

/-- `secondOrderOffsetSum`, MathUtils.h:203-220. -/
def secondOrderOffsetSum (alpha beta mean1 mean2 offset : K) : K :=
  if alpha > beta then 0
  else
    let r := (beta * (beta + 1) * (2 * beta + 1)) / 6
    let r := r - (alpha * (alpha - 1) * (2 * alpha - 1)) / 6
    let r := r + (offset - mean1 - mean2) *
      (((beta * (beta + 1)) / 2) - ((alpha * (alpha - 1)) / 2))
    r + mean1 * (mean2 - offset) * (beta - alpha + 1)

/-- `legendrePolynomial` loop body state `(Pn2, Pn1, Pn)` after `j` iterations (n = 1 .. j),
MathUtils.h:104-112. -/
def legendreLoop (x : K) : ℕ → K × K × K
  | 0 => (1, x, 0)
  | j + 1 =>
    let s := legendreLoop x j
    let n : K := ((j + 1 : ℕ) : K)
    let pn := (((2 * n + 1) * x * s.2.1) - (n * s.1)) / (n + 1)
    (s.2.1, pn, pn)

/-- `legendrePolynomial(x, degree)`, MathUtils.h:91-115 (for non-negative degree; the loop runs
`n = 1 .. degree-1`). -/
def legendrePolynomial (x : K) (degree : ℕ) : K :=
  if degree = 0 then 1
  else if degree = 1 then x
  else (legendreLoop x (degree - 1)).2.2

/-- `computeNthOrderLegendre` (std::array overload; accumulate with running degree),
MathUtils.h:131-142; the Kokkos overload (144-156) is the same loop. -/
def computeNthOrderLegendre (x : K) (coeffs : List K) : K :=
  (coeffs.foldl (fun (s : K × ℕ) c => (s.1 + c * legendrePolynomial x s.2, s.2 + 1)) (0, 0)).1

end Xolotl.Util
