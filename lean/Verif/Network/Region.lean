import Verif.Util.MathSums
import Mathlib.Data.Int.Interval
import Mathlib.Algebra.BigOperators.Group.Finset.Basic
import Mathlib.Algebra.BigOperators.Group.Finset.Sigma
import Mathlib.Data.Fintype.BigOperators

/-!
# Intervals and per-axis overlap sums

Model of the (reflected) regions and of the per-axis sums of
`/repo/xolotl/core/include/xolotl/core/network/detail/ReactionUtility.h` and of
`Reaction::computeOverlap` in `impl/Reaction.tpp`.

Loops `for (auto m : makeIntervalRange(I))` that accumulate into a variable starting from zero are written as
finite sums over the integer points of the half-open interval `I`.
-/

namespace Xolotl.Network

open Xolotl.Util

/-- `plsm::Interval`: half-open integer interval `[b, e)` (trusted base: plsm is not in the repo). -/
structure Ival where
  /-- `begin()` -/
  b : ℤ
  /-- `end()` (exclusive) -/
  e : ℤ
  deriving DecidableEq

/-- The integer points enumerated by `makeIntervalRange`. -/
def Ival.pts (I : Ival) : Finset ℤ := Finset.Ico I.b I.e

/-- `length()`. -/
def Ival.len (I : Ival) : ℤ := I.e - I.b

variable {K : Type*} [Field K] [LinearOrder K]

/-- `static_cast<double>(R.end() - 1 + R.begin()) / 2.0`, the group centre
(e.g. ReactionUtility.h:389-391). -/
def Ival.mid (I : Ival) : K := ((I.e - 1 + I.b : ℤ) : K) / 2

/-- Contribution of one axis to `_widths(i)`: the double loop of `Reaction::computeOverlap`,
Reaction.tpp:69-76. -/
def overlapWidth (c1 c2 p1 p2 : Ival) : K :=
  ∑ m ∈ p2.pts, ∑ l ∈ c2.pts,
    cmax (0 : K) (((min (c1.e - 1 + l) (p1.e - 1 + m) - max (c1.b + l) (p1.b + m) : ℤ) : K) + 1)

/-- `computeFirstOrderSum`, ReactionUtility.h:376-393. -/
def computeFirstOrderSum (c1 c2 c3 c4 : Ival) : K :=
  ∑ m ∈ c4.pts, ∑ l ∈ c2.pts,
    firstOrderSum ((max (c3.b + m - l) c1.b : ℤ) : K) ((min (c3.e - 1 + m - l) (c1.e - 1) : ℤ) : K)
      c1.mid

/-- `computeSecondOrderSum`, ReactionUtility.h:401-418. -/
def computeSecondOrderSum (c1 c2 c3 c4 : Ival) : K :=
  ∑ m ∈ c4.pts, ∑ l ∈ c2.pts,
    secondOrderSum ((max (c3.b + m - l) c1.b : ℤ) : K) ((min (c3.e - 1 + m - l) (c1.e - 1) : ℤ) : K)
      c1.mid

/-- `computeSecondOrderOffsetSum`, ReactionUtility.h:426-446. -/
def computeSecondOrderOffsetSum (c1 c2 c3 c4 : Ival) : K :=
  ∑ m ∈ c4.pts, ∑ l ∈ c2.pts,
    secondOrderOffsetSum ((max (c3.b + m - l) c1.b : ℤ) : K)
      ((min (c3.e - 1 + m - l) (c1.e - 1) : ℤ) : K) c1.mid c3.mid ((l - m : ℤ) : K)

/-- `computeThirdOrderSum`, ReactionUtility.h:454-474. -/
def computeThirdOrderSum (c1 c2 c3 c4 : Ival) : K :=
  ∑ m ∈ c4.pts, ∑ l ∈ c2.pts,
    ((l : K) - c2.mid) ^ 2 *
      firstOrderSum ((max (c3.b + m - l) c1.b : ℤ) : K)
        ((min (c3.e - 1 + m - l) (c1.e - 1) : ℤ) : K) c1.mid

/-- The inline second order sum of both reactants (without the leading `factor`),
Reaction.tpp:294-311: `m` over the second product, `l` over the first reactant. -/
def reactantsSecondOrderSum (c1 c2 p1 p2 : Ival) : K :=
  ∑ m ∈ p2.pts, ∑ l ∈ c1.pts,
    ((l : K) - c1.mid) *
      firstOrderSum ((max (p1.b + m - l) c2.b : ℤ) : K)
        ((min (p1.e - 1 + m - l) (c2.e - 1) : ℤ) : K) c2.mid

/-- The inline third order sum for a product (without the leading `factor` and the final division),
Reaction.tpp:376-403. -/
def productThirdOrderSum (c1 c2 this other : Ival) : K :=
  ∑ m ∈ other.pts, ∑ l ∈ c1.pts,
    ((l : K) - c1.mid) *
      secondOrderOffsetSum ((max (this.b + m - l) c2.b : ℤ) : K)
        ((min (this.e - 1 + m - l) (c2.e - 1) : ℤ) : K) c2.mid this.mid ((l - m : ℤ) : K)

/-! ### Independent specification: the set of composition quadruples -/

/-- A composition quadruple on one axis: first reactant, second reactant, first product, second
product. -/
abbrev Quad := ℤ × ℤ × ℤ × ℤ

/-- All quadruples with one size from each group and `r1 + r2 = p1 + p2`. -/
def quads (c1 c2 p1 p2 : Ival) : Finset Quad :=
  (c1.pts ×ˢ c2.pts ×ˢ p1.pts ×ˢ p2.pts).filter fun q => q.1 + q.2.1 = q.2.2.1 + q.2.2.2

end Xolotl.Network
