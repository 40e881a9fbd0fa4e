import Verif.Network.PsiSelect
import Verif.Network.Select

/-!
# Which regions of tungsten and iron networks are subdivided

Model of `PSIClusterGenerator::refine` and `FeClusterGenerator::refine`: for every axis of a region, whether it is to be subdivided further.

Simplified: `AmountType` is taken as the natural numbers (the differences formed are of sizes at least one, except `lo[V] - 1` for `lo[V] = 0`, which is only reached when the minimum for grouping is zero; the theorems assume it is not); doubles are elements of a field.  The network with all five species is modelled, with flags for deuterium and tritium: the axis of a species that does not exist holds the amount zero only.  The successive assignments to the flag of one axis are written as one condition.  For iron the bound on the length that is computed from the ionisation-like energy by `sqrt`, `cbrt` and `log` is a parameter.
-/

namespace Xolotl.Network.Psi

variable {K : Type*} [Field K] [LinearOrder K] [IsStrictOrderedRing K] [FloorSemiring K]

/-- The options with the grouping widths.  xolotl/core/include/xolotl/core/network/PSIClusterGenerator.h:103-112. -/
structure GOpts (K : Type*) extends Opts K where
  wA : ℕ
  wB : ℕ

/-- `result`: whether each axis is refined. -/
structure Flags where
  he : Bool
  d : Bool
  t : Bool
  v : Bool
  i : Bool
  deriving DecidableEq, Repr

/-- Every axis. -/
def allAxes : Flags := ⟨true, true, true, true, true⟩

/-- `othersBeginAtZero(region, Species::V)`.  xolotl/core/include/xolotl/core/network/impl/PSIClusterGenerator.tpp:65-72. -/
def zeroButV (c : Comp) : Prop := c.he = 0 ∧ c.d = 0 ∧ c.t = 0 ∧ c.i = 0
/-- `othersBeginAtZero(region, Species::I)`. -/
def zeroButI (c : Comp) : Prop := c.he = 0 ∧ c.d = 0 ∧ c.t = 0 ∧ c.v = 0
/-- `othersBeginAtZero(region, Species::He)`. -/
def zeroButHe (c : Comp) : Prop := c.d = 0 ∧ c.t = 0 ∧ c.v = 0 ∧ c.i = 0
/-- `othersBeginAtZero(region, Species::D)`. -/
def zeroButD (c : Comp) : Prop := c.he = 0 ∧ c.t = 0 ∧ c.v = 0 ∧ c.i = 0
/-- `othersBeginAtZero(region, Species::T)`. -/
def zeroButT (c : Comp) : Prop := c.he = 0 ∧ c.d = 0 ∧ c.v = 0 ∧ c.i = 0

instance (c : Comp) : Decidable (zeroButV c) := inferInstanceAs (Decidable (_ ∧ _))
instance (c : Comp) : Decidable (zeroButI c) := inferInstanceAs (Decidable (_ ∧ _))
instance (c : Comp) : Decidable (zeroButHe c) := inferInstanceAs (Decidable (_ ∧ _))
instance (c : Comp) : Decidable (zeroButD c) := inferInstanceAs (Decidable (_ ∧ _))
instance (c : Comp) : Decidable (zeroButT c) := inferInstanceAs (Decidable (_ ∧ _))

/-- `length() < util::max((double)(width + 1), bound)`. -/
def narrow (lo hi w : ℕ) (bound : K) : Prop := ((hi - lo : ℕ) : K) < max ((w + 1 : ℕ) : K) bound

instance (lo hi w : ℕ) (bound : K) : Decidable (narrow lo hi w bound) := inferInstanceAs (Decidable (_ < _))

/-- No helium, deuterium or tritium in the network. -/
def noGas (o : GOpts K) : Prop := o.maxHe = 0 ∧ o.maxD = 0 ∧ o.maxT = 0

instance (o : GOpts K) : Decidable (noGas o) := inferInstanceAs (Decidable (_ ∧ _))

/-- The tests for interstitials.  xolotl/core/include/xolotl/core/network/impl/PSIClusterGenerator.tpp:74-88. -/
def earlyI (o : GOpts K) (r : Reg) : Option Flags :=
  if r.lo.i > 0 then
    if r.lo.i < o.gmin ∧ zeroButI r.lo then some allAxes
    else if r.hi.i > o.maxI then some allAxes
    else if narrow r.lo.i r.hi.i o.wB ((r.lo.i : K) * (1 / 100)) then some { allAxes with i := false }
    else none
  else none

/-- The tests for vacancies without gas in the network, or beyond the bubbles.  The assignment of line 111 is the value already there.  xolotl/core/include/xolotl/core/network/impl/PSIClusterGenerator.tpp:90-120. -/
def earlyV (o : GOpts K) (r : Reg) : Option Flags :=
  if r.lo.v > 0 ∧ noGas o then
    if r.lo.v < o.gmin ∧ zeroButV r.lo then some allAxes
    else if r.hi.v > o.maxPureV then some allAxes
    else if narrow r.lo.v r.hi.v o.wB ((r.lo.v : K) * (1 / 100)) then some { allAxes with v := false }
    else none
  else if r.lo.v > 0 ∧ o.maxPureV > o.maxV then
    if r.lo.v ≤ o.maxV ∧ zeroButV r.lo then some allAxes
    else if narrow r.lo.v r.hi.v o.wB ((r.lo.v : K) * (1 / 100)) ∧ zeroButV r.lo then some { allAxes with v := false }
    else none
  else none

/-- The remaining tests after which every axis is refined.  xolotl/core/include/xolotl/core/network/impl/PSIClusterGenerator.tpp:121-152. -/
def single (hd ht : Bool) (o : GOpts K) (r : Reg) : Prop :=
  (r.hi.v > 1 ∧ zeroButV r.lo) ∨ r.lo.v < o.gmin ∨ noGas o ∨ (r.hi.he > 1 ∧ zeroButHe r.lo) ∨ (hd = true ∧ r.hi.d > 1 ∧ zeroButD r.lo) ∨
    (ht = true ∧ r.hi.t > 1 ∧ zeroButT r.lo)

instance (hd ht : Bool) (o : GOpts K) (r : Reg) : Decidable (single hd ht o r) := inferInstanceAs (Decidable (_ ∨ _))

/-- `maxDPerV`, `maxTPerV`.  xolotl/core/include/xolotl/core/network/impl/PSIClusterGenerator.tpp:155-160. -/
def maxPerV (o : GOpts K) (max : ℕ) (v : ℕ) : K := 2 / 3 * (maxHePerV v o.ratio : K) * (if max > 0 then 1 else 0)

/-- At the helium edge.  xolotl/core/include/xolotl/core/network/impl/PSIClusterGenerator.tpp:161-166. -/
def edge (o : GOpts K) (r : Reg) : Prop :=
  (r.hi.v > 1 ∧ r.lo.v ≤ o.maxV) ∧ r.lo.he ≤ maxHePerV (r.hi.v - 1) o.ratio ∧ maxHePerV (r.lo.v - 1) o.ratio ≤ r.hi.he - 1

instance (o : GOpts K) (r : Reg) : Decidable (edge o r) := inferInstanceAs (Decidable (_ ∧ _))

/-- At the hydrogen edge of one isotope.  xolotl/core/include/xolotl/core/network/impl/PSIClusterGenerator.tpp:174-176, 188-190. -/
def edgeH (o : GOpts K) (max lo hi vlo vhi : ℕ) : Prop :=
  (lo : K) ≤ maxPerV o max (vhi - 1) ∧ maxPerV o max (vlo - 1) ≤ ((hi - 1 : ℕ) : K) ∧ max > 0

instance (o : GOpts K) (max lo hi vlo vhi : ℕ) : Decidable (edgeH o max lo hi vlo vhi) := inferInstanceAs (Decidable (_ ∧ _))

/-- More hydrogen than two thirds of the helium.  xolotl/core/include/xolotl/core/network/impl/PSIClusterGenerator.tpp:195-197. -/
def edgeRatio (hd ht : Bool) (r : Reg) : Prop :=
  hd = true ∧ ht = true ∧ ((r.hi.d + r.hi.t - 2 : ℕ) : K) > 2 / 3 * (r.lo.he : K) + 1 / 2

instance (hd ht : Bool) (r : Reg) : Decidable (edgeRatio (K := K) hd ht r) := inferInstanceAs (Decidable (_ ∧ _))

/-- The flags at the helium edge.  xolotl/core/include/xolotl/core/network/impl/PSIClusterGenerator.tpp:162-215. -/
def edgeFlags (hd ht : Bool) (o : GOpts K) (r : Reg) : Flags where
  he := true
  d := decide (hd = false ∨ ¬ narrow r.lo.d r.hi.d o.wA ((r.lo.d : K) * (r.lo.d : K) * (1 / 10)) ∨ edgeH o o.maxD r.lo.d r.hi.d r.lo.v r.hi.v ∨
    edgeRatio (K := K) hd ht r ∨ r.lo.d = 0)
  t := decide (ht = false ∨ ¬ narrow r.lo.t r.hi.t o.wA ((r.lo.t : K) * (r.lo.t : K) * (1 / 10)) ∨ edgeH o o.maxT r.lo.t r.hi.t r.lo.v r.hi.v ∨
    edgeRatio (K := K) hd ht r ∨ r.lo.t = 0)
  v := true
  i := true

/-- More hydrogen than six per vacancy, without helium.  xolotl/core/include/xolotl/core/network/impl/PSIClusterGenerator.tpp:247-266. -/
def noHe (hd ht : Bool) (r : Reg) : Prop :=
  r.lo.he = 0 ∧ (if hd && ht then r.hi.d + r.hi.t - 2 else if hd then r.hi.d - 1 else r.hi.t - 1) > 6 * (r.hi.v - 1)

instance (hd ht : Bool) (r : Reg) : Decidable (noHe hd ht r) := inferInstanceAs (Decidable (_ ∧ _))

/-- The flags away from the edge.  xolotl/core/include/xolotl/core/network/impl/PSIClusterGenerator.tpp:219-291. -/
def innerFlags (hd ht : Bool) (o : GOpts K) (r : Reg) : Flags where
  he := decide (¬ narrow r.lo.he r.hi.he o.wA ((r.lo.he : K) * (r.lo.he : K) * (1 / 2)) ∨ r.lo.he = 0)
  d := decide (hd = false ∨ ¬ narrow r.lo.d r.hi.d o.wA ((r.lo.d : K) * (r.lo.d : K) * (1 / 2)) ∨ noHe hd ht r ∨ r.lo.d = 0)
  t := decide (ht = false ∨ ¬ narrow r.lo.t r.hi.t o.wA ((r.lo.t : K) * (r.lo.t : K) * (1 / 2)) ∨ noHe hd ht r ∨ r.lo.t = 0)
  v := decide (¬ r.hi.v - r.lo.v < o.wB + 1 ∨ r.hi.v > o.maxPureV + 1 ∨ r.hi.v > o.maxV ∨ r.lo.v = 0)
  i := true

/-- `refine`: the value returned and the flags.  xolotl/core/include/xolotl/core/network/impl/PSIClusterGenerator.tpp:47-302. -/
def refine (hd ht : Bool) (o : GOpts K) (r : Reg) : Bool × Flags :=
  match earlyI o r with
  | some f => (true, f)
  | none =>
    match earlyV o r with
    | some f => (true, f)
    | none =>
      if single hd ht o r then (true, allAxes)
      else if edge o r then (true, edgeFlags hd ht o r)
      else
        let f := innerFlags hd ht o r
        (f.he || (hd && f.d) || (ht && f.t) || f.v || f.i, f)

/-- A region that is subdivided no more: no axis to be refined holds more than one amount. -/
def Final (hd ht : Bool) (o : GOpts K) (r : Reg) : Prop :=
  let f := (refine hd ht o r).2
  (f.he = true → r.hi.he = r.lo.he + 1) ∧ (f.d = true → r.hi.d = r.lo.d + 1) ∧ (f.t = true → r.hi.t = r.lo.t + 1) ∧
    (f.v = true → r.hi.v = r.lo.v + 1) ∧ (f.i = true → r.hi.i = r.lo.i + 1)

instance (hd ht : Bool) (o : GOpts K) (r : Reg) : Decidable (Final hd ht o r) := inferInstanceAs (Decidable (_ ∧ _))

end Xolotl.Network.Psi

namespace Xolotl.Network.Select

variable {K : Type*} [Field K] [LinearOrder K] [IsStrictOrderedRing K]

/-- `FeClusterGenerator::refine`: the result and the flags of helium, vacancies and interstitials; `bound` is `comp`.  xolotl/core/include/xolotl/core/network/impl/FeClusterGenerator.tpp:12-102. -/
def feRefine (o : O3) (bound : K) (r : R3) : Bool × Bool × Bool × Bool :=
  if r.lo.i > 0 then (true, true, true, true)
  else if r.hi.v > 1 ∧ r.lo.v < 11 ∧ r.lo.g = 0 ∧ r.lo.i = 0 then (true, true, true, true)
  else if r.hi.g > 1 ∧ r.lo.g < 9 ∧ r.lo.v = 0 ∧ r.lo.i = 0 then (true, true, true, true)
  else if r.lo.g < o.gmin ∧ r.lo.v < o.gmin then (true, true, true, true)
  else if r.hi.g > o.maxG + 1 ∧ r.hi.v > o.maxV + 1 then (true, true, true, true)
  else
    let a := decide (¬ Psi.narrow r.lo.g r.hi.g o.wG bound ∨ r.lo.g = 0 ∨ r.hi.g > o.maxG + 1)
    let b := decide (¬ Psi.narrow r.lo.v r.hi.v o.wV bound ∨ r.lo.v = 0 ∨ r.hi.v > o.maxV + 1)
    (a || b, a, b, true)

end Xolotl.Network.Select
