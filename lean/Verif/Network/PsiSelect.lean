import Verif.Util.MathSums
import Mathlib.Algebra.Order.Floor.Semiring
import Mathlib.Algebra.Order.Ring.Rat
import Mathlib.Data.Rat.Floor

/-!
# Clusters of tungsten networks: which exist, and their energies

Model of `psi::getMaxHePerV`, of `PSIClusterGenerator::select`, `getFormationEnergy`, `getHeVFormationEnergy` and of `PSIDissociationReaction::computeBindingEnergy`.

Simplified: `AmountType` is taken as the natural numbers (the products and sums formed by `select` stay below `2^32` as long as sizes are below `2^32 / 6`); doubles are elements of a field, so that `2.0 / 3.0 * n` is exact; the truncation of `ratio * amtV` is the floor, zero for negative numbers.  The network with all five species is modelled, with flags for deuterium and tritium: without them their amounts are zero.
-/

namespace Xolotl.Network.Psi

variable {K : Type*} [Field K] [LinearOrder K] [IsStrictOrderedRing K] [FloorSemiring K]

/-- Amounts of helium, deuterium, tritium, vacancies and interstitials. -/
structure Comp where
  he : ℕ
  d : ℕ
  t : ℕ
  v : ℕ
  i : ℕ
  deriving DecidableEq, Repr

/-- A region: origin and upper limit point (excluded). -/
structure Reg where
  lo : Comp
  hi : Comp
  deriving DecidableEq, Repr

/-- The members of the generator used here.  xolotl/core/include/xolotl/core/network/PSIClusterGenerator.h:103-112. -/
structure Opts (K : Type*) where
  maxHe : ℕ
  maxD : ℕ
  maxT : ℕ
  maxV : ℕ
  maxPureV : ℕ
  maxI : ℕ
  gmin : ℕ
  ratio : K

/-- The table of `getMaxHePerV`.  xolotl/core/include/xolotl/core/network/PSIClusterGenerator.h:25-27. -/
def maxHeTable : List ℕ :=
  [0, 9, 14, 18, 20, 27, 30, 35, 40, 45, 50, 55, 60, 65, 70, 75, 80, 85, 90, 95, 98, 100, 101, 103, 105, 107, 109, 110, 112, 116]

/-- `psi::getMaxHePerV`.  xolotl/core/include/xolotl/core/network/PSIClusterGenerator.h:12-35. -/
def maxHePerV (v : ℕ) (ratio : K) : ℕ :=
  if v < 30 then maxHeTable.getD v 0 else max ⌊ratio * v⌋₊ (116 + v - 30 + 1)

/-- `isOnAxis(Species::I)`. -/
def onI (c : Comp) : Prop := 0 < c.i ∧ c.he = 0 ∧ c.d = 0 ∧ c.t = 0 ∧ c.v = 0
/-- `isOnAxis(Species::V)`. -/
def onV (c : Comp) : Prop := 0 < c.v ∧ c.he = 0 ∧ c.d = 0 ∧ c.t = 0 ∧ c.i = 0
/-- `isOnAxis(Species::He)`. -/
def onHe (c : Comp) : Prop := 0 < c.he ∧ c.d = 0 ∧ c.t = 0 ∧ c.v = 0 ∧ c.i = 0
/-- `isOnAxis(Species::D)`. -/
def onD (c : Comp) : Prop := 0 < c.d ∧ c.he = 0 ∧ c.t = 0 ∧ c.v = 0 ∧ c.i = 0
/-- `isOnAxis(Species::T)`. -/
def onT (c : Comp) : Prop := 0 < c.t ∧ c.he = 0 ∧ c.d = 0 ∧ c.v = 0 ∧ c.i = 0

instance (c : Comp) : Decidable (onI c) := inferInstanceAs (Decidable (_ ∧ _))
instance (c : Comp) : Decidable (onV c) := inferInstanceAs (Decidable (_ ∧ _))
instance (c : Comp) : Decidable (onHe c) := inferInstanceAs (Decidable (_ ∧ _))
instance (c : Comp) : Decidable (onD c) := inferInstanceAs (Decidable (_ ∧ _))
instance (c : Comp) : Decidable (onT c) := inferInstanceAs (Decidable (_ ∧ _))

/-- `isZeroPoint`.  xolotl/core/include/xolotl/core/network/impl/PSIClusterGenerator.tpp:313-324. -/
def zeroPoint (r : Reg) : Prop := r.hi.he = 1 ∧ r.hi.d = 1 ∧ r.hi.t = 1 ∧ r.hi.v = 1 ∧ r.hi.i = 1

instance (r : Reg) : Decidable (zeroPoint r) := inferInstanceAs (Decidable (_ ∧ _))

/-- The tests of `select` made for every region; `true` means rejected.  xolotl/core/include/xolotl/core/network/impl/PSIClusterGenerator.tpp:322-378. -/
def rejectAny (hd ht : Bool) (o : Opts K) (r : Reg) : Prop :=
  zeroPoint r
  ∨ (r.lo.i > 0 ∧ ¬onI r.lo)
  ∨ r.lo.i > o.maxI
  ∨ (r.lo.he > o.maxHe ∧ r.hi.d = 1 ∧ r.hi.t = 1 ∧ r.hi.v = 1 ∧ r.hi.i = 1)
  ∨ (hd ∧ r.lo.d > o.maxD ∧ r.hi.he = 1 ∧ r.hi.t = 1 ∧ r.hi.v = 1 ∧ r.hi.i = 1)
  ∨ (ht ∧ r.lo.t > o.maxT ∧ r.hi.he = 1 ∧ r.hi.d = 1 ∧ r.hi.v = 1 ∧ r.hi.i = 1)
  ∨ (r.lo.v > 0 ∧ ¬onV r.lo ∧ o.maxHe = 0 ∧ o.maxD = 0 ∧ o.maxT = 0)
  ∨ r.lo.v > o.maxPureV
  ∨ (r.lo.v > o.maxV ∧ ¬onV r.lo)

/-- The tests for regions without vacancies.  xolotl/core/include/xolotl/core/network/impl/PSIClusterGenerator.tpp:380-406. -/
def rejectNoV (hd ht : Bool) (o : Opts K) (r : Reg) : Prop :=
  r.lo.he > o.maxHe
  ∨ (hd ∧ (r.lo.d > o.maxD ∨ (r.lo.he > 0 ∧ r.lo.d > 0)))
  ∨ (ht ∧ (r.lo.t > o.maxT ∨ (r.lo.he > 0 ∧ r.lo.t > 0)))
  ∨ (hd ∧ ht ∧ r.lo.d > 0 ∧ r.lo.t > 0)

/-- `maxHPerV`.  xolotl/core/include/xolotl/core/network/impl/PSIClusterGenerator.tpp:408-410. -/
def maxHPerV (v : ℕ) (ratio : K) : K := 2 / 3 * (maxHePerV v ratio : K)

/-- The limit on hydrogen, for whichever of deuterium and tritium exist.  xolotl/core/include/xolotl/core/network/impl/PSIClusterGenerator.tpp:445-482. -/
def tooMuchH (hd ht : Bool) (lo : Comp) (hiV hiHe : ℕ) : Prop :=
  let loH := if hd && ht then lo.d + lo.t else if hd then lo.d else lo.t
  (hd || ht) ∧ if lo.he = 0 then loH > 6 * hiV else (loH : K) > 2 / 3 * (hiHe : K) + 1 / 2

/-- The tests for regions with vacancies.  xolotl/core/include/xolotl/core/network/impl/PSIClusterGenerator.tpp:415-483. -/
def rejectV (hd ht : Bool) (o : Opts K) (r : Reg) : Prop :=
  let hiV := min (r.hi.v - 1) o.maxV
  let hiHe := min (r.hi.he - 1) (maxHePerV o.maxV o.ratio)
  (r.lo.v > o.maxV ∧ ¬onV r.lo)
  ∨ r.lo.he > maxHePerV hiV o.ratio
  ∨ (hd ∧ (r.lo.d : K) > maxHPerV hiV o.ratio)
  ∨ (ht ∧ (r.lo.t : K) > maxHPerV hiV o.ratio)
  ∨ tooMuchH (K := K) hd ht r.lo hiV hiHe

/-- `select` for the network with all species or a part of them.  xolotl/core/include/xolotl/core/network/impl/PSIClusterGenerator.tpp:304-486. -/
def Select (hd ht : Bool) (o : Opts K) (r : Reg) : Prop :=
  ¬rejectAny hd ht o r ∧ (r.hi.v = 1 → ¬rejectNoV hd ht o r) ∧ (r.hi.v > 1 → ¬rejectV hd ht o r)

/-- The region of one composition. -/
def point (c : Comp) : Reg := ⟨c, ⟨c.he + 1, c.d + 1, c.t + 1, c.v + 1, c.i + 1⟩⟩

/-- `isSimplex`. -/
def simplex (r : Reg) : Prop := r = point r.lo

instance (r : Reg) : Decidable (simplex r) := inferInstanceAs (Decidable (_ = _))

/-! ### Energies -/

/-- A double that may be infinite or not a number. -/
inductive X (K : Type*) where
  | num (a : K)
  | pinf
  | ninf
  | nan
  deriving DecidableEq

/-- Addition of doubles. -/
def X.add : X K → X K → X K
  | .num a, .num b => .num (a + b)
  | .nan, _ | _, .nan => .nan
  | .pinf, .ninf | .ninf, .pinf => .nan
  | .pinf, _ | _, .pinf => .pinf
  | .ninf, _ | _, .ninf => .ninf

/-- Negation of doubles. -/
def X.neg : X K → X K
  | .num a => .num (-a)
  | .pinf => .ninf
  | .ninf => .pinf
  | .nan => .nan

/-- `util::max(be, -5.0)`: the first argument unless it is smaller.  xolotl/util/include/xolotl/util/MathUtils.h:55-64. -/
def X.floor5 : X K → X K
  | .num a => if a < -5 then .num (-5) else .num a
  | .ninf => .num (-5)
  | x => x

/-- `iFormationEnergies`.  xolotl/core/include/xolotl/core/network/impl/PSIClusterGenerator.tpp:498-499. -/
def iFormation : List K := [0, 10, 37 / 2, 27, 35, 85 / 2, 48]

/-- `heFormationEnergies`.  xolotl/core/include/xolotl/core/network/impl/PSIClusterGenerator.tpp:501-502. -/
def heFormation : List K := [0, 615 / 100, 1144 / 100, 1635 / 100, 21, 261 / 10, 3024 / 100, 3493 / 100, 3880 / 100]

/-- `heV1FormationEnergies`.  xolotl/core/include/xolotl/core/network/impl/PSIClusterGenerator.tpp:838-840. -/
def heV1Formation : List K :=
  [0, 514166 / 100000, 820919 / 100000, 115304 / 10000, 148829 / 10000, 186971 / 10000, 222847 / 10000, 263631 / 10000, 301049 / 10000,
    340081 / 10000, 382069 / 10000, 424217 / 10000, 467378 / 10000, 511551 / 10000, 556738 / 10000]

/-- `heV2FormationEnergies`.  xolotl/core/include/xolotl/core/network/impl/PSIClusterGenerator.tpp:847-850. -/
def heV2Formation : List K :=
  [0, 710098 / 100000, 839913 / 100000, 941133 / 100000, 118748 / 10000, 148296 / 10000, 177259 / 10000, 207747 / 10000, 237993 / 10000,
    267984 / 10000, 300626 / 10000, 330385 / 10000, 365173 / 10000, 399406 / 10000, 4348 / 100, 468537 / 10000, 504484 / 10000,
    540879 / 10000, 577939 / 10000]

/-- The four rows of coefficients for at most 27 vacancies.  xolotl/core/include/xolotl/core/network/impl/PSIClusterGenerator.tpp:807-818. -/
def coefLow : List (List K) :=
  [[25335 / 100, 43536 / 100, 33650 / 100, 19892 / 100, 95154 / 1000, 21544 / 1000],
   [49329 / 100, 10613 / 10, 10239 / 10, 66292 / 100, 29424 / 100, 66962 / 1000],
   [41040 / 100, 99489 / 100, 10446 / 10, 68941 / 100, 28652 / 100, 60712 / 1000],
   [15299 / 100, 35316 / 100, 35610 / 100, 22575 / 100, 87077 / 1000, 15640 / 1000]]

/-- The four rows of coefficients for more than 27 vacancies.  xolotl/core/include/xolotl/core/network/impl/PSIClusterGenerator.tpp:820-831. -/
def coefHigh : List (List K) :=
  [[-(84790 / 100), -(33469 / 10), -(45103 / 10), -(30947 / 10), -(97118 / 100), -(83770 / 1000)],
   [-(15893 / 10), -(48946 / 10), -(60018 / 10), -(40575 / 10), -(13764 / 10), -(16191 / 100)],
   [83491 / 100, 19818 / 10, 18857 / 10, 10271 / 10, 29669 / 100, 29902 / 1000],
   [15472 / 10, 35323 / 10, 33836 / 10, 19692 / 10, 69517 / 100, 11923 / 100]]

/-- The fit used above two vacancies.  xolotl/core/include/xolotl/core/network/impl/PSIClusterGenerator.tpp:863-898. -/
def fit (he v : ℕ) : K :=
  let x : K := 2 * ((he : K) / (9 * (v : K))) - 1
  if v ≤ 27 then
    Util.computeNthOrderLegendre (2 * (((v : K) - 1) / 26) - 1) (coefLow.map (Util.computeNthOrderLegendre x))
  else
    Util.computeNthOrderLegendre (2 * (((v : K) - 1) / 451) - 1) (coefHigh.map (Util.computeNthOrderLegendre x))

/-- `getHeVFormationEnergy`; minus infinity where nothing is known.  xolotl/core/include/xolotl/core/network/impl/PSIClusterGenerator.tpp:797-912. -/
def hev (he v : ℕ) : X K :=
  let energy : X K :=
    if v > 2 then .num (fit he v)
    else if (v = 1 ∧ he < heV1Formation (K := K).length) ∨ (v = 2 ∧ he < heV2Formation (K := K).length) then
      if v = 1 then .num (heV1Formation.getD he 0) else .num (heV2Formation.getD he 0)
    else .ninf
  if he = 0 ∧ v < 3 then (if v = 1 then .num (36 / 10) else .num (725 / 100)) else energy

/-- `getFormationEnergy`.  xolotl/core/include/xolotl/core/network/impl/PSIClusterGenerator.tpp:488-546. -/
def formation (o : Opts K) (r : Reg) : X K :=
  if r.hi.v ≥ o.gmin then .num 0
  else if simplex r then
    if onI r.lo then
      if r.lo.i < iFormation (K := K).length then .num (iFormation.getD r.lo.i 0)
      else .num (48 + ((r.lo.i + 1 - 7 : ℕ) : K))
    else if onHe r.lo then
      if r.lo.he < heFormation (K := K).length then .num (heFormation.getD r.lo.he 0) else .pinf
    else if onD r.lo then .pinf
    else if onT r.lo then .pinf
    else hev r.lo.he r.lo.v
  else .num 0

/-- `beTableV1`.  xolotl/core/include/xolotl/core/network/impl/PSIReaction.tpp:75-87. -/
def beV1 : List (List K) :=
  [[0, 138 / 100, 134 / 100, 108 / 100, 104 / 100, 92 / 100, 71 / 100],
   [0, 1, 95 / 100, 90 / 100, 88 / 100, 80 / 100, 60 / 100],
   [0, 96 / 100, 92 / 100, 85 / 100, 84 / 100, 83 / 100, 50 / 100],
   [0, 86 / 100, 81 / 100, 69 / 100, 64 / 100, 65 / 100, 50 / 100],
   [0, 83 / 100, 80 / 100, 65 / 100, 60 / 100, 60 / 100, 55 / 100],
   [0, 83 / 100, 80 / 100, 60 / 100, 50 / 100, 50 / 100, 50 / 100],
   [0, 80 / 100, 70 / 100, 60 / 100, 50 / 100, 50 / 100, 50 / 100],
   [0, 80 / 100, 75 / 100, 65 / 100, 55 / 100, 55 / 100, 45 / 100],
   [0, 80 / 100, 80 / 100, 70 / 100, 65 / 100, 60 / 100, 55 / 100],
   [0, 80 / 100, 80 / 100, 75 / 100, 70 / 100, 65 / 100, 60 / 100]]

/-- `beTableV2`.  xolotl/core/include/xolotl/core/network/impl/PSIReaction.tpp:89-122. -/
def beV2 : List (List K) :=
  [[0, 160 / 100, 160 / 100, 139 / 100, 130 / 100, 115 / 100, 115 / 100, 105 / 100, 105 / 100, 85 / 100, 80 / 100, 70 / 100],
   [0, 142 / 100, 145 / 100, 135 / 100, 104 / 100, 1, 1, 1, 1, 80 / 100, 75 / 100, 70 / 100],
   [0, 118 / 100, 115 / 100, 115 / 100, 121 / 100, 1, 1, 1, 95 / 100, 80 / 100, 75 / 100, 70 / 100],
   [0, 125 / 100, 116 / 100, 104 / 100, 105 / 100, 95 / 100, 1, 95 / 100, 95 / 100, 75 / 100, 75 / 100, 70 / 100],
   [0, 115 / 100, 111 / 100, 104 / 100, 104 / 100, 95 / 100, 1, 95 / 100, 95 / 100, 75 / 100, 70 / 100, 70 / 100],
   [0, 115 / 100, 110 / 100, 104 / 100, 104 / 100, 95 / 100, 95 / 100, 95 / 100, 95 / 100, 75 / 100, 70 / 100, 70 / 100],
   [0, 115 / 100, 110 / 100, 104 / 100, 104 / 100, 95 / 100, 95 / 100, 95 / 100, 90 / 100, 75 / 100, 70 / 100, 65 / 100],
   [0, 110 / 100, 105 / 100, 1, 1, 95 / 100, 95 / 100, 95 / 100, 90 / 100, 70 / 100, 70 / 100, 65 / 100],
   [0, 110 / 100, 105 / 100, 1, 1, 95 / 100, 95 / 100, 90 / 100, 90 / 100, 70 / 100, 70 / 100, 65 / 100],
   [0, 110 / 100, 105 / 100, 1, 1, 90 / 100, 90 / 100, 90 / 100, 90 / 100, 70 / 100, 70 / 100, 65 / 100],
   [0, 105 / 100, 1, 95 / 100, 95 / 100, 90 / 100, 90 / 100, 90 / 100, 85 / 100, 70 / 100, 65 / 100, 65 / 100],
   [0, 1, 1, 95 / 100, 95 / 100, 90 / 100, 90 / 100, 90 / 100, 85 / 100, 70 / 100, 65 / 100, 65 / 100],
   [0, 1, 95 / 100, 95 / 100, 90 / 100, 90 / 100, 90 / 100, 85 / 100, 85 / 100, 65 / 100, 65 / 100, 60 / 100],
   [0, 95 / 100, 95 / 100, 90 / 100, 90 / 100, 90 / 100, 90 / 100, 85 / 100, 85 / 100, 65 / 100, 65 / 100, 60 / 100],
   [0, 95 / 100, 95 / 100, 90 / 100, 90 / 100, 85 / 100, 85 / 100, 85 / 100, 75 / 100, 65 / 100, 65 / 100, 60 / 100]]

/-- Element of a table; `none` outside. -/
def look (t : List (List K)) (a b : ℕ) : Option K := t[a]?.bind (·[b]?)

/-- `useTable`.  xolotl/core/include/xolotl/core/network/impl/PSIReaction.tpp:137-155. -/
def useTable (hd ht : Bool) (cl p1 p2 : Reg) : Prop :=
  simplex cl ∧ hd ∧ ht ∧ ((simplex p1 ∧ (onD p1.lo ∨ onT p1.lo)) ∨ (simplex p2 ∧ (onD p2.lo ∨ onT p2.lo)))

instance (hd ht : Bool) (cl p1 p2 : Reg) : Decidable (useTable hd ht cl p1 p2) := inferInstanceAs (Decidable (_ ∧ _))

/-- The value from the tables, `0` when they are not used, `none` when they are read outside.  xolotl/core/include/xolotl/core/network/impl/PSIReaction.tpp:128, 157-168. -/
def tableEnergy (hd ht : Bool) (cl p1 p2 : Reg) : Option K :=
  if useTable hd ht cl p1 p2 then
    if cl.lo.v = 1 then look beV1 cl.lo.he (cl.lo.d + cl.lo.t)
    else if cl.lo.v = 2 then look beV2 cl.lo.he (cl.lo.d + cl.lo.t)
    else some 0
  else some 0

/-- The loop for `minV`.  xolotl/core/include/xolotl/core/network/impl/PSIReaction.tpp:175-181. -/
def minV (he : ℕ) : ℕ :=
  (List.range 30).foldl (fun m k => if he > maxHePerV (k + 1) (4 : ℚ) then k + 1 else m) 1

/-- `lowerV`.  xolotl/core/include/xolotl/core/network/impl/PSIReaction.tpp:175, 182. -/
def lowerV (he : ℕ) : ℕ := max 16 (minV he + 2)

/-- The binding energy of a vacancy computed from the fit. -/
def beV (he v : ℕ) : X K := ((hev he (v - 1)).add (hev 0 1)).add (hev he v).neg

/-- The interpolated value.  xolotl/core/include/xolotl/core/network/impl/PSIReaction.tpp:185-210. -/
def interpolated (he v : ℕ) : X K :=
  let be1 : X K := beV he (lowerV he)
  let be2 : X K := beV he 31
  if 31 - lowerV he < 4 then be2
  else match be1, be2 with
    | .num a, .num b => .num (a + ((v - lowerV he : ℕ) : K) * (b - a) / ((31 - lowerV he : ℕ) : K))
    | _, _ => .nan

/-- The test for the interpolation.  xolotl/core/include/xolotl/core/network/impl/PSIReaction.tpp:183-184. -/
def interpolates (cl p1 p2 : Reg) : Prop := (onV p1.lo ∨ onV p2.lo) ∧ lowerV cl.lo.he ≤ cl.lo.v ∧ cl.lo.v ≤ 31

instance (cl p1 p2 : Reg) : Decidable (interpolates cl p1 p2) := inferInstanceAs (Decidable (_ ∧ _))

/-- `computeBindingEnergy`; `none` when a table is read outside.  xolotl/core/include/xolotl/core/network/impl/PSIReaction.tpp:65-219. -/
def binding (hd ht : Bool) (o : Opts K) (cl p1 p2 : Reg) : Option (X K) := do
  let be ← tableEnergy hd ht cl p1 p2
  let x : X K :=
    if be = 0 then
      if interpolates cl p1 p2 then interpolated cl.lo.he cl.lo.v
      else ((formation o p1).add (formation o p2)).add (formation o cl).neg
    else .num be
  return x.floor5

end Xolotl.Network.Psi
