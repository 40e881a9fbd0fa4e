import Verif.Network.PsiSelect
import Verif.Network.Select
import Mathlib.Analysis.SpecialFunctions.Pow.Real
import Mathlib.Analysis.SpecialFunctions.Sqrt
import Mathlib.Analysis.Real.Pi.Bounds
import Mathlib.Algebra.BigOperators.Intervals

/-!
# Radii and mobilities of clusters

Model of `getReactionRadius`, `getMigrationEnergy` and `getDiffusionFactor` of the five cluster generators.  Doubles are real numbers, `pi` is the number; an infinite migration energy is `none`.  `cbrt` and `pow(·, 1.0 / 3.0)` are the same function here.
-/

namespace Xolotl.Network.Radius

open Real

/-- Mean of a function over an interval `[lo, hi)`: the loops over `makeIntervalRange` and the division by `length`. -/
noncomputable def mean (f : ℕ → ℝ) (lo hi : ℕ) : ℝ := (∑ j ∈ Finset.Ico lo hi, f j) / ((hi - lo : ℕ) : ℝ)

/-- Cube root. -/
noncomputable def cbrt (x : ℝ) : ℝ := x ^ (1 / 3 : ℝ)

/-! ### Tungsten -/

/-- The arguments of `getReactionRadius` and the factor for hydrogen. -/
structure Par where
  /-- `latticeParameter` -/
  a : ℝ
  /-- `interstitialBias` -/
  bias : ℝ
  /-- `impurityRadius` -/
  imp : ℝ
  /-- `_hydrogenRadiusFactor` -/
  hyd : ℝ

/-- Interstitials.  xolotl/core/include/xolotl/core/network/impl/PSIClusterGenerator.tpp:707-716, 764-773. -/
noncomputable def psiI (p : Par) (n : ℕ) : ℝ :=
  p.bias * (√3 / 4) * p.a + cbrt (3 / (8 * π) * p.a ^ 3 * n) - cbrt (3 / (8 * π) * p.a ^ 3)

/-- Helium.  xolotl/core/include/xolotl/core/network/impl/PSIClusterGenerator.tpp:717-726. -/
noncomputable def psiHe (p : Par) (n : ℕ) : ℝ :=
  p.imp + cbrt (3 / (4 * π) * (1 / 10) * p.a ^ 3 * n) - cbrt (3 / (4 * π) * (1 / 10) * p.a ^ 3)

/-- Deuterium and tritium.  xolotl/core/include/xolotl/core/network/impl/PSIClusterGenerator.tpp:727-752. -/
noncomputable def psiH (p : Par) (n : ℕ) : ℝ := psiHe p n * p.hyd

/-- Vacancies and bubbles.  xolotl/core/include/xolotl/core/network/impl/PSIClusterGenerator.tpp:754-759, 780-788. -/
noncomputable def psiV (p : Par) (n : ℕ) : ℝ :=
  √3 / 4 * p.a + cbrt (3 * p.a ^ 3 * n / (8 * π)) - cbrt (3 * p.a ^ 3 / (8 * π))

/-- `PSIClusterGenerator::getReactionRadius`.  xolotl/core/include/xolotl/core/network/impl/PSIClusterGenerator.tpp:695-795. -/
noncomputable def psiRadius (p : Par) (r : Psi.Reg) : ℝ :=
  if Psi.simplex r then
    if Psi.onI r.lo then psiI p r.lo.i
    else if Psi.onHe r.lo then psiHe p r.lo.he
    else if Psi.onD r.lo then psiH p r.lo.d
    else if Psi.onT r.lo then psiH p r.lo.t
    else psiV p r.lo.v
  else if Psi.onI r.lo then mean (psiI p) r.lo.i r.hi.i
  else mean (psiV p) r.lo.v r.hi.v

/-- `iMigration`.  xolotl/core/include/xolotl/core/network/impl/PSIClusterGenerator.tpp:556-557. -/
noncomputable def iMigration : List ℝ := [0, 1 / 100, 2 / 100, 3 / 100, 4 / 100, 5 / 100]

/-- `heMigration`.  xolotl/core/include/xolotl/core/network/impl/PSIClusterGenerator.tpp:559-560. -/
noncomputable def heMigration : List ℝ := [0, 13 / 100, 20 / 100, 25 / 100, 20 / 100, 12 / 100, 3 / 10, 4 / 10]

/-- Migration energy of a large interstitial cluster.  xolotl/core/include/xolotl/core/network/impl/PSIClusterGenerator.tpp:578, 612. -/
noncomputable def iLarge (n : ℕ) : ℝ := min (n : ℝ) 15 * (1 / 10)

/-- `PSIClusterGenerator::getMigrationEnergy`; `none` is infinity.  xolotl/core/include/xolotl/core/network/impl/PSIClusterGenerator.tpp:548-620. -/
noncomputable def psiMigration (r : Psi.Reg) : Option ℝ :=
  if Psi.simplex r then
    if Psi.onI r.lo then some (if r.lo.i < iMigration.length then iMigration.getD r.lo.i 0 else iLarge r.lo.i)
    else if Psi.onHe r.lo ∧ r.lo.he < heMigration.length then some (heMigration.getD r.lo.he 0)
    else if Psi.onD r.lo ∧ r.lo.d = 1 then some (38 / 100)
    else if Psi.onT r.lo ∧ r.lo.t = 1 then some (38 / 100)
    else if Psi.onV r.lo ∧ r.lo.v ≤ 1 then some (130 / 100)
    else none
  else if Psi.onI r.lo then some (mean iLarge r.lo.i r.hi.i)
  else none

/-- `iDiffusion`.  xolotl/core/include/xolotl/core/network/impl/PSIClusterGenerator.tpp:630-631. -/
noncomputable def iDiffusion : List ℝ := [0, 88 * 10 ^ 9, 80 * 10 ^ 9, 39 * 10 ^ 9, 20 * 10 ^ 9, 10 * 10 ^ 9]

/-- `heDiffusion`.  xolotl/core/include/xolotl/core/network/impl/PSIClusterGenerator.tpp:633-634. -/
noncomputable def heDiffusion : List ℝ :=
  [0, 29 * 10 ^ 9, 32 * 10 ^ 9, 23 * 10 ^ 9, 17 * 10 ^ 9, 5 * 10 ^ 9, 10 ^ 9, 5 * 10 ^ 8]

/-- Diffusion factor of a large interstitial cluster.  xolotl/core/include/xolotl/core/network/impl/PSIClusterGenerator.tpp:652, 685. -/
noncomputable def iLargeD (n : ℕ) : ℝ := 88 * 10 ^ 9 / (n : ℝ)

/-- `PSIClusterGenerator::getDiffusionFactor`.  xolotl/core/include/xolotl/core/network/impl/PSIClusterGenerator.tpp:622-693. -/
noncomputable def psiDiffusion (r : Psi.Reg) : ℝ :=
  if Psi.simplex r then
    if Psi.onI r.lo then (if r.lo.i < iDiffusion.length then iDiffusion.getD r.lo.i 0 else iLargeD r.lo.i)
    else if Psi.onHe r.lo ∧ r.lo.he < heDiffusion.length then heDiffusion.getD r.lo.he 0
    else if Psi.onD r.lo ∧ r.lo.d = 1 then 283 * 10 ^ 9
    else if Psi.onT r.lo ∧ r.lo.t = 1 then 231 * 10 ^ 9
    else if Psi.onV r.lo ∧ r.lo.v = 1 then 18 * 10 ^ 11
    else 0
  else if Psi.onI r.lo then mean iLargeD r.lo.i r.hi.i
  else 0

/-! ### Fuel -/

/-- Bubbles of fuel networks.  xolotl/core/include/xolotl/core/network/impl/NEClusterGenerator.tpp:163-164, 177-179, 185-187. -/
noncomputable def neV (p : Par) (n : ℕ) : ℝ :=
  p.a * √2 / 2 + cbrt (3 * (1 / 4 * p.a * p.a * p.a) * n / (4 * π)) - cbrt (3 * (1 / 4 * p.a * p.a * p.a) / (4 * π))

/-- `isSimplex`. -/
def simplex3 (r : Select.R3) : Prop := r = Select.point3 r.lo

instance (r : Select.R3) : Decidable (simplex3 r) := inferInstanceAs (Decidable (_ = _))

/-- `NEClusterGenerator::getReactionRadius`.  xolotl/core/include/xolotl/core/network/impl/NEClusterGenerator.tpp:153-194. -/
noncomputable def neRadius (p : Par) (r : Select.R3) : ℝ :=
  if simplex3 r then
    if r.lo.i > 0 ∧ r.lo.g = 0 ∧ r.lo.v = 0 then p.a / 2
    else if r.lo.g > 0 ∧ r.lo.v = 0 ∧ r.lo.i = 0 then p.imp
    else if r.lo.v > 0 ∧ r.lo.g = 0 ∧ r.lo.i = 0 then p.a * √2 / 2
    else neV p r.lo.v
  else mean (neV p) r.lo.v r.hi.v

/-! ### Iron -/

/-- Vacancies and bubbles of iron networks.  xolotl/core/include/xolotl/core/network/impl/FeClusterGenerator.tpp:247-250, 256-257. -/
noncomputable def feV (p : Par) (n : ℕ) : ℝ := p.a * cbrt (3 * n / π) * (1 / 2)

/-- `FeClusterGenerator::getReactionRadius`.  xolotl/core/include/xolotl/core/network/impl/FeClusterGenerator.tpp:221-263. -/
noncomputable def feRadius (p : Par) (r : Select.R3) : ℝ :=
  if simplex3 r then
    if r.lo.i > 0 ∧ r.lo.g = 0 ∧ r.lo.v = 0 then p.a * cbrt (3 / π) * (1 / 2)
    else if r.lo.g > 0 ∧ r.lo.v = 0 ∧ r.lo.i = 0 then psiHe p r.lo.g
    else feV p r.lo.v
  else mean (feV p) r.lo.v r.hi.v

/-- `FeClusterGenerator::getMigrationEnergy`.  xolotl/core/include/xolotl/core/network/impl/FeClusterGenerator.tpp:141-178. -/
noncomputable def feMigration (r : Select.R3) : Option ℝ :=
  if simplex3 r then
    if r.lo.i > 0 ∧ r.lo.g = 0 ∧ r.lo.v = 0 then (if r.lo.i = 1 then some (34 / 100) else none)
    else if r.lo.g > 0 ∧ r.lo.v = 0 ∧ r.lo.i = 0 then (if r.lo.g < 4 then some ([0, 6 / 100, 6 / 100, 6 / 100].getD r.lo.g 0) else none)
    else if r.lo.v > 0 ∧ r.lo.g = 0 ∧ r.lo.i = 0 then
      (if r.lo.v < 5 then some ([0, 67 / 100, 62 / 100, 37 / 100, 48 / 100].getD r.lo.v 0) else none)
    else none
  else none

/-- `FeClusterGenerator::getDiffusionFactor`.  xolotl/core/include/xolotl/core/network/impl/FeClusterGenerator.tpp:180-219. -/
noncomputable def feDiffusion (r : Select.R3) : ℝ :=
  if simplex3 r then
    if r.lo.i > 0 ∧ r.lo.g = 0 ∧ r.lo.v = 0 then (if r.lo.i = 1 then 10 ^ 11 else 0)
    else if r.lo.g > 0 ∧ r.lo.v = 0 ∧ r.lo.i = 0 then (if r.lo.g < 4 then [0, 10 ^ 11, 5 * 10 ^ 10, 33 * 10 ^ 9].getD r.lo.g 0 else 0)
    else if r.lo.v > 0 ∧ r.lo.g = 0 ∧ r.lo.i = 0 then
      (if r.lo.v < 5 then [0, 10 ^ 11, 5 * 10 ^ 10, 33 * 10 ^ 9, 25 * 10 ^ 9].getD r.lo.v 0 else 0)
    else 0
  else 0

/-! ### Zirconium -/

/-- One term of the sum for vacancies and interstitials: `lo` is the smallest size of the group.  xolotl/core/include/xolotl/core/network/impl/ZrClusterGenerator.tpp:178-183, 208-213. -/
noncomputable def zrTerm (lo j : ℕ) : ℝ := if lo < 10 then cbrt (5586 / 10 ^ 6 * j) else 163076 / 10 ^ 6 * √j

/-- One term of the sum for basal clusters; `t` is `_transitionSize`.  xolotl/core/include/xolotl/core/network/impl/ZrClusterGenerator.tpp:188-203. -/
noncomputable def zrBasal (t lo j : ℕ) : ℝ :=
  if lo < t then
    √((√3 / 2 * (3232 / 1000) * (3232 / 1000) * j
      + 3232 / 1000 / 2 * √(3 * (3232 / 1000) * (3232 / 1000) + 4 * (517 / 100) * (517 / 100)) * j) / (4 * π)) / 10
  else 169587 / 10 ^ 6 * √j

/-- `ZrClusterGenerator::getReactionRadius`.  xolotl/core/include/xolotl/core/network/impl/ZrClusterGenerator.tpp:166-218. -/
noncomputable def zrRadius (t : ℕ) (r : Select.RZ) : ℝ :=
  if r.lo.v > 0 ∧ r.lo.b = 0 ∧ r.lo.i = 0 then mean (zrTerm r.lo.v) r.lo.v r.hi.v
  else if r.lo.b > 0 ∧ r.lo.v = 0 ∧ r.lo.i = 0 then mean (zrBasal t r.lo.b) r.lo.b r.hi.b
  else if r.lo.i > 0 ∧ r.lo.v = 0 ∧ r.lo.b = 0 then mean (zrTerm r.lo.i) r.lo.i r.hi.i
  else 0

/-- `ZrClusterGenerator::getMigrationEnergy`.  xolotl/core/include/xolotl/core/network/impl/ZrClusterGenerator.tpp:113-137. -/
noncomputable def zrMigration (r : Select.RZ) : Option ℝ :=
  if (r.lo.v > 0 ∧ r.lo.b = 0 ∧ r.lo.i = 0) ∧ r.lo.v ≤ 6 then some (-1)
  else if r.lo.i > 0 ∧ r.lo.v = 0 ∧ r.lo.b = 0 then
    if r.lo.i ≤ 3 then some (-1) else if r.lo.i = 9 then some (10 / 100) else none
  else none

/-- `ZrClusterGenerator::getDiffusionFactor`.  xolotl/core/include/xolotl/core/network/impl/ZrClusterGenerator.tpp:139-164. -/
noncomputable def zrDiffusion (r : Select.RZ) : ℝ :=
  if (r.lo.v > 0 ∧ r.lo.b = 0 ∧ r.lo.i = 0) ∧ r.lo.v ≤ 6 then 1
  else if r.lo.i > 0 ∧ r.lo.v = 0 ∧ r.lo.b = 0 then
    if r.lo.i ≤ 3 then 1 else if r.lo.i = 9 then 0 else 0
  else 0

/-! ### Alloys -/

/-- Radius of a loop of `n` with the given Burgers vector.  xolotl/core/include/xolotl/core/network/impl/AlloyClusterGenerator.tpp:286-287, 292-295, 299-302, 306-309. -/
noncomputable def alloyLoop (p : Par) (b : ℝ) (n : ℕ) : ℝ := √(n * (1 / 4 * p.a * p.a / π) / b)

/-- Radius of a void of `n`.  xolotl/core/include/xolotl/core/network/impl/AlloyClusterGenerator.tpp:286-287, 313-315, 319-321, 325-327. -/
noncomputable def alloyBall (p : Par) (n : ℕ) : ℝ := cbrt (3 / 4 * (1 / 4 * p.a * p.a / π) * p.a * n)

/-- The axis of the origin, none if there are several or none. -/
inductive Axis
  | v | void | faulted | i | perfect | frank
  deriving DecidableEq

/-- `isOnAxis` of the six species, in the order of the tests.  xolotl/core/include/xolotl/core/network/impl/AlloyClusterGenerator.tpp:291-325. -/
def axis (c : Select.CA) : Option (Axis × ℕ) :=
  if Select.nAxis c ≠ 1 then none
  else if c.perfect > 0 then some (.perfect, c.perfect)
  else if c.frank > 0 then some (.frank, c.frank)
  else if c.faulted > 0 then some (.faulted, c.faulted)
  else if c.void > 0 then some (.void, c.void)
  else if c.v > 0 then some (.v, c.v)
  else some (.i, c.i)

/-- The radius of one size on an axis. -/
noncomputable def alloyOne (p : Par) : Axis → ℕ → ℝ
  | .perfect => alloyLoop p (1 / 2)
  | .frank => alloyLoop p (333 / 1000)
  | .faulted => alloyLoop p (333 / 1000)
  | .void => alloyBall p
  | .v => alloyBall p
  | .i => alloyBall p

/-- Upper limit on an axis. -/
def upper (c : Select.CA) : Axis → ℕ
  | .perfect => c.perfect
  | .frank => c.frank
  | .faulted => c.faulted
  | .void => c.void
  | .v => c.v
  | .i => c.i

/-- `AlloyClusterGenerator::getReactionRadius`.  xolotl/core/include/xolotl/core/network/impl/AlloyClusterGenerator.tpp:279-332. -/
noncomputable def alloyRadius (p : Par) (r : Select.RA) : ℝ :=
  match axis r.lo with
  | some (x, n) => mean (alloyOne p x) n (upper r.hi x)
  | none => 0

/-- `AlloyClusterGenerator::getMigrationEnergy`.  xolotl/core/include/xolotl/core/network/impl/AlloyClusterGenerator.tpp:217-236. -/
noncomputable def alloyMigration (r : Select.RA) : Option ℝ :=
  match axis r.lo with
  | some (.perfect, _) => some (1 / 2)
  | some (.v, _) => some (13 / 10)
  | some (.i, _) => some (1 / 2)
  | _ => none

/-- `AlloyClusterGenerator::getDiffusionFactor`.  xolotl/core/include/xolotl/core/network/impl/AlloyClusterGenerator.tpp:238-277. -/
noncomputable def alloyDiffusion (p : Par) (r : Select.RA) : ℝ :=
  let d (n : ℕ) : ℝ := 96 * 10 ^ 11 * 1 * (p.a / √2) * (p.a / √2) * (n : ℝ)⁻¹ / 6
  match axis r.lo with
  | some (.perfect, n) => if n < 70 then d n else 0
  | some (.v, n) => d n
  | some (.i, n) => d n
  | _ => 0

end Xolotl.Network.Radius
