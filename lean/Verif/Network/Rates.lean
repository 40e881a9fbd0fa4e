import Mathlib.Analysis.SpecialFunctions.Log.Basic
import Mathlib.Analysis.SpecialFunctions.Trigonometric.Basic
import Mathlib.Analysis.SpecialFunctions.Pow.Real

/-!
# Rate constants of production and dissociation reactions

Model of the `getRate` functions of the five networks, of `getRateForProduction` of the production and of the dissociation reactions, of `computeRate` of both, of the diffusion coefficients and of the fit formulas for the binding energies of the alloy network.

Doubles are real numbers here and `core::pi` is the exact number.  Compositions enter only through the axis the origin of the cluster lies on and, for zirconium, its size: every cluster of these two networks lies on one axis.  `none` stands for a value that is not a finite number in the code (division by zero, logarithm of a number that is not positive).
-/

namespace Xolotl.Network.Rates

open Real

/-- Boltzmann constant in eV/K.  xolotl/core/include/xolotl/core/Constants.h:19. -/
noncomputable def kB : ℝ := 8.6173324e-5

/-- xolotl/core/include/xolotl/core/Constants.h:103. -/
def zFactor : ℝ := 100

/-- `DefaultClusterUpdater::updateDiffusionCoefficient`.  xolotl/core/include/xolotl/core/network/impl/ReactionNetwork.tpp:1679-1686. -/
noncomputable def arrhenius (d0 em T : ℝ) : ℝ := d0 * exp (-em / (kB * T))

/-- `psi::getRate` and `fe::getRate`, the same formula.  xolotl/core/include/xolotl/core/network/impl/PSIReaction.tpp:20-28, FeReaction.tpp:17-25. -/
noncomputable def sphereRate (r0 r1 d0 d1 : ℝ) : ℝ := 4 * π * (r0 + r1) * (d0 + d1)

/-- What a rate needs to know about a cluster; `κ` is the type of the axes of the network. -/
structure Cl (κ : Type) where
  /-- axis of the origin of the region -/
  kind : κ
  /-- amount of the origin on that axis -/
  size : ℕ
  /-- `getReactionRadius` -/
  radius : ℝ
  /-- `getDiffusionCoefficient(gridIndex)` -/
  dc : ℝ
  /-- `anisotropyRatio(id, gridIndex)`, zirconium only -/
  aniso : ℝ := 0
  /-- `dislocationCaptureRadius(id, 0)`, for interstitials, zirconium only -/
  rdI : ℝ := 0
  /-- `dislocationCaptureRadius(id, 1)`, for vacancies, zirconium only -/
  rdV : ℝ := 0

/-! ## The clusters of tungsten and iron -/

/-- `getRateForProduction` of the production reaction.  xolotl/core/include/xolotl/core/network/impl/PSIReaction.tpp:34-46, FeReaction.tpp:30-42. -/
noncomputable def sphereProduction {κ : Type} (cl : ℕ → Cl κ) (i j : ℕ) : ℝ :=
  sphereRate (cl i).radius (cl j).radius (cl i).dc (cl j).dc

/-- `getRateForProduction` of the dissociation reaction, from the two products.  xolotl/core/include/xolotl/core/network/impl/PSIReaction.tpp:51-63, FeReaction.tpp:46-58. -/
noncomputable def sphereCapture {κ : Type} (cl : ℕ → Cl κ) (_k i j : ℕ) : ℝ :=
  sphereRate (cl i).radius (cl j).radius (cl i).dc (cl j).dc

/-- `DissociationReaction::computeRate` from the capture rate and the binding energy.  xolotl/core/include/xolotl/core/network/impl/Reaction.tpp:2345-2358. -/
noncomputable def kMinus (omega T kPlus eb : ℝ) : ℝ := (1 / omega) * kPlus * exp (-eb / (kB * T))

/-! ## Alloy -/

/-- The axes of the alloy network.  xolotl/core/include/xolotl/core/network/AlloyTraits.h:21-29. -/
inductive AlloyKind | v | void | faulted | i | perfect | frank
  deriving DecidableEq, Repr

/-- xolotl/core/include/xolotl/core/Constants.h:42. -/
noncomputable def alloyCore : ℝ := 0.36

/-- `cl0IsSphere`.  xolotl/core/include/xolotl/core/network/impl/AlloyReaction.tpp:24-29. -/
def AlloyKind.sphere : AlloyKind → Bool
  | .v => true
  | .void => true
  | .i => true
  | _ => false

/-- The spherical capture coefficient `zs`.  xolotl/core/include/xolotl/core/network/impl/AlloyReaction.tpp:22. -/
noncomputable def alloyZs (r0 r1 : ℝ) : ℝ := 4 * π * (r0 + r1 + alloyCore)

/-- The part of `alloy::getRate` with a loop of radius `rl` and the other radius `rs`.  xolotl/core/include/xolotl/core/network/impl/AlloyReaction.tpp:49-52. -/
noncomputable def alloyLoop (zs rl rs d : ℝ) : ℝ :=
  let p := 1 / (1 + (rl / (rs + alloyCore)) ^ 2)
  let zl := 4 * π * π * rl / log (1 + 8 * rl / (rs + alloyCore))
  d * (p * zs + (1 - p) * zl)

/-- `alloy::getRate`.  xolotl/core/include/xolotl/core/network/impl/AlloyReaction.tpp:17-60. -/
noncomputable def alloyRate (k0 k1 : AlloyKind) (r0 r1 d0 d1 : ℝ) : ℝ :=
  if k0.sphere && k1.sphere then alloyZs r0 r1 * (d0 + d1)
  else
    let rl := if !k0.sphere && !k1.sphere then (if r0 < r1 then r1 else r0) else if k0.sphere then r1 else r0
    let rs := if !k0.sphere && !k1.sphere then (if r0 < r1 then r0 else r1) else if k0.sphere then r0 else r1
    let bias := if k0 = .i ∨ k1 = .i then 1.2 else 1
    alloyLoop (alloyZs r0 r1) rl rs (d0 + d1) * bias

/-- `AlloyProductionReaction::getRateForProduction` for reactants `i`, `j` and first product `k`.  xolotl/core/include/xolotl/core/network/impl/AlloyReaction.tpp:65-98. -/
noncomputable def alloyProduction (cl : ℕ → Cl AlloyKind) (i j k : ℕ) : ℝ :=
  let rate := alloyRate (cl i).kind (cl j).kind (cl i).radius (cl j).radius (cl i).dc (cl j).dc
  if (cl i).kind = .i ∧ (cl j).kind = .i ∧ (cl k).kind ≠ .i then rate * 0.5
  else if (cl i).kind = .v ∧ (cl j).kind = .v ∧ (cl k).kind ≠ .v then rate * 0.5
  else rate

/-- `AlloyDissociationReaction::getRateForProduction` for reactant `k` and products `i`, `j`.  xolotl/core/include/xolotl/core/network/impl/AlloyReaction.tpp:102-135. -/
noncomputable def alloyCapture (cl : ℕ → Cl AlloyKind) (k i j : ℕ) : ℝ :=
  let rate := alloyRate (cl i).kind (cl j).kind (cl i).radius (cl j).radius (cl i).dc (cl j).dc
  if (cl i).kind = .i ∧ (cl j).kind = .i ∧ (cl k).kind ≠ .i then rate * 0.5
  else if (cl i).kind = .v ∧ (cl j).kind = .v ∧ (cl k).kind ≠ .v then rate * 0.5
  else rate

/-- The fit of the vacancy binding energy with `n` vacancies: `a` is 3.1 for vacancies and voids, 3.2 for faulted loops.  `cbrt(x * x)` is the power 2/3 of a number that is not negative.  xolotl/core/include/xolotl/core/network/impl/AlloyReaction.tpp:165, 172, 178. -/
noncomputable def alloyFit (a n : ℝ) : ℝ := 1.9 - a * (n ^ (2 / 3 : ℝ) - (n - 1) ^ (2 / 3 : ℝ))

/-- `AlloyDissociationReaction::computeBindingEnergy` for a reactant of mean size `n` on axis `k` and products on the axes `p1`, `p2`.  xolotl/core/include/xolotl/core/network/impl/AlloyReaction.tpp:139-190. -/
noncomputable def alloyBinding (k p1 p2 : AlloyKind) (n : ℝ) : ℝ :=
  let be :=
    match k with
    | .void => if p1 = .v ∨ p2 = .v then alloyFit 3.1 n else 5
    | .faulted => if p1 = .v ∨ p2 = .v then alloyFit 3.2 n else 5
    | .v => if p1 = .v ∨ p2 = .v then alloyFit 3.1 n else 5
    | _ => 5
  min 5 (max be 0.1)

/-! ## Zirconium -/

/-- The axes of the zirconium network.  xolotl/core/include/xolotl/core/network/ZrTraits.h:25-30. -/
inductive ZrKind | v | basal | i
  deriving DecidableEq, Repr

/-- xolotl/core/include/xolotl/core/Constants.h:45. -/
noncomputable def zrCore : ℝ := 0.645

/-- `cl0IsLoop`.  xolotl/core/include/xolotl/core/network/impl/ZrReaction.tpp:50, 59. -/
def ZrLoop (c : Cl ZrKind) : Prop := 9 < c.size

noncomputable instance (c : Cl ZrKind) : Decidable (ZrLoop c) := inferInstanceAs (Decidable (9 < c.size))

/-- The capture radius of loop `c` for the other cluster: `rdCl[.][clIsV]`.  xolotl/core/include/xolotl/core/network/impl/ZrReaction.tpp:65, 90. -/
def zrRd (c other : Cl ZrKind) : ℝ := if other.kind = .v then c.rdV else c.rdI

/-- The capture efficiency.  xolotl/core/include/xolotl/core/network/impl/ZrReaction.tpp:72-80, 97-105; `pow(p, -2)` of zero is infinite. -/
noncomputable def zrEfficiency (k : ZrKind) (p : ℝ) : Option ℝ :=
  match k with
  | .v => if p = 0 then none else some (0.78 * (1 / p ^ 2) + 0.66 * p - 0.44)
  | .basal => some p
  | .i => if p = 0 then none else some (0.70 * (1 / p ^ 2) + 0.78 * p - 0.47)

/-- The rate for a dislocation loop `c` capturing `o`: `r0`, `r1` of the code are the radii of `c` and `o`, or the other way round in the second branch.  xolotl/core/include/xolotl/core/network/impl/ZrReaction.tpp:65-83, 90-108. -/
noncomputable def zrLoopRate (c o : Cl ZrKind) (p : ℝ) (transition : ℕ) (d : ℝ) : Option ℝ :=
  let rd := zrRd c o
  if o.radius + rd ≤ 0 ∨ c.radius ≤ 0 then none
  else
    let alpha := if c.kind = .basal ∧ c.size < transition then 1 else (1 + (c.radius / (3 * (o.radius + rd))) ^ 2)⁻¹
    let spherical := 4 * π * (c.radius + o.radius + rd)
    let toroidal := (4 * π * π * c.radius) / log (1 + (8 * c.radius) / (o.radius + rd))
    (zrEfficiency c.kind p).map fun pl => ((1 - alpha) * toroidal * pl + alpha * spherical) * d

/-- `zr::getRate`.  xolotl/core/include/xolotl/core/network/impl/ZrReaction.tpp:17-113. -/
noncomputable def zrRate (c0 c1 : Cl ZrKind) (p : ℝ) (transition : ℕ) : Option ℝ :=
  if ZrLoop c0 then zrLoopRate c0 c1 p transition (c0.dc + c1.dc)
  else if ZrLoop c1 then zrLoopRate c1 c0 p transition (c0.dc + c1.dc)
  else some (4 * π * (c0.radius + c1.radius + zrCore) * (c0.dc + c1.dc))

/-- The anisotropy ratio of the mobile cluster.  xolotl/core/include/xolotl/core/network/impl/ZrReaction.tpp:130-136, 168-174. -/
noncomputable def zrP (c0 c1 : Cl ZrKind) : ℝ := if c0.dc > 0 then c0.aniso else if c1.dc > 0 then c1.aniso else 0

/-- `ZrProductionReaction::getRateForProduction`.  xolotl/core/include/xolotl/core/network/impl/ZrReaction.tpp:118-152. -/
noncomputable def zrProduction (cl : ℕ → Cl ZrKind) (transition i j : ℕ) : Option ℝ :=
  zrRate (cl i) (cl j) (zrP (cl i) (cl j)) transition

/-- `ZrDissociationReaction::getRateForProduction`.  xolotl/core/include/xolotl/core/network/impl/ZrReaction.tpp:156-190. -/
noncomputable def zrCapture (cl : ℕ → Cl ZrKind) (transition _k i j : ℕ) : Option ℝ :=
  zrRate (cl i) (cl j) (zrP (cl i) (cl j)) transition

/-- `ZrClusterGenerator::getDiffusionFactor`.  xolotl/core/include/xolotl/core/network/impl/ZrClusterGenerator.tpp:142-164. -/
def zrDiffusionFactor (k : ZrKind) (size : ℕ) : ℝ :=
  if k = .v ∧ size ≤ 6 then 1
  else if k = .i then (if size ≤ 3 then 1 else 0)
  else 0

/-- `ZrSinkReaction::computeRate`.  xolotl/core/include/xolotl/core/network/impl/ZrReaction.tpp:293-328, Constants.h:95-96. -/
noncomputable def zrSink (c : Cl ZrKind) : Option ℝ :=
  let network := if c.aniso = 0 then none else some (2.25e-8 * c.aniso + 7.25e-8 / (c.aniso * c.aniso))
  match c.kind with
  | .v => network.map fun s => c.dc * 1 * s
  | .i =>
    if c.size < 9 then network.map fun s => c.dc * 1.1 * s
    else if c.size = 9 then some (c.dc * 1.1 * 7.25e-8)
    else some 1
  | .basal => some 1

end Xolotl.Network.Rates
