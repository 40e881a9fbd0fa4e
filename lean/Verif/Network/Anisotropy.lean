import Verif.Network.Radius
import Verif.Network.Rates

/-!
# Diffusion coefficients and anisotropy of the zirconium network

Model of `ZrClusterUpdater::updateDiffusionCoefficient` (`/repo/xolotl/core/include/xolotl/core/network/impl/ZrReactionNetwork.tpp:358-433`) and of the loop that calls it,
`ClusterData::updateDiffusionCoefficients` (`/repo/xolotl/core/include/xolotl/core/network/detail/impl/ClusterData.tpp:170-187`), for one cluster at one point of the grid: the loop writes every pair of cluster and point once.

Doubles are real numbers, so that nothing underflows; `util::equal` with zero is equality. `none` stands for a read outside a table or a value that is not a number. At zero kelvin the kernel is minus infinity in the code: both
diffusivities are then zero, their ratio is not a number. The energies and factors of the clusters are those of `Radius.zrMigration` and `Radius.zrDiffusion`.
-/

namespace Xolotl.Network.Anisotropy

open Real Xolotl.Network.Rates Xolotl.Network.Radius

/-- Migration energies of interstitials along a and c.  ZrReactionNetwork.tpp:364-367. -/
noncomputable def iMigration : List (ℝ × ℝ) := [(0, 0), (0.17, 0.30), (0.23, 0.54), (0.49, 0.93), (0.75, 1.2), (0.87, 1.6)]

/-- Diffusion factors of interstitials along a and c.  ZrReactionNetwork.tpp:369-372. -/
noncomputable def iFactor : List (ℝ × ℝ) := [(0, 0), (2.4e11, 6.8e11), (3.2e11, 2.6e12), (4.9e12, 6.8e13), (5.1e13, 4.2e14), (4.3e13, 5.5e15)]

/-- Migration energies of vacancies along a and c.  ZrReactionNetwork.tpp:375-378. -/
noncomputable def vMigration : List (ℝ × ℝ) := [(0, 0), (0.59, 0.67), (0.58, 0.41), (0.94, 1.12), (0.16, 0.58), (0.81, 0.29), (0.25, 0.18)]

/-- Diffusion factors of vacancies along a and c.  ZrReactionNetwork.tpp:380-383. -/
noncomputable def vFactor : List (ℝ × ℝ) := [(0, 0), (1.6e12, 2.2e12), (2.7e12, 2.3e11), (4.9e13, 1.27e15), (2.5e10, 4.5e11), (2e13, 5.7e11), (3.2e10, 9.1e9)]

/-- Mean coefficient and ratio from the factors `f` and energies `e` along the two directions; `none` at zero kelvin.  ZrReactionNetwork.tpp:387, 393-405, 410-422. -/
noncomputable def mean3 (T : ℝ) (f e : ℝ × ℝ) : Option (ℝ × ℝ) :=
  if T = 0 then none
  else
    let kernel := -1 / (kB * T)
    let da := f.1 * exp (e.1 * kernel)
    let dc := f.2 * exp (e.2 * kernel)
    some ((da * da * dc) ^ (1 / 3 : ℝ), (dc / da) ^ (1 / 6 : ℝ))

/-- `updateDiffusionCoefficient` for a cluster with region `r`, migration energy `m` (`none` is infinite) and diffusion factor `d`: coefficient and ratio, `old` the ratio before.  ZrReactionNetwork.tpp:385-432. -/
noncomputable def update (T : ℝ) (r : Select.RZ) (m : Option ℝ) (d old : ℝ) : Option (ℝ × ℝ) :=
  let other : Option (ℝ × ℝ) := match m with
    | none => some (d * 0, old)
    | some m => if T = 0 then none else some (d * exp (-m / (kB * T)), old)
  if ∃ x, m = some x ∧ x < 0 then
    if 0 < r.lo.i ∧ r.lo.v = 0 ∧ r.lo.b = 0 then do
      let f ← iFactor[r.lo.i]?
      let e ← iMigration[r.lo.i]?
      mean3 T f e
    else if 0 < r.lo.v ∧ r.lo.b = 0 ∧ r.lo.i = 0 then do
      let f ← vFactor[r.lo.v]?
      let e ← vMigration[r.lo.v]?
      mean3 T f e
    else other
  else other

/-- What the loop does with one cluster at one point; `s` are coefficient and ratio before.  ClusterData.tpp:179-184. -/
noncomputable def visit (T : ℝ) (r : Select.RZ) (s : ℝ × ℝ) : Option (ℝ × ℝ) :=
  if zrDiffusion r = 0 then some s else update T r (zrMigration r) (zrDiffusion r) s.2

/-- The values after the temperatures `Ts`, one update each; the views start with zeros.  ReactionNetwork.tpp:275-289, ClusterData.tpp:51-52, ZrTraits.h:154-168. -/
noncomputable def after (Ts : List ℝ) (r : Select.RZ) : Option (ℝ × ℝ) := Ts.foldlM (fun s T => visit T r s) (0, 0)

end Xolotl.Network.Anisotropy
