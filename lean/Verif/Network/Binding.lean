import Verif.Network.Fuel
import Verif.Network.Rates
import Verif.Network.Select
import Mathlib.Analysis.SpecialFunctions.Log.Basic
import Mathlib.Analysis.SpecialFunctions.Pow.Real
import Mathlib.Analysis.Real.Pi.Bounds

/-!
# Binding energies of iron and zirconium, sinks of iron, capture radii of zirconium

Model of `FeDissociationReaction::computeBindingEnergy`, `FeSinkReaction` (`/repo/xolotl/core/include/xolotl/core/network/impl/FeReaction.tpp:60-187`),
`ZrDissociationReaction::computeBindingEnergy` (`impl/ZrReaction.tpp:192-289`) and of the capture radii set by `ZrReactionNetwork::initializeExtraClusterData`
(`/repo/xolotl/core/src/network/ZrReactionNetwork.cpp:142-221`). Numbers are real; where `pow` or a product of zero and an infinite logarithm gives NaN the result is `none`, and what `util::min`, `util::max`
make of it is spelled out. A read outside the table of iron is a separate outcome.
-/

namespace Xolotl.Network.Bind

open Real Xolotl.Network Xolotl.Network.Dispatch Xolotl.Network.Rates

/-! ## Iron -/

/-- `heTrapTable`.  FeReaction.tpp:67-68. -/
noncomputable def heTrap : List ℝ := [0, 4.31, 2.90, 2.02, 1.09, 0.58, 0.13, -0.25, -0.59]

/-- Vacancy from a cluster of vacancies.  FeReaction.tpp:98-101. -/
noncomputable def feVac (v : ℝ) : ℝ := 1.73 - 2.59 * (v ^ (2 / 3 : ℝ) - (v - 1) ^ (2 / 3 : ℝ))

/-- Vacancy from a bubble.  FeReaction.tpp:111-115, 137-139. -/
noncomputable def feV (he v : ℝ) : ℝ := 1.73 - 2.59 * (v ^ (2 / 3 : ℝ) - (v - 1) ^ (2 / 3 : ℝ)) + 2.5 * log (1 + he / v)

/-- Interstitial from a bubble.  FeReaction.tpp:120-124, 142-144. -/
noncomputable def feI (he v : ℝ) : ℝ := 4.88 + 2.59 * (v ^ (2 / 3 : ℝ) - (v - 1) ^ (2 / 3 : ℝ)) - 2.5 * log (1 + he / v)

/-- The part shared by single bubbles and groups; the interstitial's value replaces the vacancy's. `pow` of a negative number is NaN.  FeReaction.tpp:108-125, 136-145. -/
noncomputable def feBubble (he v : ℝ) (p1 p2 : Clu Unit) : Option ℝ :=
  if onI [()] p1 ∨ onI [()] p2 then if v < 1 then none else some (feI he v)
  else if onV [()] p1 ∨ onV [()] p2 then if v < 1 then none else some (feV he v)
  else some 5

/-- What the code computes before the limits: `none` is a read outside the table, `some none` NaN.  FeReaction.tpp:70-146. -/
noncomputable def feRaw (c p1 p2 : Clu Unit) : Option (Option ℝ) :=
  if simplex [()] c ∧ simplex [()] p1 ∧ simplex [()] p2 then
    if onG [()] () c then
      let be : ℝ := if onG [()] () p1 ∨ onG [()] () p2 then if (c.g ()).b = 2 then 0.5 else 1 else 5
      if onI [()] p1 ∨ onI [()] p2 then heTrap[(c.g ()).b.toNat]?.map some else some (some be)
    else if onV [()] c then some (some (feVac c.v.b))
    else if onI [()] c then some (some 5)
    else some (feBubble (c.g ()).b c.v.b p1 p2)
  else some (feBubble ((((c.g ()).b + (c.g ()).e - 1 : ℤ) : ℝ) / 2) (((c.v.b + c.v.e - 1 : ℤ) : ℝ) / 2) p1 p2)

/-- `computeBindingEnergy`: `util::max(NaN, -5)` is NaN and `util::min(5, NaN)` is 5.  FeReaction.tpp:62-149, MathUtils.h:47-64. -/
noncomputable def feBinding (c p1 p2 : Clu Unit) : Option ℝ := (feRaw c p1 p2).map fun b => match b with
  | some be => min 5 (max be (-5))
  | none => 5

/-- `getSinkBias`.  FeReaction.tpp:153-171. -/
noncomputable def feBias (c : Clu Unit) : ℝ := if simplex [()] c ∧ onI [()] c then 1.05 else 1

/-- `getSinkStrength` of a cluster of radius `r` in a lattice with parameter `a`; `none` is the division by `log(1)`.  FeReaction.tpp:175-187. -/
noncomputable def feStrength (a r : ℝ) : Option ℝ :=
  let r0 := a * 0.75 * √3
  let x := π * 0.0003 * (r + r0) * (r + r0)
  if log x = 0 then none else some (-4 * π * 0.0003 / log x)

/-! ## Zirconium -/

/-- Vacancy from a cluster of vacancies with mean size `n`.  ZrReaction.tpp:220-236. -/
noncomputable def zrV (n : ℝ) : ℝ :=
  if n < 18 then 2.03 - 1.9 * (n ^ (0.84 : ℝ) - (n - 1) ^ (0.84 : ℝ))
  else if n < 66 then 2.03 - 3.4 * (n ^ (0.70 : ℝ) - (n - 1) ^ (0.70 : ℝ))
  else if n < 925 then 2.03 - ((0.11 * n + 1.741 * √n * log (4.588 * √n)) - (0.11 * (n - 1) + 1.741 * √(n - 1) * log (4.588 * √(n - 1))))
  else 2.03 - (2 * 3.14 * 1.1 * 1.69 * 0.25 * √n * log (1.69 * √n / 0.23) - 2 * 3.14 * 1.1 * 1.69 * 0.25 * √(n - 1) * log (1.69 * √(n - 1) / 0.23))

/-- Vacancy from a basal loop; `t` is the transition size. For `n = 1` the logarithms give `0 · (−∞)`.  ZrReaction.tpp:250-272. -/
noncomputable def zrBasal (t : ℕ) (n : ℝ) : Option ℝ :=
  if n < t then some (1.762 + ((5.352 * √(n - 1) + 0.122 * (n - 1) + 0.154 * (n - 1) - 5.3) - (5.352 * √n + 0.122 * n + 0.154 * n - 5.3)))
  else if n = 1 then none
  else if n < 200 then some (2.03 + 2.87 * (√(n - 1) * log (1.50 * √(n - 1)) - √n * log (1.50 * √n)) - 9.08 * 0.0171)
  else some (2.03 + 3.02 * (√(n - 1) * log (1.64 * √(n - 1)) - √n * log (1.64 * √n)) - 9.08 * 0.00918)

/-- Interstitial from a cluster of interstitials.  ZrReaction.tpp:281-284. -/
noncomputable def zrI (n : ℝ) : ℝ :=
  if n < 7 then 2.94 - 2.8 * (n ^ (0.81 : ℝ) - (n - 1) ^ (0.81 : ℝ)) else 2.94 - 4.6 * (n ^ (0.66 : ℝ) - (n - 1) ^ (0.66 : ℝ))

/-- `computeBindingEnergy` for a cluster on axis `k` with mean size `n`, products on the axes `p1`, `p2`; `util::max(0.1, NaN)` is 0.1. The time is not used.  ZrReaction.tpp:194-289. -/
noncomputable def zrBinding (t : ℕ) (k p1 p2 : ZrKind) (n : ℝ) : ℝ :=
  if p1 = k ∨ p2 = k then
    match k with
    | .v => max 0.1 (zrV n)
    | .basal => match zrBasal t n with
      | some be => max 0.1 be
      | none => 0.1
    | .i => max 0.1 (zrI n)
  else max 0.1 5

/-- The capture radii for interstitials and for vacancies of a cluster of kind `k` and size `n`.  ZrReactionNetwork.cpp:151-220. -/
noncomputable def zrCapture (t : ℕ) (k : ZrKind) (n : ℕ) : ℝ × ℝ :=
  match k with
  | .v => if n < 1000 then (2.8 * (n : ℝ) ^ (0.15 : ℝ) / 10, 2 * (n : ℝ) ^ (0.3 : ℝ) / 10) else (0.79, 1.59)
  | .basal => if n < 1000 then (if n < t then 1.1 else 5.2 * (n : ℝ) ^ (0.06 : ℝ) / 10, 1.55 * (n : ℝ) ^ (0.28 : ℝ) / 10) else (0.787, 1.072)
  | .i => if n < 1000 then (4.5 * (n : ℝ) ^ (0.205 : ℝ) / 10, 6 * (n : ℝ) ^ (0.08 : ℝ) / 10) else (1.85, 1.04)

end Xolotl.Network.Bind
