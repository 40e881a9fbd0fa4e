import Verif.Network.Rates
import Verif.Network.Simple

/-!
# Rates of re-solution and nucleation, sinks of tungsten and of the alloy

Model of `ReSolutionReaction::computeRate` (`/repo/xolotl/core/include/xolotl/core/network/impl/ReSolutionReaction.tpp:148-196`),
of `NucleationReaction::computeRate` (`impl/NucleationReaction.tpp:31-42`), of the bias and the strength of the sinks
of the PSI and alloy networks (`impl/PSIReaction.tpp:221-238`, `impl/AlloyReaction.tpp:192-219`) and of what the
constructor of the network and `setTime` do with the fission rate (`impl/ReactionNetwork.tpp:45-46`, `171-186`,
`291-306`).  Doubles are real numbers.  The sinks of iron are in `Binding`, those of the fuel in `NeFile`.
-/

namespace Xolotl.Network.Irradiation

open Real

/-- The fit variables. -/
structure Fit where
  y0 : ℝ
  a1 : ℝ
  b1 : ℝ
  b2 : ℝ
  c : ℝ

/-- The fit variables for an electronic stopping power, ReSolutionReaction.tpp:154-184. -/
noncomputable def fit (zeta : ℝ) : Fit :=
  if zeta > 0.87 then ⟨11.0851, 1.5052, 0.0362, 0.0203, 3.4123⟩
  else if zeta > 0.82 then ⟨10.6297, 1.3479, 0.0438, 0.0241, 4.2214⟩
  else if zeta > 0.77 then ⟨10.1521, 1.1986, 0.0546, 0.0299, 5.4612⟩
  else if zeta > 0.71 then ⟨9.1816, 0.949, 0.0703, 0.0371, 7.982⟩
  else if zeta > 0.67 then ⟨8.6745, 0.8401, 0.0792, 0.0407, 9.6585⟩
  else if zeta > 0.62 then ⟨7.6984, 0.6721, 0.1028, 0.0526, 14.272⟩
  else if zeta > 0.57 then ⟨6.3925, 0.5025, 0.1411, 0.0727, 23.1967⟩
  else if zeta > 0.52 then ⟨4.6175, 0.3433, 0.2284, 0.1276, 45.6624⟩
  else ⟨2.3061, 0.2786, 1.1008, 1.605, 150.6689⟩

/-- `fractionRate` of a cluster with reaction radius `r`, ReSolutionReaction.tpp:185-191. -/
noncomputable def fraction (p : Fit) (r : ℝ) : ℝ :=
  (p.a1 * exp (-p.b1 * r) + (p.y0 - p.a1) / (1 + p.c * r ^ 2) * exp (-p.b2 * r ^ 2)) * 1.0e-4

/-- `computeRate` of re-solution, ReSolutionReaction.tpp:148-196. -/
noncomputable def reSolution (fission zeta r : ℝ) : ℝ := fraction (fit zeta) r * (1.0e8 * fission)

/-- `computeRate` of nucleation, NucleationReaction.tpp:31-42. -/
def nucleation (fission : ℝ) : ℝ := 50 * fission

/-- `getSinkBias` of the alloy; `onI` is that the region of the cluster is simplex and its origin is on the axis of
the interstitials.  AlloyReaction.tpp:192-212. -/
noncomputable def alloyBias (onI : Bool) : ℝ := if onI then 1.2 else 1

/-- `getSinkStrength` of the alloy, AlloyReaction.tpp:214-219, Constants.h:92. -/
noncomputable def alloyStrength : ℝ := 1.0e-5

/-- `getSinkBias` of the PSI network, PSIReaction.tpp:221-227. -/
def psiBias : ℝ := 1

/-- `getSinkStrength` of the PSI network, PSIReaction.tpp:229-238. -/
noncomputable def psiStrength : ℝ := 1 / (π * 50000 * 50000)

/-- The rate of a sink, SinkReaction.tpp:14-26. -/
noncomputable def alloySink (onI : Bool) (dc : ℝ) : ℝ := SinkRxn.computeRate (alloyBias onI) alloyStrength dc

/-- See `alloySink`. -/
noncomputable def psiSink (dc : ℝ) : ℝ := SinkRxn.computeRate psiBias psiStrength dc

/-- The fission rate and the stopping power that a network holds, and the rate of a reaction that depends on them. -/
structure State where
  fission : ℝ
  zeta : ℝ
  rate : ℝ

/-- What can happen to a network; `reset` is a call of `setFissionRate`, which only tests make. -/
inductive Op
  | time
  | temperatures
  | resetFission (f : ℝ)
  | resetZeta (z : ℝ)

/-- The constructor takes both from the options; rates are zero until they are updated.  ReactionNetwork.tpp:45-46. -/
def init (amplitude zeta : ℝ) : State := ⟨amplitude, zeta, 0⟩

/-- `setTime` and `setTemperatures` update the rates, `setFissionRate` and `setZeta` do not, ReactionNetwork.tpp:171-186,
273-306. -/
noncomputable def step (r : ℝ) (s : State) : Op → State
  | .time | .temperatures => { s with rate := reSolution s.fission s.zeta r }
  | .resetFission f => { s with fission := f }
  | .resetZeta z => { s with zeta := z }

end Xolotl.Network.Irradiation
