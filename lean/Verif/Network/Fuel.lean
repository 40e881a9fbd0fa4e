import Verif.Network.Assemble
import Mathlib.Algebra.Order.Field.Basic

/-!
# The reactions of the fuel network

Model of what `NEProductionReaction`, `NEDissociationReaction` and `NESinkReaction` do differently from their base classes:
`/repo/xolotl/core/include/xolotl/core/network/impl/NEReaction.tpp:89-229` (fluxes of productions, with a source for those without product), `680-760` (binding energies), `1044-1125` (sinks).
The rest of `NEReaction.tpp` (231-678, 827-1042: derivatives of productions, fluxes and derivatives of dissociations) repeats Reaction.tpp:686-1240 and 2480-2700 token by token, apart from casts of the volumes to `double`,
so that the models of `Verif.Network.Production` and `Verif.Network.Dissociation` stand for it. The numbers read from the reaction file are in `Verif.Network.NeFile`; here they are arbitrary.
-/

namespace Xolotl.Network.Fuel

open Xolotl.Network Xolotl.Network.Dispatch Xolotl.Network.Products

variable {K : Type*} [Field K] [LinearOrder K] {d : ℕ}

/-- What the fuel network's own reactions read besides the rates: `source a b`, the constant `f` of a production of `a` and `b` without product (NEReaction.tpp:101-117), and `eq k`, the concentration of `k` in
equilibrium with the sinks (1089-1093). -/
structure Extra (K : Type*) where
  source : ℕ → ℕ → K
  eq : ℕ → K

/-- The updates of the source.  NEReaction.tpp:94-124. -/
def source (E : Extra K) (r : ProdRxn d K) : List (ℕ × K) :=
  if r.prod1 = none ∧ r.prod2 = none then [(r.r1, E.source r.r1 r.r2 / r.vol .r1), (r.r2, E.source r.r1 r.r2 / r.vol .r2)] else []

/-- `contributeFlux` in the fuel network.  Productions NEReaction.tpp:91-229, sinks 1077-1096; the others are those of the base classes. -/
def flux (E : Extra K) (t : TmData K) (c : ℕ → K) : Rxn d K → List (ℕ × K)
  | .prod r => source E r ++ r.computeFlux c
  | .sink r => [(r.reactant, r.rate * (E.eq r.reactant - c r.reactant))]
  | r => r.flux t c

/-- The threads of `computeAllFluxes`. -/
def threads (M : Network d K) (E : Extra K) (c : ℕ → K) (depth spacing : K) : List (List (ℕ × K)) := M.rxns.map (flux E (M.preProcess c depth spacing) c)

/-! ### Binding energies -/

/-- `fitParams`.  NEReaction.tpp:714-716. -/
def fitParams : List K :=
  [22098470861651 / 1000000000000000, -(328234592987279 / 1000000000000000), 19501944029492 / 10000000000000, -(585771773178376 / 100000000000000), 918869701523602 / 100000000000000, -(709118822290571 / 100000000000000), 337190513184659 / 100000000000000,
   -(103326651166341 / 100000000000000)]

/-- The loop of the vacancy branch: eight terms `(i + 1) p_(7-i)`, from the square of the ratio on.  NEReaction.tpp:719-724. -/
def vacLoop (x : K) : K := ((List.range 8).foldl (fun (s : K × K) i => (s.1 + ((i + 1 : ℕ) : K) * fitParams.getD (7 - i) 0 * s.2, s.2 * x)) (0, x * x)).1

/-- The loop of the interstitial branch.  NEReaction.tpp:740-746. -/
def intLoop (x : K) : K := ((List.range 8).foldl (fun (s : K × K) i => (s.1 - ((i + 1 : ℕ) : K) * fitParams.getD (7 - i) 0 * s.2, s.2 * x)) (0, x * x)).1

/-- The loop of the xenon branch: `(i + 2) p_(7-i)`, from the ratio on.  NEReaction.tpp:749-755. -/
def xeLoop (x : K) : K := ((List.range 8).foldl (fun (s : K × K) i => (s.1 - ((i + 2 : ℕ) : K) * fitParams.getD (7 - i) 0 * s.2, s.2 * x)) (0, x)).1

/-- The formation energies, read from the reaction file (`Verif.Network.Formation`), 0 without one. -/
structure Energies (K : Type*) where
  i : K
  v : K
  v2 : K
  xe : K

/-- `computeBindingEnergy` before the limits: amounts of xenon and vacancies of the cluster, origins of the products.  NEReaction.tpp:702-757. -/
def rawBinding (E : Energies K) (xe v : K) (p1 p2 : Clu Unit) : K :=
  let x := xe / v
  let be : K := 5
  let be := if onV [()] p1 ∨ onV [()] p2 then
      let b := vacLoop x
      if onV [()] p1 ∧ p1.v.b = 2 then b * 2 + E.v2 else if onV [()] p2 ∧ p2.v.b = 2 then b * 2 + E.v2 else b + E.v
    else be
  let be := if onI [()] p1 ∨ onI [()] p2 then intLoop x + E.i else be
  if onG [()] () p1 ∨ onG [()] () p2 then xeLoop x + E.xe else be

/-- `computeBindingEnergy` of cluster `c` coming apart into `p1` and `p2`; the amounts are the middles of the region. With no vacancies the code divides by zero and does not use the result.
NEReaction.tpp:682-760. -/
def binding (E : Energies K) (c p1 p2 : Clu Unit) : K :=
  let xe : K := (((c.g ()).b + (c.g ()).e - 1 : ℤ) : K) / 2
  let v : K := ((c.v.b + c.v.e - 1 : ℤ) : K) / 2
  if v = 0 then 5 else min 5 (max (rawBinding E xe v p1 p2) (-1))

end Xolotl.Network.Fuel
