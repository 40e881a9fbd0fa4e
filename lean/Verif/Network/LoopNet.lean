import Verif.Network.Pairs
import Verif.Network.ReflectProps
import Verif.Network.WholeProps

/-!
# The reactions of the zirconium and alloy networks built from their clusters

Model of what `ReactionGenerator` makes of the answers of `zrPair` and `alloyPair` (`Verif.Network.Pairs`): the loop over all pairs of clusters
(`/repo/xolotl/core/include/xolotl/core/network/detail/impl/ReactionGenerator.tpp:29-57`) and the constructors of the reactions with the data they take from the clusters
(`network/impl/Reaction.tpp:128-161` and `2207-2231`, regions and dispersions `183-209`, `247-254` and `2245-2273`): regions, reflected regions and dispersions, volumes and ids of the moments.
The rates are any numbers. The coefficients are those of `Verif.Network.Coefs` and `Verif.Network.Dissociation`, the fluxes those of `Verif.Network.Production`, `Dissociation`, `Simple` and `Whole`.

In these networks all species axes are merged into one (`network/SpeciesEnumSequence.h`: `sizeNoI()` is 6 - 3 - 3 + 1 for alloys, 3 - 1 - 2 + 1 for zirconium), so every reaction has one moment axis
and every cluster at most one moment. Constant reactions are not included.
-/

namespace Xolotl.Network.Pairs

open Xolotl.Network Xolotl.Network.Products Xolotl.Network.Reflect

variable {κ : Type} [DecidableEq κ] {K : Type*} [Field K] [LinearOrder K]

/-- The region of a cluster: its interval on its own axis, `[0, 1)` on the others. -/
def axes (c : Cl κ) (s : κ) : Ival := if c.kind = s then c.reg else ⟨0, 1⟩

/-- `dummyRegion`, i.e. `Region(Composition{})`.  Reaction.tpp:144, 180, 2222, 2250. -/
def noAxes : κ → Ival := fun _ => ⟨0, 1⟩

/-- What the reactions of a material take from a region: whether a first product with this region makes them project on I, the reflected region for either projection, the reflected dispersion and the volume. -/
structure Rules (κ : Type) (K : Type*) where
  onI : (κ → Ival) → Bool
  refl : Bool → (κ → Ival) → Ival
  disp : (κ → Ival) → K
  vol : (κ → Ival) → K

/-- Zirconium.  detail/ReactionUtility.h:165-226, 312-332. -/
def zrRules : Rules ZK K where
  onI r := projectOnI ⟨[r .v, r .basal], [r .i]⟩
  refl p r := if p then zr_I (r .v) (r .basal) (r .i) else zr_V (r .v) (r .basal) (r .i)
  disp r := dispMany [rdisp (r .v), rdisp (r .basal), rdisp (r .i)]
  vol r := (((r .v).e - (r .v).b : ℤ) : K) * (((r .basal).e - (r .basal).b : ℤ) : K) * (((r .i).e - (r .i).b : ℤ) : K)

/-- Alloys.  detail/ReactionUtility.h:53-155, 312-332. -/
def alloyRules : Rules AK K where
  onI r := projectOnI ⟨[r .v, r .void, r .faulted], [r .i, r .perfect, r .frank]⟩
  refl p r := if p then alloy_I (r .v) (r .void) (r .faulted) (r .i) (r .perfect) (r .frank) else alloy_V (r .v) (r .void) (r .faulted) (r .i) (r .perfect) (r .frank)
  disp r := dispMany [rdisp (r .v), rdisp (r .void), rdisp (r .faulted), rdisp (r .i), rdisp (r .perfect), rdisp (r .frank)]
  vol r := (((r .v).e - (r .v).b : ℤ) : K) * (((r .void).e - (r .void).b : ℤ) : K) * (((r .faulted).e - (r .faulted).b : ℤ) : K) *
    ((((r .i).e - (r .i).b : ℤ) : K) * (((r .perfect).e - (r .perfect).b : ℤ) : K) * (((r .frank).e - (r .frank).b : ℤ) : K))

/-- The clusters of a network with what `subpaving.findTileId` finds among them. -/
structure World (κ : Type) where
  n : ℕ
  cl : ℕ → Cl κ
  net : Net κ
  found : ∀ s x k, (net.t s).find x = some k ↔ k < n ∧ (cl k).kind = s ∧ x ∈ (cl k).reg.pts

/-- The region of a product (Reaction.tpp:150-155, 189-194). -/
def World.prodReg (W : World κ) : Option ℕ → κ → Ival
  | none => noAxes
  | some k => axes (W.cl k)

/-- What `ProductionReaction::computeCoefficients` reads; these reactions have at most one product.  Reaction.tpp:183-209. -/
def World.mkIn (W : World κ) (ρ : Rules κ K) (a b : ℕ) (q : Option ℕ) : ProdIn 1 K :=
  let p := ρ.onI (W.prodReg q)
  { c1 := fun _ => ρ.refl p (axes (W.cl a)), c2 := fun _ => ρ.refl p (axes (W.cl b)), p1 := fun _ => ρ.refl p (W.prodReg q), p2 := fun _ => ρ.refl p noAxes
    d1 := fun _ => ρ.disp (axes (W.cl a)), d2 := fun _ => ρ.disp (axes (W.cl b)), dp1 := fun _ => ρ.disp (W.prodReg q), dp2 := fun _ => ρ.disp noAxes
    prod1 := q, prod2 := none }

/-- The constructor of `ProductionReaction`; `mom k` is the id of the moment of cluster `k`, none for an invalid product.  Reaction.tpp:128-161. -/
def World.mkProd (W : World κ) (ρ : Rules κ K) (mom : ℕ → Option ℕ) (rate : K) (a b : ℕ) (q : Option ℕ) : ProdRxn 1 K where
  r1 := a
  r2 := b
  prod1 := q
  prod2 := none
  mom s _ := match s with
    | .r1 => mom a
    | .r2 => mom b
    | .p1 => q.bind mom
    | .p2 => none
  vol s := match s with
    | .r1 => ρ.vol (axes (W.cl a))
    | .r2 => ρ.vol (axes (W.cl b))
    | .p1 => ρ.vol (W.prodReg q)
    | .p2 => ρ.vol noAxes
  rate := rate
  coefs := (W.mkIn ρ a b q).coefs

/-- What `DissociationReaction::computeCoefficients` reads: the cluster that comes apart takes the place of the first product.  Reaction.tpp:2251-2273. -/
def World.mkDIn (W : World κ) (ρ : Rules κ K) (k a b : ℕ) : DissIn 1 K :=
  let p := ρ.onI (axes (W.cl k))
  { c := fun _ => ρ.refl p (axes (W.cl k)), p1 := fun _ => ρ.refl p (axes (W.cl a)), p2 := fun _ => ρ.refl p (axes (W.cl b))
    dc := fun _ => ρ.disp (axes (W.cl k)), dp1 := fun _ => ρ.disp (axes (W.cl a)), dp2 := fun _ => ρ.disp (axes (W.cl b)) }

/-- The constructor of `DissociationReaction`: `k` into `a` and `b`.  Reaction.tpp:2207-2231. -/
def World.mkDiss (W : World κ) (ρ : Rules κ K) (mom : ℕ → Option ℕ) (rate : K) (k a b : ℕ) : DissRxn 1 K where
  id s := match s with
    | .r => k
    | .p1 => a
    | .p2 => b
  mom s _ := match s with
    | .r => mom k
    | .p1 => mom a
    | .p2 => mom b
  vol s := match s with
    | .r => ρ.vol (axes (W.cl k))
    | .p1 => ρ.vol (axes (W.cl a))
    | .p2 => ρ.vol (axes (W.cl b))
  rate := rate
  coefs := (W.mkDIn ρ k a b).coefs

/-- The rates of the reactions at a grid point. -/
structure Rates (K : Type*) where
  prod : ℕ → ℕ → Option ℕ → K
  diss : ℕ → ℕ → ℕ → K
  sink : ℕ → K

/-- The reactions of the network: the generator is called for every pair `i ≤ j` and adds the sinks at `i = j`.  detail/impl/ReactionGenerator.tpp:36-57. -/
def World.rxns (W : World κ) (ρ : Rules κ K) (mom : ℕ → Option ℕ) (R : Rates K) (pair : ℕ → ℕ → Out) (sinks : ℕ → ℕ) : List (Rxn 1 K) :=
  (List.range W.n).flatMap fun i => ((List.range W.n).filter fun j => decide (i ≤ j)).flatMap fun j =>
    (if i = j then List.replicate (sinks i) (.sink ⟨i, R.sink i⟩) else []) ++
    (pair i j).prods.map (fun q => .prod (W.mkProd ρ mom (R.prod i j q) i j q)) ++
    (pair i j).diss.map fun k => .diss (W.mkDiss ρ mom (R.diss k i j) k i j)

/-- The zirconium network; `mob k`: cluster `k` diffuses. -/
def zrRxns (W : World ZK) (mom : ℕ → Option ℕ) (R : Rates K) (mob : ℕ → Bool) : List (Rxn 1 K) :=
  W.rxns zrRules mom R (fun i j => zrPair W.net (mob i) (mob j) (W.cl i) (W.cl j)) fun i => zrSinks (mob i) (W.cl i)

/-- The alloy network. -/
def alloyRxns (W : World AK) (mom : ℕ → Option ℕ) (R : Rates K) (mob : ℕ → Bool) : List (Rxn 1 K) :=
  W.rxns alloyRules mom R (fun i j => alloyPair W.net (mob i) (mob j) (W.cl i) (W.cl j)) fun i => alloySinks (mob i) (W.cl i)

end Xolotl.Network.Pairs
