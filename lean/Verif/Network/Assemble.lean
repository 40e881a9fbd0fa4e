import Verif.Network.Dispatch
import Verif.Network.ReflectProps
import Verif.Network.WholeProps

/-!
# The reactions of a network built from its clusters

Model of what `ReactionGenerator` makes of the answers of the generators of `Verif.Network.Dispatch`: the loop over all pairs of clusters
(`/repo/xolotl/core/include/xolotl/core/network/detail/impl/ReactionGenerator.tpp:29-57`) and the constructors of the reactions with the data they take from the clusters
(`network/impl/Reaction.tpp:128-161` and `2207-2231`, regions and dispersions `183-209` and `2245-2273`, `impl/ReSolutionReaction.tpp`, `SinkReaction.h`): regions, reflected regions and dispersions, volumes and ids
of the moments. The rates are any numbers. The coefficients are those of `Verif.Network.Coefs` and `Verif.Network.Dissociation`, the fluxes those of `Verif.Network.Production`, `Dissociation`, `Simple` and
`Whole`.

The species are the gases, then V, then I (network/PSITraits.h, FeTraits.h, NETraits.h): axis `sp.length` is the merged axis of vacancies and interstitials. Trap mutation reactions of the modified kind are added in `Verif.Network.Mutate`.
-/

namespace Xolotl.Network.Dispatch

open Xolotl.Network Xolotl.Network.Products Xolotl.Network.Reflect

variable {σ : Type} [DecidableEq σ] {sp : List σ} {K : Type*} [Field K] [LinearOrder K]

/-- `dummyRegion`, i.e. `Region(Composition{})`.  Reaction.tpp:144, 180, 2222, 2250. -/
def dummy : Clu σ := ⟨fun _ => ⟨0, 1⟩, ⟨0, 1⟩, ⟨0, 1⟩⟩

/-- The reflected region of a cluster: gases as they are (ReactionUtility.h:36-42), vacancies and interstitials merged (257-288). -/
def refl (sp : List σ) (onI : Bool) (c : Clu σ) : Fin (sp.length + 1) → Ival :=
  Fin.snoc (α := fun _ => Ival) (fun j => c.g (sp.get j)) (if onI then one_I c.v c.i else one_V c.v c.i)

/-- `getReflectedDispersionForCoefs`.  ReactionUtility.h:344-353. -/
def disp (sp : List σ) (c : Clu σ) : Fin (sp.length + 1) → K :=
  Fin.snoc (α := fun _ => K) (fun j => rdisp (c.g (sp.get j))) (dispOne (rdisp c.v) (rdisp c.i))

/-- `Region::volume()`: the number of compositions. -/
def volume (sp : List σ) (c : Clu σ) : K := (∏ j : Fin sp.length, (((c.g (sp.get j)).e - (c.g (sp.get j)).b : ℤ) : K)) * ((c.v.e - c.v.b : ℤ) : K) * ((c.i.e - c.i.b : ℤ) : K)

/-- The region of a product (Reaction.tpp:150-155, 189-194). -/
def Net.prodReg (N : Net σ sp) : Option ℕ → Clu σ
  | none => dummy
  | some k => N.cl k

/-- The choice of the projection: the first product holds interstitials (ReactionUtility.h:257). -/
def toI (c : Clu σ) : Bool := decide (1 < c.i.e)

/-- What `ProductionReaction::computeCoefficients` reads.  Reaction.tpp:183-209. -/
def Net.mkIn (N : Net σ sp) (a b : ℕ) (q : Option ℕ × Option ℕ) : ProdIn (sp.length + 1) K :=
  let f := refl sp (toI (N.prodReg q.1))
  { c1 := f (N.cl a), c2 := f (N.cl b), p1 := f (N.prodReg q.1), p2 := f (N.prodReg q.2)
    d1 := disp sp (N.cl a), d2 := disp sp (N.cl b), dp1 := disp sp (N.prodReg q.1), dp2 := disp sp (N.prodReg q.2)
    prod1 := q.1, prod2 := q.2 }

/-- The constructor of `ProductionReaction`; `mom k` are the ids of the moments of cluster `k`, none for an invalid product.  Reaction.tpp:128-161. -/
def Net.mkProd (N : Net σ sp) (mom : ℕ → Fin (sp.length + 1) → Option ℕ) (rate : K) (a b : ℕ) (q : Option ℕ × Option ℕ) : ProdRxn (sp.length + 1) K where
  r1 := a
  r2 := b
  prod1 := q.1
  prod2 := q.2
  mom s j := match s with
    | .r1 => mom a j
    | .r2 => mom b j
    | .p1 => q.1.bind fun k => mom k j
    | .p2 => q.2.bind fun k => mom k j
  vol s := match s with
    | .r1 => volume sp (N.cl a)
    | .r2 => volume sp (N.cl b)
    | .p1 => volume sp (N.prodReg q.1)
    | .p2 => volume sp (N.prodReg q.2)
  rate := rate
  coefs := (N.mkIn a b q).coefs

/-- What `DissociationReaction::computeCoefficients` reads: the cluster that comes apart takes the place of the first product.  Reaction.tpp:2251-2273. -/
def Net.mkDIn (N : Net σ sp) (k a b : ℕ) : DissIn (sp.length + 1) K :=
  let f := refl sp (toI (N.cl k))
  { c := f (N.cl k), p1 := f (N.cl a), p2 := f (N.cl b), dc := disp sp (N.cl k), dp1 := disp sp (N.cl a), dp2 := disp sp (N.cl b) }

/-- The constructors of `DissociationReaction` and `ReSolutionReaction`: `k` into `a` and `b`.  Reaction.tpp:2207-2231, ReSolutionReaction.tpp. -/
def Net.mkDiss (N : Net σ sp) (mom : ℕ → Fin (sp.length + 1) → Option ℕ) (rate : K) (k a b : ℕ) : DissRxn (sp.length + 1) K where
  id s := match s with
    | .r => k
    | .p1 => a
    | .p2 => b
  mom s j := match s with
    | .r => mom k j
    | .p1 => mom a j
    | .p2 => mom b j
  vol s := match s with
    | .r => volume sp (N.cl k)
    | .p1 => volume sp (N.cl a)
    | .p2 => volume sp (N.cl b)
  rate := rate
  coefs := (N.mkDIn k a b).coefs

/-- The rates of the reactions at a grid point. -/
structure Rates (K : Type*) where
  prod : ℕ → ℕ → Option ℕ × Option ℕ → K
  diss : ℕ → ℕ → ℕ → K
  reso : ℕ → ℕ → ℕ → K
  sink : ℕ → K

/-- The reactions of the network: the generator is called for every pair `i ≤ j` and adds the sinks at `i = j`. `pair`, `reso` and `sinks` are the answers for the clusters with these ids.
detail/impl/ReactionGenerator.tpp:36-57. -/
def Net.rxns (N : Net σ sp) (mom : ℕ → Fin (sp.length + 1) → Option ℕ) (R : Rates K) (pair : ℕ → ℕ → Out) (reso : ℕ → ℕ → List ℕ) (sinks : ℕ → ℕ) : List (Rxn (sp.length + 1) K) :=
  (List.range N.n).flatMap fun i => ((List.range N.n).filter fun j => decide (i ≤ j)).flatMap fun j =>
    (if i = j then List.replicate (sinks i) (.sink ⟨i, R.sink i⟩) else []) ++
    (reso i j).map (fun k => .resol (N.mkDiss mom (R.reso k i j) k i j)) ++
    (pair i j).prods.map (fun q => .prod (N.mkProd mom (R.prod i j q) i j q)) ++
    (pair i j).diss.map fun k => .diss (N.mkDiss mom (R.diss k i j) k i j)

/-- The iron network; `mob k`: cluster `k` diffuses. -/
def feRxns (N : Net Unit [()]) (mom : ℕ → Fin 2 → Option ℕ) (R : Rates K) (mob : ℕ → Bool) : List (Rxn 2 K) :=
  N.rxns mom R (fun i j => fePair N (mob i) (mob j) (N.cl i) (N.cl j)) (fun _ _ => []) fun i => feSinks (mob i) (N.cl i)

/-- The fuel network. -/
def neRxns (N : Net Unit [()]) (mom : ℕ → Fin 2 → Option ℕ) (R : Rates K) (mob : ℕ → Bool) : List (Rxn 2 K) :=
  N.rxns mom R (fun i j => nePair N (mob i) (mob j) (N.cl i) (N.cl j)) (fun i j => neReso N (N.cl i) (N.cl j)) fun i => neSinks (mob i) (N.cl i)

/-- The tungsten network. -/
def psiRxns (he : σ) (N : Net σ sp) (mom : ℕ → Fin (sp.length + 1) → Option ℕ) (R : Rates K) (mob : ℕ → Bool) : List (Rxn (sp.length + 1) K) :=
  N.rxns mom R (fun i j => psiPair he N (mob i) (mob j) (N.cl i) (N.cl j)) (fun _ _ => []) fun i => psiSinks (sp := sp) (mob i) (N.cl i)

end Xolotl.Network.Dispatch
