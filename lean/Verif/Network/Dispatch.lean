import Verif.Network.Pairs

/-!
# Which reactions a pair of clusters gets in the tungsten, iron and fuel networks

Model of `operator()` and `addSinks` of `PSIReactionGenerator`, `FeReactionGenerator` and `NEReactionGenerator`
(`/repo/xolotl/core/include/xolotl/core/network/impl/PSIReactionNetwork.tpp:417-726`, `impl/FeReactionNetwork.tpp:17-189`, `impl/NEReactionNetwork.tpp:332-502`).
The loops and the test of a candidate product are those of `Verif.Network.Products`; here they are put together as in the code, together with the dissociations,
re-solution, modified trap mutation and sinks.

A cluster has an interval of amounts for every gas (`σ`: He, D, T in tungsten, He in iron, Xe in fuel), for vacancies and for interstitials. A production is kept as its
products (none, one or two), a dissociation or re-solution as the cluster that comes apart. `findTileId` of the absent library is represented by a search for the cluster that contains the composition;
the clusters do not overlap (`Net.disj`). The conversion of the difference of two sizes to `int` (FeReactionNetwork.tpp:79, NEReactionNetwork.tpp:425) is the difference.
-/

namespace Xolotl.Network.Dispatch

open Xolotl.Network Xolotl.Network.Products

variable {σ : Type} [DecidableEq σ]

/-- The region of a cluster. -/
structure Clu (σ : Type) where
  g : σ → Ival
  v : Ival
  i : Ival

/-- The composition with amounts `x` of the gases `sp`, `v` and `i` lies in the region. -/
def Clu.Mem (sp : List σ) (c : Clu σ) (x : σ → ℤ) (v i : ℤ) : Prop := (∀ l ∈ sp, x l ∈ (c.g l).pts) ∧ v ∈ c.v.pts ∧ i ∈ c.i.pts

instance (sp : List σ) (c : Clu σ) (x : σ → ℤ) (v i : ℤ) : Decidable (c.Mem sp x v i) := inferInstanceAs (Decidable (_ ∧ _))

/-- The clusters `cl 0, …, cl (n - 1)`: `getNumberOfClusters()` and `getCluster(k).getRegion()`. -/
structure Net (σ : Type) (sp : List σ) where
  n : ℕ
  cl : ℕ → Clu σ
  nonneg : ∀ k < n, 0 ≤ (cl k).v.b ∧ 0 ≤ (cl k).i.b
  disj : ∀ k < n, ∀ k' < n, ∀ x v i, (cl k).Mem sp x v i → (cl k').Mem sp x v i → k = k'

/-- The reactions added for a pair: productions with their products, clusters that dissociate. -/
structure Out where
  prods : List (Option ℕ × Option ℕ)
  diss : List ℕ
  deriving DecidableEq

variable (sp : List σ)

/-- `lo.isOnAxis(Species::V)`. -/
def onV (c : Clu σ) : Prop := 0 < c.v.b ∧ c.i.b = 0 ∧ ∀ l ∈ sp, (c.g l).b = 0
/-- `lo.isOnAxis(Species::I)`. -/
def onI (c : Clu σ) : Prop := 0 < c.i.b ∧ c.v.b = 0 ∧ ∀ l ∈ sp, (c.g l).b = 0
/-- `lo.isOnAxis(l)` for a gas. -/
def onG (l : σ) (c : Clu σ) : Prop := 0 < (c.g l).b ∧ c.v.b = 0 ∧ c.i.b = 0 ∧ ∀ l' ∈ sp, l' ≠ l → (c.g l').b = 0
/-- `isSimplex()`: one composition only. -/
def simplex (c : Clu σ) : Prop := c.v.e = c.v.b + 1 ∧ c.i.e = c.i.b + 1 ∧ ∀ l ∈ sp, (c.g l).e = (c.g l).b + 1

instance (c : Clu σ) : Decidable (onV sp c) := inferInstanceAs (Decidable (_ ∧ _))
instance (c : Clu σ) : Decidable (onI sp c) := inferInstanceAs (Decidable (_ ∧ _))
instance (l : σ) (c : Clu σ) : Decidable (onG sp l c) := inferInstanceAs (Decidable (_ ∧ _))
instance (c : Clu σ) : Decidable (simplex sp c) := inferInstanceAs (Decidable (_ ∧ _))

/-- `isOnAxis1`: on some axis with `lo` equal to 1 (PSIReactionNetwork.tpp:599-606, FeReactionNetwork.tpp:149-156). -/
def unitOn (c : Clu σ) : Prop := (∃ l ∈ sp, onG sp l c ∧ (c.g l).b = 1) ∨ (onV sp c ∧ c.v.b = 1) ∨ (onI sp c ∧ c.i.b = 1)

instance (c : Clu σ) : Decidable (unitOn sp c) := inferInstanceAs (Decidable (_ ∨ _))

variable {sp}

/-- `subpaving.findTileId(comp)`. -/
def Net.find (N : Net σ sp) (x : σ → ℤ) (v i : ℤ) : Option ℕ := (List.range N.n).find? fun k => decide ((N.cl k).Mem sp x v i)

theorem Net.find_some (N : Net σ sp) {x : σ → ℤ} {v i : ℤ} {k : ℕ} : N.find x v i = some k ↔ k < N.n ∧ (N.cl k).Mem sp x v i := by
  unfold Net.find
  constructor
  · intro h
    have h1 := List.find?_some h
    have h2 := List.mem_of_find?_eq_some h
    exact ⟨List.mem_range.mp h2, by simpa using h1⟩
  · rintro ⟨h1, h2⟩
    cases e : (List.range N.n).find? fun k => decide ((N.cl k).Mem sp x v i) with
    | none =>
      have := List.find?_eq_none.mp e k (List.mem_range.mpr h1)
      simp [h2] at this
    | some j =>
      have h3 := List.find?_some e
      have h4 := List.mem_range.mp (List.mem_of_find?_eq_some e)
      rw [N.disj j h4 k h1 x v i (by simpa using h3) h2]

/-- What the look-up finds on the vacancy axis. -/
def Net.tilV (N : Net σ sp) : Tiling where
  find x := N.find (fun _ => 0) x 0
  ids := {k | k < N.n ∧ (∀ l ∈ sp, (0 : ℤ) ∈ ((N.cl k).g l).pts) ∧ (0 : ℤ) ∈ (N.cl k).i.pts}
  reg k := (N.cl k).v
  spec x k := by
    rw [N.find_some]
    simp only [Clu.Mem, Set.mem_ofPred_eq, Ival.pts, Finset.mem_Ico]
    tauto
  nonneg k h := (N.nonneg k h.1).1

/-- What the look-up finds on the interstitial axis. -/
def Net.tilI (N : Net σ sp) : Tiling where
  find x := N.find (fun _ => 0) 0 x
  ids := {k | k < N.n ∧ (∀ l ∈ sp, (0 : ℤ) ∈ ((N.cl k).g l).pts) ∧ (0 : ℤ) ∈ (N.cl k).v.pts}
  reg k := (N.cl k).i
  spec x k := by
    rw [N.find_some]
    simp only [Clu.Mem, Set.mem_ofPred_eq, Ival.pts, Finset.mem_Ico]
    tauto
  nonneg k h := (N.nonneg k h.1).2

/-- The bounds on the vacancy axis after `s` increments (PSIReactionNetwork.tpp:666-667; none for the first search). -/
def shiftV (b : ℤ × ℤ) (s : ℕ) : ℤ × ℤ := (wrap (b.1 + s), wrap (b.2 + s))

/-- The clusters that pass the test of the general case (PSIReactionNetwork.tpp:570-587 and 669-687, FeReactionNetwork.tpp:127-143, NEReactionNetwork.tpp:378-393 and 454-469). -/
def Net.goods (N : Net σ sp) (c1 c2 : Clu σ) (s : ℕ) : List ℕ :=
  (List.range N.n).filter fun k => (sp.all fun l => axisGood ((N.cl k).g l) (boundsPlain (c1.g l) (c2.g l))) && axisGood (N.cl k).v (shiftV (boundsV c1.v c2.v c1.i c2.i) s)

/-- A production with one product. -/
def one (k : ℕ) : Option ℕ × Option ℕ := (some k, none)

/-- The special case of one interstitial and one vacancy cluster: the vacancy or interstitial cluster left (FeReactionNetwork.tpp:73-104, NEReactionNetwork.tpp:419-450). -/
def Net.recombine (N : Net σ sp) (n : ℤ) : List (Option ℕ × Option ℕ) :=
  if 0 < n then ((N.find (fun _ => 0) n 0).map one).toList
  else if n < 0 then ((N.find (fun _ => 0) 0 (-n)).map one).toList
  else [(none, none)]

/-- One lies on the interstitial axis, the other on the vacancy axis (FeReactionNetwork.tpp:70-72). -/
def pairIV (sp : List σ) (c1 c2 : Clu σ) : Prop := (onI sp c1 ∧ onV sp c2) ∨ (onV sp c1 ∧ onI sp c2)

instance (c1 c2 : Clu σ) : Decidable (pairIV sp c1 c2) := inferInstanceAs (Decidable (_ ∨ _))

/-! ### Iron -/

/-- `FeReactionGenerator::operator()`; `m1` and `m2`: the diffusion factor is not zero.  FeReactionNetwork.tpp:20-167. -/
def fePair (N : Net Unit [()]) (m1 m2 : Bool) (c1 c2 : Clu Unit) : Out :=
  if m1 = false ∧ m2 = false then ⟨[], []⟩
  else if simplex [()] c1 ∧ simplex [()] c2 ∧ onI [()] c1 ∧ onI [()] c2 then
    match N.find (fun _ => 0) 0 (c1.i.b + c2.i.b) with
    | none => ⟨[], []⟩
    | some k => ⟨[one k], if c1.i.b = 1 ∨ c2.i.b = 1 then [k] else []⟩
  else if simplex [()] c1 ∧ simplex [()] c2 ∧ pairIV [()] c1 c2 then
    ⟨N.recombine ((if onV [()] c1 then c1.v.b else c2.v.b) - (if onI [()] c1 then c1.i.b else c2.i.b)), []⟩
  else
    ⟨(N.goods c1 c2 0).map one,
      if unitOn [()] c1 ∨ unitOn [()] c2 then
        if onG [()] () c1 ∧ onG [()] () c2 ∧ (c1.g ()).b = 1 ∧ (c2.g ()).b = 1 then [] else N.goods c1 c2 0
      else []⟩

/-- `FeReactionGenerator::addSinks` with its call: the number of sink reactions.  FeReactionNetwork.tpp:24-26, 35-37, 169-189. -/
def feSinks (m : Bool) (c : Clu Unit) : ℕ :=
  if m = false then 0
  else (if simplex [()] c ∧ onI [()] c then 1 else 0) + (if simplex [()] c ∧ onV [()] c ∧ c.v.b < 5 then 1 else 0)

/-! ### Fuel -/

/-- The re-solution reactions: the cluster that loses a xenon-vacancy pair.  NEReactionNetwork.tpp:374-399. -/
def neReso (N : Net Unit [()]) (c1 c2 : Clu Unit) : List ℕ :=
  if ((c1.g ()).b = 1 ∧ c1.v.b = 1 ∧ 0 < (c2.g ()).b ∧ 0 < c2.v.b) ∨ ((c2.g ()).b = 1 ∧ c2.v.b = 1 ∧ 0 < (c1.g ()).b ∧ 0 < c1.v.b) then N.goods c1 c2 0 else []

/-- `NEReactionGenerator::operator()` after the re-solution.  NEReactionNetwork.tpp:401-480. -/
def nePair (N : Net Unit [()]) (m1 m2 : Bool) (c1 c2 : Clu Unit) : Out :=
  if m1 = false ∧ m2 = false then ⟨[], []⟩
  else if simplex [()] c1 ∧ simplex [()] c2 ∧ pairIV [()] c1 c2 then
    let p := N.recombine ((if onV [()] c1 then c1.v.b else c2.v.b) - (if onI [()] c1 then c1.i.b else c2.i.b))
    ⟨p, p.filterMap fun q => q.1⟩
  else
    ⟨(N.goods c1 c2 0).map one,
      if (c1.g ()).b + c1.v.b + c1.i.b < 3 ∨ (c2.g ()).b + c2.v.b + c2.i.b < 3 then N.goods c1 c2 0 else []⟩

/-- `NEReactionGenerator::addSinks` with its call.  NEReactionNetwork.tpp:403-405, 409-411, 482-502. -/
def neSinks (m : Bool) (c : Clu Unit) : ℕ :=
  if m = false then 0
  else (if simplex [()] c ∧ onI [()] c then 1 else 0) + (if simplex [()] c ∧ onV [()] c ∧ c.v.b < 3 then 1 else 0)

/-! ### Tungsten -/

/-- The second search, when the first one found nothing: pairs (product, interstitial cluster).  PSIReactionNetwork.tpp:639-701. -/
def psiSecond (he : σ) (N : Net σ sp) (c1 c2 : Clu σ) : List (ℕ × ℕ) :=
  if N.goods c1 c2 0 ≠ [] then []
  else if ¬ (simplex sp c1 ∧ onG sp he c1) ∧ ¬ (simplex sp c2 ∧ onG sp he c2) then []
  else if (c1.g he).b < 1 ∨ (c2.g he).b < 1 then []
  else tmSearch (fun n => N.find (fun _ => 0) 0 n) (fun s => N.goods c1 c2 s) 6 1 0

/-- `PSIReactionGenerator::operator()` without modified trap mutation.  PSIReactionNetwork.tpp:424-615, 639-702. -/
def psiPair (he : σ) (N : Net σ sp) (m1 m2 : Bool) (c1 c2 : Clu σ) : Out :=
  if m1 = false ∧ m2 = false then ⟨[], []⟩
  else if onI sp c1 ∧ onI sp c2 then
    let p := psiII N.tilI c1.i c2.i
    ⟨p.map fun q => (q, none), if c1.i.b = 1 ∨ c2.i.b = 1 then p.filterMap id else []⟩
  else if pairIV sp c1 c2 then
    ⟨(psiIV N.tilV N.tilI (if onV sp c1 then c1 else c2).v (if onI sp c1 then c1 else c2).i).map fun q => (q, none), []⟩
  else
    ⟨(N.goods c1 c2 0).map one ++ (psiSecond he N c1 c2).map fun q => (some q.1, some q.2),
      if (unitOn sp c1 ∨ unitOn sp c2) ∧ ¬ (onI sp c1 ∨ onI sp c2) ∧ simplex sp c1 ∧ simplex sp c2 then (N.goods c1 c2 0).filter fun k => simplex sp (N.cl k) else []⟩

/-- Modified trap mutation: the interstitial clusters of the reactions added, `none` when the look-up fails (the reaction is added nevertheless). `vs n` are the sizes of the tables for `n` helium atoms.
The general case is reached only if the pair is not a special one; here the two clusters hold helium.  PSIReactionNetwork.tpp:617-637. -/
def psiModified (he : σ) (vs : ℤ → List ℤ) (N : Net σ sp) (m1 m2 : Bool) (c1 c2 : Clu σ) : List (Option ℕ) :=
  if m1 = false ∧ m2 = false then []
  else if (onI sp c1 ∧ onI sp c2) ∨ pairIV sp c1 c2 then []
  else if simplex sp c1 ∧ simplex sp c2 ∧ 1 ≤ (c1.g he).b ∧ (c1.g he).b ≤ 7 then
    ((vs (c1.g he).b).filter fun s =>
      decide (onG sp he c1 ∧ (c2.g he).b = (c1.g he).b ∧ c2.v.b = s ∧ c2.i.b = 0 ∧ ∀ l ∈ sp, l ≠ he → (c2.g l).b = 0)).map fun s => N.find (fun _ => 0) 0 s
  else []

/-- `PSIReactionGenerator::addSinks` with its call.  PSIReactionNetwork.tpp:426-428, 437-439, 704-726. -/
def psiSinks (m : Bool) (c : Clu σ) : ℕ :=
  if m = false then 0
  else (if onI sp c then 1 else 0) + (if simplex sp c ∧ onV sp c then if c.v.b = 1 then 1 else 0 else 0)

end Xolotl.Network.Dispatch
