import Verif.Network.Layout

/-!
# Reported totals

Model of the totals over the clusters of a network: the individual functions, and `getTotals`, which computes several of them in one pass over the clusters.  A `parallel_reduce` splits the clusters into blocks, folds each block from the initial value and joins the results; how it does so is a parameter.
-/

namespace Xolotl.Network.Totals

variable {d : ℕ} {K : Type*} [Field K] [LinearOrder K] [IsStrictOrderedRing K]

/-- `clReg.volume() / ival.length()`, e.g. xolotl/core/include/xolotl/core/network/impl/ReactionNetwork.tpp:1231. -/
def factor (a : Cluster d) (k : Fin d) : K := a.vol / ((a.reg k).len : K)

/-- The loop `for (auto j = max(minSize, ival.begin()); j < ival.end(); ++j)`. -/
def sizes (a : Cluster d) (k : Fin d) (minSize : ℕ) : Finset ℤ := Finset.Ico (max (minSize : ℤ) (a.reg k).b) (a.reg k).e

/-- `getTotalConcentration`, for the clusters listed and their concentrations.  ReactionNetwork.tpp:1218-1241. -/
def totalConcentration (net : List (Cluster d)) (c : ℕ → K) (k : Fin d) (minSize : ℕ) : K :=
  (net.map fun a => ∑ _j ∈ sizes a k minSize, c a.dof * factor a k).sum

/-- `getTotalRadiusConcentration`.  ReactionNetwork.tpp:1243-1268. -/
def totalRadius (net : List (Cluster d)) (radius c : ℕ → K) (k : Fin d) (minSize : ℕ) : K :=
  (net.map fun a => ∑ _j ∈ sizes a k minSize, c a.dof * radius a.dof * factor a k).sum

/-- `getTotalAtomConcentration`.  ReactionNetwork.tpp:1270-1293. -/
def totalAtoms (net : List (Cluster d)) (c : ℕ → K) (k : Fin d) (minSize : ℕ) : K :=
  (net.map fun a => ∑ j ∈ sizes a k minSize, c a.dof * (j : K) * factor a k).sum

/-- `getTotalTrappedAtomConcentration`, in a network with the vacancy axis `v`.  ReactionNetwork.tpp:1295-1334. -/
def totalTrapped (v : Fin d) (net : List (Cluster d)) (c : ℕ → K) (k : Fin d) (minSize : ℕ) : K :=
  (net.map fun a => if 0 < (a.reg v).b then
    ∑ j ∈ (a.reg k).pts, if (minSize : ℤ) ≤ j then c a.dof * (j : K) * factor a k else 0 else 0).sum

/-- `TotalQuantity::Type`. -/
inductive Kind
  | total
  | atom
  | radius
  | volume
  | trapped
  deriving DecidableEq

/-- `TotalQuantity`.  The species id has already been found valid. -/
structure Quantity (d : ℕ) where
  kind : Kind
  species : Fin d
  minSize : ℕ

/-- `updateFactor` of the methods.  ReactionNetwork.tpp:698, 723, 748, 773, 832. -/
def updateFactor (m : Kind) (f conc r : K) : K :=
  match m with
  | .total => f * conc
  | .atom => f * conc
  | .radius => f * (conc * r)
  | .volume => f * (conc * r * r * r)
  | .trapped => f * conc

/-- `contribution` of the methods.  ReactionNetwork.tpp:705, 730, 755, 780, 839. -/
def contribution (m : Kind) (j : ℤ) (f : K) : K :=
  match m with
  | .total => f
  | .atom => (j : K) * f
  | .radius => f
  | .volume => f
  | .trapped => (j : K) * f

/-- What a method adds to its sum for one cluster: `operator()`.  ReactionNetwork.tpp:661-673, 817-828. -/
def method (v : Fin d) (m : Kind) (q : Quantity d) (conc r : K) (a : Cluster d) : K :=
  if m = .trapped ∧ ¬ 0 < (a.reg v).b then 0
  else ∑ j ∈ sizes a q.species q.minSize, contribution m j (updateFactor m (factor a q.species) conc r)

/-- `TQMethodChain`: the methods, last one first; each works on the quantity and the sum at its index, which is the number of methods behind it.  ReactionNetwork.tpp:861-889. -/
def chain (v : Fin d) (qs : ℕ → Quantity d) (conc r : K) (a : Cluster d) : List Kind → (ℕ → K) → ℕ → K
  | [], dst => dst
  | m :: ms, dst =>
    let dst := chain v qs conc r a ms dst
    fun i => if i = ms.length then dst i + method v m (qs ms.length) conc r a else dst i

/-- `getTotalsImpl`: the clusters in blocks, each folded from zero; the blocks joined.  ReactionNetwork.tpp:891-953, 975-999. -/
def totalsImpl (v : Fin d) (blocks : List (List (Cluster d))) (radius c : ℕ → K) (qs : ℕ → Quantity d) (ms : List Kind) : ℕ → K :=
  blocks.foldl (fun dst block => fun i => dst i +
    block.foldl (fun s a => chain v qs (c a.dof) (radius a.dof) a ms.reverse s) (fun _ => 0) i) fun _ => 0

/-- The combinations that `getTotals` accepts.  ReactionNetwork.tpp:1040-1174. -/
def accepted : List (List Kind) :=
  [[.total], [.atom], [.atom, .atom], [.atom, .atom, .atom], [.total, .radius, .total, .radius], [.atom, .atom, .atom, .atom],
    [.atom, .atom, .atom, .atom, .atom], [.total, .atom, .radius, .total, .atom, .radius], [.total, .atom, .radius, .total, .radius, .volume],
    [.total, .atom, .radius, .total, .atom, .radius, .volume]]

/-- `getTotals` for arrays; `none`: `TotalQuantityError`. -/
def getTotals (v : Fin d) (blocks : List (List (Cluster d))) (radius c : ℕ → K) (qs : List (Quantity d)) (q0 : Quantity d) : Option (List K) :=
  if qs.map (·.kind) ∈ accepted then
    some ((List.range qs.length).map (totalsImpl v blocks radius c (fun i => qs.getD i q0) (qs.map (·.kind))))
  else none

/-- `getTotalsVec`.  ReactionNetwork.tpp:1176-1215. -/
def getTotalsVec (v : Fin d) (blocks : List (List (Cluster d))) (radius c : ℕ → K) (qs : List (Quantity d)) (q0 : Quantity d) : Option (List K) :=
  if 1 ≤ qs.length ∧ qs.length ≤ 6 then getTotals v blocks radius c qs q0 else none

end Xolotl.Network.Totals
