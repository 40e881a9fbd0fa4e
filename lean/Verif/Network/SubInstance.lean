import Mathlib.Data.List.Basic
import Verif.Network.Updates
import Verif.Network.Numbering

/-!
# Exchange between the full network and the sub-instances

Model of `XolotlInterface::initializeClusterMaps`, `computeConstantRates`, `getConstantConnectivities`
(`/repo/xolotl/interface/src/XolotlInterface.cpp:345-383, 442-474, 476-514`), `MultiXolotl::getSubInstanceData`
(`/repo/xolotl/interface/src/MultiXolotl.cpp:239-283`), `ReactionNetwork::getAllMomentIdInfo` and `initializeClusterMap`
(`/repo/xolotl/core/include/xolotl/core/network/impl/ReactionNetwork.tpp:358-380, 382-439`) and `Reaction::getPosition`
(`/repo/xolotl/core/include/xolotl/core/network/Reaction.h:239-252`).

A cluster is given by its bounds, the list `lo, hi - 1` over the species.
-/

namespace Xolotl.Network.Sub

/-! ### Cluster maps -/

/-- The first cluster with the same bounds (XolotlInterface.cpp:361-366). -/
def findBound (cur : List (List ℕ)) (b : List ℕ) : Option ℕ := cur.findIdx? (· == b)

/-- The loop over the sub-network's bounds (359-367): a bound that is not found pushes nothing. -/
def clusterPart (cur sub : List (List ℕ)) : List ℕ := sub.filterMap (findBound cur)

/-- `for j: temp.push_back(currentMomIdInfo[temp[l]][j])` (372-374) for `n` values of `j`; `none` when an access is out of range. -/
def pushIds (curMom : List (List ℕ)) (l : ℕ) : ℕ → ℕ → List ℕ → Option (List ℕ)
  | 0, _, temp => some temp
  | n + 1, j, temp =>
    match (temp[l]?.bind fun cl => curMom[cl]?).bind fun ids => ids[j]? with
    | none => none
    | some id => pushIds curMom l n (j + 1) (temp ++ [id])

/-- The loop over `subMomIdInfo` (369-375). -/
def pushMoments (curMom : List (List ℕ)) : List (List ℕ) → ℕ → List ℕ → Option (List ℕ)
  | [], _, temp => some temp
  | ids :: rest, l, temp => (pushIds curMom l ids.length 0 temp).bind (pushMoments curMom rest (l + 1))

/-- One entry of `fromSubNetwork` (354-376). -/
def subMap (cur curMom sub subMom : List (List ℕ)) : Option (List ℕ) :=
  pushMoments curMom subMom 0 (clusterPart cur sub)

/-- `getAllMomentIdInfo` (ReactionNetwork.tpp:358-380) for one cluster: the valid moment ids in the order of the `d` slots. -/
def momInfo1 (d : ℕ) (cl : List (List Numbering.Axis)) (i : ℕ) : List ℕ :=
  (List.range d).filterMap (Numbering.momentId cl i)

/-- `getAllMomentIdInfo`. -/
def momInfo (d : ℕ) (cl : List (List Numbering.Axis)) : List (List ℕ) := (List.range cl.length).map (momInfo1 d cl)

/-- `localIsInSub` (ReactionNetwork.tpp:423-434): false everywhere, then true at every `dMap(i)`, the indices `i` being visited in the order `is`. -/
def isInSub (m : List ℕ) (is : List ℕ) : ℕ → Bool :=
  is.foldl (fun f i => match m[i]? with | none => f | some id => Function.update f id true) fun _ => false

/-- `localBackMap`. -/
def backMap (m : List ℕ) (is : List ℕ) : ℕ → ℕ :=
  is.foldl (fun f i => match m[i]? with | none => f | some id => Function.update f id i) fun _ => 0

/-! ### Gathering the concentrations -/

variable {K : Type*}

/-- `getSubInstanceData` (MultiXolotl.cpp:252-258, 269-276): a dense vector of `n = _subDOFs[i]` zeros, overwritten by the sparse pairs whose index is less than `n`. -/
def dense [Zero K] (n : ℕ) (sparse : List (ℕ × K)) : List K :=
  sparse.foldl (fun v p => if p.1 < n then v.set p.1 p.2 else v) (List.replicate n 0)

/-- `fullConc[fromSubNetwork[i][j]] = conc[i][j]` for one sub-network (XolotlInterface.cpp:455-457); `none` when the map is shorter than the concentrations or points outside. -/
def scatter1 : List K → List ℕ → List K → Option (List K)
  | full, _, [] => some full
  | _, [], _ :: _ => none
  | full, id :: ids, x :: xs => if id < full.length then scatter1 (full.set id x) ids xs else none

/-- All sub-networks (453-458). -/
def scatter : List K → List (List ℕ) → List (List K) → Option (List K)
  | full, _, [] => some full
  | _, [], _ :: _ => none
  | full, m :: ms, c :: cs => (scatter1 full m c).bind fun f => scatter f ms cs

/-- Concentrations of all sub-instances, given sparse, to the full vector. `sizes` is `_subDOFs`. -/
def gather [Zero K] (dof : ℕ) (maps : List (List ℕ)) (sizes : List ℕ) (sparse : List (List (ℕ × K))) : Option (List K) :=
  scatter (List.replicate dof 0) maps ((sizes.zip sparse).map fun s => dense s.1 s.2)

/-! ### Compressed connectivities -/

/-- The loop over the columns of one row (XolotlInterface.cpp:497-503): `entries` and `count`. -/
def csrRow (M : ℕ → Bool) (nc : ℕ) (entries : List ℕ) : List ℕ × ℕ :=
  (List.range nc).foldl (fun s j => if M j then (s.1 ++ [j], s.2 + 1) else s) (entries, 0)

/-- `rows`, `entries` (495-505). -/
def csr (nr nc : ℕ) (M : ℕ → ℕ → Bool) : List ℕ × List ℕ :=
  (List.range nr).foldl (fun s i =>
    let t := csrRow (M i) nc s.2
    (s.1 ++ [s.1.getLastD 0 + t.2], t.1)) ([0], [])

/-- `getPosition` (Reaction.h:239-252); `none` is `invalidIndex`. -/
def getPosition (c : List ℕ × List ℕ) (i j : ℕ) : Option ℕ :=
  (List.range' (c.1.getD i 0) (c.1.getD (i + 1) 0 - c.1.getD i 0)).find? fun p => c.2[p]? == some j

end Xolotl.Network.Sub
