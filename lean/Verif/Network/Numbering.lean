import Mathlib.Algebra.BigOperators.Group.List.Basic

/-!
# Numbering of the degrees of freedom and of the reactions

Model of `ClusterData::defineMomentIds` (`/repo/xolotl/core/include/xolotl/core/network/detail/impl/ClusterData.tpp:190-252`),
`ReactionNetwork::defineMomentIds` (`impl/ReactionNetwork.tpp:1604-1611`), the `mapToMomentId` functions of the networks, and of
`ElementSetMixinChain` / `MultiElementCollection` (`detail/MultiElementCollection.h`).
-/

namespace Xolotl.Network.Numbering

/-- One species of the grouping range for one cluster: whether `reg[k].length() != 1`, and `mapToMomentId(k)`. -/
structure Axis where
  grouped : Bool
  slot : ℕ
  deriving DecidableEq, Repr

/-- The count of one cluster (ClusterData.tpp:203-212). -/
def momentCount (axes : List Axis) : ℕ := axes.countP (·.grouped)

/-- The loop over the species of one cluster (232-248); `n` is `numClusters`, `cur` is `current`, `none` is `invalidIndex`. -/
def assign (n : ℕ) : ℕ → List Axis → (ℕ → Option ℕ) → (ℕ → Option ℕ)
  | _, [], m => m
  | cur, a :: as, m =>
    if a.grouped = false then
      if m a.slot = some (n + cur - 1) then assign n cur as m
      else assign n cur as (Function.update m a.slot none)
    else assign n (cur + 1) as (Function.update m a.slot (some (n + cur)))

/-- The exclusive scan of the counts (216-224). -/
def offset (cl : List (List Axis)) (i : ℕ) : ℕ := ((cl.take i).map momentCount).sum

/-- `momentIds(i, ·)` (225-249). -/
def momentId (cl : List (List Axis)) (i : ℕ) (s : ℕ) : Option ℕ :=
  match cl[i]? with
  | none => none
  | some axes => assign cl.length (offset cl i) axes (fun _ => none) s

/-- `_numDOFs` (ReactionNetwork.tpp:1608-1609). -/
def numDofs (cl : List (List Axis)) : ℕ := cl.length + (cl.map momentCount).sum

/-- The `mapToMomentId` tables, in the order of the grouping range: PSITraits.h:108-128, 176-200, 245-269, 305-325, FeTraits.h:52-66, AlloyTraits.h:60-72, ZrTraits.h:58-71, and
the default of SpeciesEnumSequence.h:136-147 used by NE (range Xe, V). -/
def slotTables : List (List ℕ) :=
  [[0, 1, 2, 3, 3], [0, 1, 2, 2], [0, 1, 2, 2], [0, 1, 1], [0, 1, 1], [0, 0, 0, 0, 0, 0], [0, 0, 0],
   [0, 1]]

/-! ### Collections of several element types -/

/-- One link of `ElementSetMixinChain`: number of elements and `_indexBegin` (MultiElementCollection.h:134-135, 501). -/
structure Link where
  num : ℕ
  begin : ℕ
  deriving DecidableEq, Repr

/-- The chain: the links of the element types and the begin index of the capping link (261). -/
structure Chain where
  links : List Link
  cap : ℕ
  deriving DecidableEq, Repr

namespace Chain

/-- Constructor from views (344-363). -/
def ofSizes : ℕ → List ℕ → Chain
  | b, [] => ⟨[], b⟩
  | b, n :: ns => let t := ofSizes (b + n) ns; ⟨⟨n, b⟩ :: t.links, t.cap⟩

/-- Default constructor: everything zero. -/
def default (types : ℕ) : Chain := ⟨List.replicate types ⟨0, 0⟩, 0⟩

/-- `updateIndices` (369-374); on the capping link it does nothing (177-180). -/
def updateIndices : ℕ → List Link → List Link
  | _, [] => []
  | b, l :: ls => ⟨l.num, b⟩ :: updateIndices (b + l.num) ls

/-- `setView` of the type at position `t` (391-402), for the new number of elements. -/
def setView : ℕ → ℕ → List Link → List Link
  | _, _, [] => []
  | 0, n, l :: ls => updateIndices l.begin (⟨n, l.begin⟩ :: ls)
  | t + 1, n, l :: ls => l :: setView t n ls

def set (c : Chain) (t n : ℕ) : Chain := ⟨setView t n c.links, c.cap⟩

/-- `getNumberOfElements` (417-421). -/
def total (c : Chain) : ℕ := (c.links.map Link.num).sum

/-- `getElementBeginIndices` (427-433, 213-218). -/
def beginIndices (c : Chain) : List ℕ := c.links.map Link.begin ++ [c.cap]

/-- `Tail::getIndexBegin()`. -/
def nextBegin (ls : List Link) (cap : ℕ) : ℕ :=
  match ls with
  | [] => cap
  | l :: _ => l.begin

/-- `apply` (455-466): the type and the position in its view the function is applied to; `none` when the capping link does nothing (232-237). -/
def applyAux (cap i : ℕ) : ℕ → List Link → Option (ℕ × ℕ)
  | _, [] => none
  | t, l :: ls => if i < nextBegin ls cap then some (t, i - l.begin) else applyAux cap i (t + 1) ls

def apply (c : Chain) (i : ℕ) : Option (ℕ × ℕ) := applyAux c.cap i 0 c.links

end Chain

end Xolotl.Network.Numbering
