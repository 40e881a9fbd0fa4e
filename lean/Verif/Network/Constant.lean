import Verif.Network.Production
import Verif.Network.Dissociation

/-!
# Constant rates between sub-networks

Model of `computeConstantRates`, `getConstantConnectivities` and `mapRateEntries` of the production and dissociation reactions
(`/repo/xolotl/core/include/xolotl/core/network/impl/Reaction.tpp:1241-1596, 1598-1813, 2697-2868, 2870-2983`) and of `ConstantReaction`
(`/repo/xolotl/core/include/xolotl/core/network/ConstantReaction.h`).

A position of the rate array stands for a pair (row, column) of degrees of freedom of the sub-network or for the constant column of a row
(`getPosition(backMap(row), backMap(column) | dof, ..)`). `mapRateEntries` stores these positions in `_rateEntries`; here the
entries are resolved to the pair, `none` as column being the constant column. The renumbering `backMap` is left out (C20 and C21 treat it).
`inS` is `isInSub`.
-/

namespace Xolotl.Network

/-- Position for a row and a column that both exist. -/
def rateCol (row col : Option ℕ) : Option (ℕ × Option ℕ) := (ProdRxn.entry row col).map fun p => (p.1, some p.2)

/-- Position for a row and the constant column. -/
def rateConst (row : Option ℕ) : Option (ℕ × Option ℕ) := row.map fun a => (a, none)

namespace ProdRxn

variable {d : ℕ} {K : Type*} [Field K] (r : ProdRxn d K) (inS : ℕ → Bool)

/-- Row of a product, guarded by `prodId == invalidIndex` and `isInSub[prodId]`. -/
def subRow (q : Slot) (γ : Option (Fin d)) : Option ℕ :=
  (r.id q).bind fun cl => if inS cl then r.rowId q γ else none

/-- Both reactants are out (Reaction.tpp:1302-1360). The volume index and the entry index of the order zero part only count the products that exist. -/
def constBothOut (c : ℕ → K) : List ((ℕ × Option ℕ) × K) :=
  let f := r.fluxOf c .r1 none
  (match r.prod1, r.prod2 with
    | some a, some b => emitIf (inS a) (some (a, none)) (f / r.vol .p1) ++ emitIf (inS b) (some (b, none)) (f / r.vol .p2)
    | some a, none => emitIf (inS a) (some (a, none)) (f / r.vol .p1)
    | none, some b => emitIf (inS b) (some (b, none)) (f / r.vol .p1)
    | none, none => []) ++
  (List.finRange d).flatMap fun k =>
    emit (rateConst (r.subRow inS .p1 (some k))) (r.fluxOf c .p1 (some k) / r.vol .p1) ++
    emit (rateConst (r.subRow inS .p2 (some k))) (r.fluxOf c .p2 (some k) / r.vol .p2)

/-- One column of the order zero equations: the reactant `x` and the products (1370-1383, 1395-1408). -/
def constZero (x : Slot) (col : Option ℕ) (f : K) : List ((ℕ × Option ℕ) × K) :=
  emit (rateCol (r.id x) col) (-(f / r.vol x)) ++
  emit (rateCol (r.subRow inS .p1 none) col) (f / r.vol .p1) ++
  emit (rateCol (r.subRow inS .p2 none) col) (f / r.vol .p2)

/-- All columns of the first moment equations of one participant (1413-1437, 1448-1473). -/
def constMoment (row : Option ℕ) (col : Option (Fin d) → Option ℕ) (f : Option (Fin d) → K) :
    List ((ℕ × Option ℕ) × K) :=
  emit (rateCol row (col none)) (f none) ++
  (List.finRange d).flatMap fun i => emit (rateCol row (col (some i))) (f (some i))

/-- Only the first reactant is in (1362-1476). -/
def constFirstIn (c : ℕ → K) : List ((ℕ × Option ℕ) × K) :=
  r.constZero inS .r1 (r.colA none) (r.pdA c .r1 none none * r.rate) ++
  ((List.finRange d).flatMap fun i =>
    r.constZero inS .r1 (r.colA (some i)) (r.pdA c .r1 none (some i) * r.rate)) ++
  (List.finRange d).flatMap fun k =>
    constMoment (r.mom .r1 k) r.colA (fun α => -(r.pdA c .r1 (some k) α * r.rate / r.vol .r1)) ++
    constMoment (r.subRow inS .p1 (some k)) r.colA (fun α => r.pdA c .p1 (some k) α * r.rate / r.vol .p1) ++
    constMoment (r.subRow inS .p2 (some k)) r.colA (fun α => r.pdA c .p2 (some k) α * r.rate / r.vol .p2)

/-- `f` of the order zero equations for a moment column of the second reactant (1506-1510): the loop over `j` reads
`_coefs(i + 1, j + 1, 0, 0) * cmR1[i]`. -/
def constSecondMoment (c : ℕ → K) (i : Fin d) : K :=
  (r.coefs none (some i) .r1 none * c r.r1 + ∑ j, r.coefs (some i) (some j) .r1 none * r.cm c .r1 i) * r.rate

/-- Only the second reactant is in (1478-1595). -/
def constSecondIn (c : ℕ → K) : List ((ℕ × Option ℕ) × K) :=
  r.constZero inS .r2 (r.colB none) (r.pdB c .r1 none none * r.rate) ++
  ((List.finRange d).flatMap fun i => r.constZero inS .r2 (r.colB (some i)) (r.constSecondMoment c i)) ++
  (List.finRange d).flatMap fun k =>
    constMoment (r.mom .r2 k) r.colB (fun β => -(r.pdB c .r2 (some k) β * r.rate / r.vol .r2)) ++
    constMoment (r.subRow inS .p1 (some k)) r.colB (fun β => r.pdB c .p1 (some k) β * r.rate / r.vol .p1) ++
    constMoment (r.subRow inS .p2 (some k)) r.colB (fun β => r.pdB c .p2 (some k) β * r.rate / r.vol .p2)

/-- `productInSub` (1248-1258). -/
def productInSub : Bool := r.prod1.any inS || r.prod2.any inS

/-- `computeConstantRates` (1241-1596): updates of `rates`. When both reactants are in, the function does nothing, also when the product is out ("Code not setup to deal with this"). -/
def computeConstantRates (c : ℕ → K) : List ((ℕ × Option ℕ) × K) :=
  match inS r.r1, inS r.r2 with
  | true, true => []
  | false, false => if r.productInSub inS then r.constBothOut inS c else []
  | true, false => r.constFirstIn inS c
  | false, true => r.constSecondIn inS c

/-- Marks of one row and all columns of a reactant. -/
def marks (row : Option ℕ) (col : Option (Fin d) → Option ℕ) : List (ℕ × Option ℕ) :=
  (rateCol row (col none)).toList ++ (List.finRange d).flatMap fun i => (rateCol row (col (some i))).toList

/-- Marks of all rows of the reactant `x` and of the products, with its columns. -/
def marksIn (x : Slot) (col : Option (Fin d) → Option ℕ) : List (ℕ × Option ℕ) :=
  marks (r.id x) col ++ marks (r.subRow inS .p1 none) col ++ marks (r.subRow inS .p2 none) col ++
  (List.finRange d).flatMap fun k =>
    marks (r.mom x k) col ++ marks (r.subRow inS .p1 (some k)) col ++ marks (r.subRow inS .p2 (some k)) col

/-- `getConstantConnectivities` (1598-1813): entries set to true. -/
def constConnectivities : List (ℕ × Option ℕ) :=
  match inS r.r1, inS r.r2 with
  | true, true => []
  | false, false =>
    (rateConst (r.subRow inS .p1 none)).toList ++ (rateConst (r.subRow inS .p2 none)).toList ++
    (List.finRange d).flatMap fun k =>
      (rateConst (r.subRow inS .p1 (some k))).toList ++ (rateConst (r.subRow inS .p2 (some k))).toList
  | true, false => r.marksIn inS .r1 r.colA
  | false, true => r.marksIn inS .r2 r.colB

end ProdRxn

namespace DissRxn

variable {d : ℕ} {K : Type*} [Field K] (r : DissRxn d K) (inS : ℕ → Bool)

/-- Row of a product guarded by `isInSub`. -/
def subRow (q : DSlot) (γ : Option (Fin d)) : Option ℕ := if inS (r.id q) then r.dofOf q γ else none

/-- One column of the order zero equations (Reaction.tpp:2727-2754). -/
def constZero (col : Option ℕ) (f : K) : List ((ℕ × Option ℕ) × K) :=
  emit (rateCol (r.dofOf .r none) col) (-(f / r.vol .r)) ++
  emit (rateCol (r.subRow inS .p1 none) col) (f / r.vol .p1) ++
  emit (rateCol (r.subRow inS .p2 none) col) (f / r.vol .p2)

/-- The reactant is in (2726-2817). The moment columns of the first product's moment equations are added to
`_rateEntries(subId, 0, 1 + k(), 1 + i())`, the entries of the *reactant* (2785-2794). When the reactant has no moment `k`, `mapRateEntries` (3099-3113) never sets
that entry; `unset` is the position an entry that was never set stands for (array position 0, the views being zero initialised, `detail/ReactionData.h:91-97`). -/
def constIn (unset : ℕ × Option ℕ) : List ((ℕ × Option ℕ) × K) :=
  r.constZero inS (r.dofOf .r none) (r.coefs none .r none * r.rate) ++
  ((List.finRange d).flatMap fun i =>
    r.constZero inS (r.dofOf .r (some i)) (r.coefs (some i) .r none * r.rate)) ++
  (List.finRange d).flatMap fun k =>
    (emit (rateCol (r.mom .r k) (r.dofOf .r none)) (-(r.coefs none .r (some k) * r.rate / r.vol .r)) ++
      (List.finRange d).flatMap fun i =>
        emit (rateCol (r.mom .r k) (r.mom .r i)) (-(r.coefs (some i) .r (some k) * r.rate / r.vol .r))) ++
    (emit (rateCol (r.subRow inS .p1 (some k)) (r.dofOf .r none)) (r.coefs none .p1 (some k) * r.rate / r.vol .p1) ++
      (List.finRange d).flatMap fun i =>
        emitIf ((r.subRow inS .p1 (some k)).isSome && (r.mom .r i).isSome)
          (some ((rateCol (r.mom .r k) (r.mom .r i)).getD unset))
          (r.coefs (some i) .p1 (some k) * r.rate / r.vol .p1)) ++
    (emit (rateCol (r.subRow inS .p2 (some k)) (r.dofOf .r none)) (r.coefs none .p2 (some k) * r.rate / r.vol .p2) ++
      (List.finRange d).flatMap fun i =>
        emit (rateCol (r.subRow inS .p2 (some k)) (r.mom .r i))
          (r.coefs (some i) .p2 (some k) * r.rate / r.vol .p2))

/-- The reactant is out (2819-2867). -/
def constOut (c : ℕ → K) : List ((ℕ × Option ℕ) × K) :=
  let f := r.fluxOf c .r none
  emit (rateConst (r.subRow inS .p1 none)) (f / r.vol .p1) ++
  emit (rateConst (r.subRow inS .p2 none)) (f / r.vol .p2) ++
  (List.finRange d).flatMap fun k =>
    emit (rateConst (r.subRow inS .p1 (some k))) (r.fluxOf c .p1 (some k) / r.vol .p1) ++
    emit (rateConst (r.subRow inS .p2 (some k))) (r.fluxOf c .p2 (some k) / r.vol .p2)

/-- All participants in. -/
def allIn : Bool := inS (r.id .r) && inS (r.id .p1) && inS (r.id .p2)

/-- `computeConstantRates` (2697-2868). -/
def computeConstantRates (unset : ℕ × Option ℕ) (c : ℕ → K) : List ((ℕ × Option ℕ) × K) :=
  if r.allIn inS then []
  else if !inS (r.id .r) && !inS (r.id .p1) && !inS (r.id .p2) then []
  else if inS (r.id .r) then r.constIn inS unset
  else r.constOut inS c

/-- `getConstantConnectivities` (2870-2983). -/
def constConnectivities : List (ℕ × Option ℕ) :=
  if r.allIn inS then []
  else if inS (r.id .r) then
    ProdRxn.marks (r.dofOf .r none) (r.dofOf .r) ++ ProdRxn.marks (r.subRow inS .p1 none) (r.dofOf .r) ++
    ProdRxn.marks (r.subRow inS .p2 none) (r.dofOf .r) ++
    (List.finRange d).flatMap fun k =>
      ProdRxn.marks (r.mom .r k) (r.dofOf .r) ++ ProdRxn.marks (r.subRow inS .p1 (some k)) (r.dofOf .r) ++
      ProdRxn.marks (r.subRow inS .p2 (some k)) (r.dofOf .r)
  else
    (rateConst (r.subRow inS .p1 none)).toList ++ (rateConst (r.subRow inS .p2 none)).toList ++
    (List.finRange d).flatMap fun k =>
      (rateConst (r.subRow inS .p1 (some k))).toList ++ (rateConst (r.subRow inS .p2 (some k))).toList

end DissRxn

/-- A constructed constant reaction (ConstantReaction.h:44-55): clusters and moments, `r2 = none` for the constant column. -/
structure ConstRxn (d : ℕ) where
  r1 : ℕ
  r2 : Option ℕ
  mom1 : Fin d → Option ℕ
  mom2 : Fin d → Option ℕ

namespace ConstRxn

variable {d : ℕ} {K : Type*} [Field K] (r : ConstRxn d)

/-- Rows. -/
def row : Option (Fin d) → Option ℕ
  | none => some r.r1
  | some i => r.mom1 i

/-- Columns of the second cluster. -/
def col : Option (Fin d) → Option ℕ
  | none => r.r2
  | some i => r.r2.bind fun _ => r.mom2 i

/-- `setRate` and `mapRateEntries` (86-123, 354-398): the constant rate of row `α` and column `β` is the entry of the rate array at that position. -/
def rateAt (R : ℕ × Option ℕ → K) (p : Option (ℕ × Option ℕ)) : K := p.elim 0 R

/-- The term of one row and one column: `if (momentId != invalidIndex) atomic_add(&fluxes(row), concentrations(column) * _constantRates(..))`. -/
def colTerm (R : ℕ × Option ℕ → K) (c : ℕ → K) (row col : Option ℕ) : List (ℕ × K) :=
  match col with
  | none => []
  | some m => emit row (c m * rateAt R (rateCol row (some m)))

/-- `computeFlux` (199-242). -/
def computeFlux (R : ℕ × Option ℕ → K) (c : ℕ → K) : List (ℕ × K) :=
  match r.r2 with
  | none =>
    emit (r.row none) (rateAt R (rateConst (r.row none))) ++
    (List.finRange d).flatMap fun i => emit (r.row (some i)) (rateAt R (rateConst (r.row (some i))))
  | some _ =>
    colTerm R c (r.row none) (r.col none) ++
    (List.finRange d).flatMap fun i =>
      colTerm R c (r.row none) (r.col (some i)) ++ colTerm R c (r.row (some i)) (r.col none) ++
      (List.finRange d).flatMap fun j => colTerm R c (r.row (some i)) (r.col (some j))

/-- One entry of `computePartialDerivatives`; the entry is `connectivity(row, column)` (`mapJacobianEntries`, 325-352). -/
def partial1 (R : ℕ × Option ℕ → K) (row col : Option ℕ) : List ((ℕ × ℕ) × K) :=
  emit (ProdRxn.entry row col) (rateAt R (rateCol row col))

/-- `computePartialDerivatives` (244-273). -/
def computePartials (R : ℕ × Option ℕ → K) : List ((ℕ × ℕ) × K) :=
  match r.r2 with
  | none => []
  | some _ =>
    partial1 R (r.row none) (r.col none) ++
    (List.finRange d).flatMap fun i =>
      partial1 R (r.row none) (r.col (some i)) ++ partial1 R (r.row (some i)) (r.col none) ++
      (List.finRange d).flatMap fun j => partial1 R (r.row (some i)) (r.col (some j))

/-- `computeConnectivity` (133-177). -/
def computeConnectivity : List (ℕ × ℕ) :=
  ProdRxn.linkBlock r.row r.row ++
  (match r.r2 with
    | none => []
    | some _ => ProdRxn.linkBlock r.row r.col)

/-- `computeReducedPartialDerivatives` (275-299): the entry for `(1 + i, 1 + j)` is written for every `i` and every existing column moment `j`. -/
def computeReducedPartials (R : ℕ × Option ℕ → K) : List (Option (ℕ × ℕ) × K) :=
  match r.r2 with
  | none => []
  | some b =>
    if b ≠ r.r1 then []
    else
      [(some (r.r1, b), rateAt R (rateCol (some r.r1) (some b)))] ++
      (List.finRange d).flatMap fun i => (List.finRange d).flatMap fun j =>
        if (r.mom2 j).isSome then
          [(ProdRxn.entry (r.mom1 i) (r.mom2 j), rateAt R (rateCol (r.mom1 i) (r.mom2 j)))]
        else []

end ConstRxn

/-- The constant reactions created by the Alloy and Zr generators (`impl/AlloyReactionNetwork.tpp:29-68`, `impl/ZrReactionNetwork.tpp:29-68`) for clusters `0, …, n-1`
and marked entries `conns`: called for every pair `i ≤ j`. -/
def constantReactions {d : ℕ} (n : ℕ) (mom : ℕ → Fin d → Option ℕ) (conns : ℕ × Option ℕ → Bool) : List (ConstRxn d) :=
  (List.range n).flatMap fun i => (List.range n).flatMap fun j =>
    if i ≤ j then
      (if i = j ∧ conns (i, none) then [⟨i, none, mom i, fun _ => none⟩] else []) ++
      (if conns (i, some j) then [⟨i, some j, mom i, mom j⟩] else []) ++
      (if j ≠ i ∧ conns (j, some i) then [⟨j, some i, mom j, mom i⟩] else [])
    else []

/-! ### The whole network -/

namespace Const

variable {d : ℕ} {K : Type*} [Field K]

/-- The position in the numbering of the sub-network: `backMap` of the row and of the column. -/
def renamePos (back : ℕ → ℕ) (p : ℕ × Option ℕ) : ℕ × Option ℕ := (back p.1, p.2.map back)

/-- `ReactionNetwork::computeConstantRates` (`impl/ReactionNetwork.tpp:588-603`): all reactions, as updates of the zero initialised rate array of the sub-network. -/
def allRates (P : List (ProdRxn d K)) (D : List (DissRxn d K)) (inS : ℕ → Bool) (unset : ℕ × Option ℕ)
    (c : ℕ → K) : List ((ℕ × Option ℕ) × K) :=
  P.flatMap (fun r => r.computeConstantRates inS c) ++ D.flatMap fun r => r.computeConstantRates inS unset c

/-- `ReactionNetwork::getConstantConnectivities` (605-617). -/
def allConns (P : List (ProdRxn d K)) (D : List (DissRxn d K)) (inS : ℕ → Bool) : List (ℕ × Option ℕ) :=
  P.flatMap (fun r => r.constConnectivities inS) ++ D.flatMap fun r => r.constConnectivities inS

/-- The rate array as seen by the sub-network. -/
def subRates (back : ℕ → ℕ) (L : List ((ℕ × Option ℕ) × K)) : List ((ℕ × Option ℕ) × K) :=
  L.map fun u => (renamePos back u.1, u.2)

end Const

end Xolotl.Network
