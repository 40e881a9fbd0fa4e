import Verif.Network.Coefs
import Verif.Network.Updates

/-!
# Flux, Jacobian and connectivity of a production reaction

Model of `ProductionReaction` in
`/repo/xolotl/core/include/xolotl/core/network/impl/Reaction.tpp`:
`computeConnectivity` (494-613), `computeReducedConnectivity` (615-681), `computeFlux` (683-799),
`computePartialDerivatives` (802-1070), `computeReducedPartialDerivatives` (1072-1239) and
`mapJacobianEntries` (1836-1957).

Simplifications: `double` is a field; `_connEntries[..]` is resolved to the (row, column) pair that
`mapJacobianEntries` looks up for it (all of them are `connectivity(rowDof, columnDof)`); one grid point.
-/

namespace Xolotl.Network

/-- A constructed production reaction (constructor: Reaction.tpp:128-161). `none` is `invalidIndex`. -/
structure ProdRxn (d : ℕ) (K : Type*) where
  /-- `_reactants[0]` -/
  r1 : ℕ
  /-- `_reactants[1]` -/
  r2 : ℕ
  /-- `_products[0]` -/
  prod1 : Option ℕ
  /-- `_products[1]` -/
  prod2 : Option ℕ
  /-- `_reactantMomentIds[0|1]`, `_productMomentIds[0|1]` -/
  mom : Slot → Fin d → Option ℕ
  /-- `_reactantVolumes`, `_productVolumes` -/
  vol : Slot → K
  /-- `_rate(gridIndex)` -/
  rate : K
  /-- `_coefs` -/
  coefs : Tensor d K

namespace ProdRxn

variable {d : ℕ} {K : Type*} [Field K] (r : ProdRxn d K)

/-- Cluster id of a participant. -/
def id : Slot → Option ℕ
  | .r1 => some r.r1
  | .r2 => some r.r2
  | .p1 => r.prod1
  | .p2 => r.prod2

/-- The degree of freedom of the equation of order `γ` of a participant; products that do not exist are skipped
(`if (prodId == invalidIndex) continue;`, e.g. Reaction.tpp:774-781). -/
def rowId (q : Slot) : Option (Fin d) → Option ℕ
  | none => r.id q
  | some k => (r.id q).bind fun _ => r.mom q k

/-- Degree of freedom of the reactants' unknowns: columns `_connEntries[..][..][0][α]` (`A`). -/
def colA : Option (Fin d) → Option ℕ
  | none => some r.r1
  | some i => r.mom .r1 i

/-- Columns `_connEntries[..][..][1][β]` (`B`). -/
def colB : Option (Fin d) → Option ℕ
  | none => some r.r2
  | some i => r.mom .r2 i

/-- `cmR1`, `cmR2` (Reaction.tpp:698-716). -/
def cm (c : ℕ → K) (q : Slot) (i : Fin d) : K :=
  match r.mom q i with
  | none => 0
  | some m => c m

/-- The accumulation of `f` followed by `f *= rate` (Reaction.tpp:719-727, 744-753, 760-769,
782-793): order zero equations always use slot 0 and moment 0 of `_coefs`. -/
def fluxOf (c : ℕ → K) (q : Slot) (γ : Option (Fin d)) : K :=
  (r.coefs none none q γ * c r.r1 * c r.r2 +
    ∑ i, (r.coefs (some i) none q γ * r.cm c .r1 i * c r.r2 +
      r.coefs none (some i) q γ * c r.r1 * r.cm c .r2 i +
      ∑ j, r.coefs (some i) (some j) q γ * r.cm c .r1 i * r.cm c .r2 j)) * r.rate

/-- The product loop of the order zero equations (Reaction.tpp:732-740). The volume index `p` only counts the
products that exist. -/
def productUpdates (f : K) : List (ℕ × K) :=
  match r.prod1, r.prod2 with
  | some a, some b => [(a, f / r.vol .p1), (b, f / r.vol .p2)]
  | some a, none => [(a, f / r.vol .p1)]
  | none, some b => [(b, f / r.vol .p1)]
  | none, none => []

/-- `computeFlux` (Reaction.tpp:683-799): updates of `fluxes`. -/
def computeFlux (c : ℕ → K) : List (ℕ × K) :=
  let f := r.fluxOf c .r1 none
  [(r.r1, -(f / r.vol .r1)), (r.r2, -(f / r.vol .r2))] ++ r.productUpdates f ++
  (List.finRange d).flatMap fun k =>
    emit (r.mom .r1 k) (-(r.fluxOf c .r1 (some k) / r.vol .r1)) ++
    emit (r.mom .r2 k) (-(r.fluxOf c .r2 (some k) / r.vol .r2)) ++
    emit (r.rowId .p1 (some k)) (r.fluxOf c .p1 (some k) / r.vol .p1) ++
    emit (r.rowId .p2 (some k)) (r.fluxOf c .p2 (some k) / r.vol .p2)

/-- `_connEntries[..]` as resolved by `mapJacobianEntries` (Reaction.tpp:1836-1957): only set when both degrees
of freedom exist. -/
def entry (row col : Option ℕ) : Option (ℕ × ℕ) :=
  match row, col with
  | some a, some b => some (a, b)
  | _, _ => none

/-- `temp` for `d / dL^A_α` (e.g. Reaction.tpp:833-836, 880-883, 923-926, 940-944). -/
def pdA (c : ℕ → K) (q : Slot) (γ α : Option (Fin d)) : K :=
  r.coefs α none q γ * c r.r2 + ∑ j, r.coefs α (some j) q γ * r.cm c .r2 j

/-- `temp` for `d / dL^B_β` (e.g. Reaction.tpp:855-858, 903-906, 931-934, 952-956). -/
def pdB (c : ℕ → K) (q : Slot) (γ β : Option (Fin d)) : K :=
  r.coefs none β q γ * c r.r1 + ∑ j, r.coefs (some j) β q γ * r.cm c .r1 j

/-- One column of the order zero equations (Reaction.tpp:837-851, 859-873, 884-899, 907-919). -/
def pdZero (col : Option ℕ) (temp : K) : List ((ℕ × ℕ) × K) :=
  emit (entry (r.id .r1) col) (-(r.rate * temp / r.vol .r1)) ++
  emit (entry (r.id .r2) col) (-(r.rate * temp / r.vol .r2)) ++
  emit (entry (r.id .p1) col) (r.rate * temp / r.vol .p1) ++
  emit (entry (r.id .p2) col) (r.rate * temp / r.vol .p2)

/-- All columns of one first moment equation (Reaction.tpp:924-968, 971-1013, 1026-1066). -/
def pdMoment (c : ℕ → K) (q : Slot) (k : Fin d) (sgn : K → K) : List ((ℕ × ℕ) × K) :=
  let row := r.rowId q (some k)
  emit (entry row (r.colA none)) (sgn (r.rate * r.pdA c q (some k) none / r.vol q)) ++
  emit (entry row (r.colB none)) (sgn (r.rate * r.pdB c q (some k) none / r.vol q)) ++
  (List.finRange d).flatMap fun i =>
    emit (entry row (r.colA (some i))) (sgn (r.rate * r.pdA c q (some k) (some i) / r.vol q)) ++
    emit (entry row (r.colB (some i))) (sgn (r.rate * r.pdB c q (some k) (some i) / r.vol q))

/-- `computePartialDerivatives` (Reaction.tpp:802-1070): updates of `values`. -/
def computePartials (c : ℕ → K) : List ((ℕ × ℕ) × K) :=
  r.pdZero (r.colA none) (r.pdA c .r1 none none) ++
  r.pdZero (r.colB none) (r.pdB c .r1 none none) ++
  ((List.finRange d).flatMap fun i =>
    r.pdZero (r.colA (some i)) (r.pdA c .r1 none (some i)) ++
    r.pdZero (r.colB (some i)) (r.pdB c .r1 none (some i))) ++
  ((List.finRange d).flatMap fun k =>
    r.pdMoment c .r1 k (fun x => -x) ++ r.pdMoment c .r2 k (fun x => -x)) ++
  ((List.finRange d).flatMap fun k => r.pdMoment c .p1 k (fun x => x)) ++
  ((List.finRange d).flatMap fun k => r.pdMoment c .p2 k (fun x => x))

/-- Guard `a == b` on two ids. -/
def eqId (a b : Option ℕ) : Bool := decide (a = b)

/-- Reduced first moment equations of a reactant or product (Reaction.tpp:1136-1236).
`gA i`/`gB i` are the guards of the two columns. -/
def redMoment (c : ℕ → K) (q : Slot) (k : Fin d) (sgn : K → K) (gA gB : Fin d → Bool) :
    List ((ℕ × ℕ) × K) :=
  let row := r.rowId q (some k)
  (List.finRange d).flatMap fun i =>
    emitIf (gA i) (entry row (r.colA (some i)))
      (sgn (r.rate * r.pdA c q (some k) (some i) / r.vol q)) ++
    emitIf (gB i) (entry row (r.colB (some i)))
      (sgn (r.rate * r.pdB c q (some k) (some i) / r.vol q))

/-- `computeReducedPartialDerivatives` (Reaction.tpp:1072-1239). -/
def computeReducedPartials (c : ℕ → K) : List ((ℕ × ℕ) × K) :=
  let tA := r.pdA c .r1 none none
  let tB := r.pdB c .r1 none none
  -- d / dL_0^A (1103-1123)
  emit (entry (r.id .r1) (r.colA none)) (-(r.rate * tA / r.vol .r1)) ++
  emitIf (eqId (r.id .r2) (r.id .r1)) (entry (r.id .r2) (r.colA none))
    (-(r.rate * tA / r.vol .r2)) ++
  emitIf (eqId (r.id .p1) (r.id .r1)) (entry (r.id .p1) (r.colA none)) (r.rate * tA / r.vol .p1) ++
  emitIf (eqId (r.id .p2) (r.id .r1)) (entry (r.id .p2) (r.colA none)) (r.rate * tA / r.vol .p2) ++
  -- d / dL_0^B (1125-1145)
  emitIf (eqId (r.id .r2) (r.id .r1)) (entry (r.id .r1) (r.colB none))
    (-(r.rate * tB / r.vol .r1)) ++
  emit (entry (r.id .r2) (r.colB none)) (-(r.rate * tB / r.vol .r2)) ++
  emitIf (eqId (r.id .p1) (r.id .r2)) (entry (r.id .p1) (r.colB none)) (r.rate * tB / r.vol .p1) ++
  emitIf (eqId (r.id .p2) (r.id .r2)) (entry (r.id .p2) (r.colB none)) (r.rate * tB / r.vol .p2) ++
  -- first moments (1148-1236)
  ((List.finRange d).flatMap fun k =>
    r.redMoment c .r1 k (fun x => -x) (fun i => decide (k = i))
      (fun i => eqId (r.mom .r1 k) (r.mom .r2 i)) ++
    r.redMoment c .r2 k (fun x => -x) (fun i => eqId (r.mom .r2 k) (r.mom .r1 i))
      (fun i => decide (k = i))) ++
  ((List.finRange d).flatMap fun k =>
    r.redMoment c .p1 k (fun x => x) (fun i => eqId (r.mom .p1 k) (r.mom .r1 i))
      (fun i => eqId (r.mom .p1 k) (r.mom .r2 i))) ++
  ((List.finRange d).flatMap fun k =>
    r.redMoment c .p2 k (fun x => x) (fun i => eqId (r.mom .p2 k) (r.mom .r1 i))
      (fun i => eqId (r.mom .p2 k) (r.mom .r2 i)))

/-- A guarded `addConnectivity(row, column)`. -/
def link (row col : Option ℕ) : List (ℕ × ℕ) := (entry row col).toList

/-- One block of `computeConnectivity`: every equation of a participant with every unknown of
one reactant (Reaction.tpp:501-516, 518-534, 535-551, 552-567, 578-594, 595-611). -/
def linkBlock (row col : Option (Fin d) → Option ℕ) : List (ℕ × ℕ) :=
  link (row none) (col none) ++
  (List.finRange d).flatMap fun i =>
    link (row none) (col (some i)) ++ link (row (some i)) (col none) ++
    (List.finRange d).flatMap fun j => link (row (some i)) (col (some j))

/-- `computeConnectivity` (Reaction.tpp:494-613). -/
def computeConnectivity : List (ℕ × ℕ) :=
  linkBlock (r.rowId .r1) r.colA ++ linkBlock (r.rowId .r2) r.colA ++
  linkBlock (r.rowId .r1) r.colB ++ linkBlock (r.rowId .r2) r.colB ++
  (linkBlock (r.rowId .p1) r.colA ++ linkBlock (r.rowId .p1) r.colB) ++
  (linkBlock (r.rowId .p2) r.colA ++ linkBlock (r.rowId .p2) r.colB)

/-- Product part of `computeReducedConnectivity` (Reaction.tpp:655-679). -/
def redLinkBlock (q : Slot) (col : Option (Fin d) → Option ℕ) : List (ℕ × ℕ) :=
  (if eqId (r.id q) (col none) then link (r.id q) (col none) else []) ++
  (List.finRange d).flatMap fun i => (List.finRange d).flatMap fun j =>
    if eqId (r.rowId q (some i)) (col (some j)) then link (r.rowId q (some i)) (col (some j)) else []

/-- `computeReducedConnectivity` (Reaction.tpp:615-681). -/
def computeReducedConnectivity : List (ℕ × ℕ) :=
  link (r.id .r1) (r.colA none) ++
  ((List.finRange d).flatMap fun i => link (r.mom .r1 i) (r.mom .r1 i)) ++
  link (r.id .r2) (r.colB none) ++
  ((List.finRange d).flatMap fun i => link (r.mom .r2 i) (r.mom .r2 i)) ++
  (r.redLinkBlock .p1 r.colA ++ r.redLinkBlock .p1 r.colB) ++
  (r.redLinkBlock .p2 r.colA ++ r.redLinkBlock .p2 r.colB)

end ProdRxn

end Xolotl.Network
