import Verif.Network.Constant
import Verif.Network.SubInstance

/-!
# The table of positions of the constant rates

Model of `_rateEntries`, the table in which every reaction of the full network keeps the positions in the array of rates of each sub-network: `mapRateEntries` fills it, `computeConstantRates` adds the rates at the
positions it holds.  `Constant` has the same functions with the pairs (row, column) in place of positions; here they go through the table as in the code.  The array of rates of a sub-network has one number for each
marked pair (`SubInstance.csr`); `none` is undefined behaviour, an access outside it.

The view is zero initialised (Kokkos), `invalidIndex` is `none`.  Sinks, nucleation, trap mutation and re-solution are the subject of `ConstantOther`.  One grid point.
-/

namespace Xolotl.Network

/-- An entry of the table of one reaction and one sub-network: participant, order of the equation, order of the column.
xolotl/core/include/xolotl/core/network/detail/ReactionData.h:91-97, 185-192. -/
abbrev RateEntry (d : ℕ) := Fin 3 × Option (Fin d) × Option (Fin d)

namespace RateEnt

variable {d : ℕ} {K : Type*}

/-- An assignment behind the test that row and column exist. -/
def assign (e : RateEntry d) (p : Option (ℕ × Option ℕ)) : List (RateEntry d × (ℕ × Option ℕ)) := (p.map fun q => (e, q)).toList

/-- `rates(_rateEntries(subId, ..)) += v` behind a test. -/
def access (g : Bool) (e : RateEntry d) (v : K) : List (RateEntry d × K) := if g then [(e, v)] else []

/-- The table after the assignments; `pos` is `getPosition` after `backMap`.  Entries that are never set have the value 0. -/
def table (pos : ℕ × Option ℕ → Option ℕ) (L : List (RateEntry d × (ℕ × Option ℕ))) : RateEntry d → Option ℕ :=
  L.foldl (fun t a => Function.update t a.1 (pos a.2)) fun _ => some 0

/-- The tables of all sub-networks: `initializeRateEntries(connectivities[i], i)`.
xolotl/core/include/xolotl/core/network/impl/ReactionNetwork.tpp:465-503. -/
def tables (L : List ((ℕ × Option ℕ → Option ℕ) × List (RateEntry d × (ℕ × Option ℕ)))) : ℕ → RateEntry d → Option ℕ :=
  L.zipIdx.foldl (fun t l => Function.update t l.2 (l.1.2.foldl (fun t a => Function.update t a.1 (l.1.1 a.2)) (t l.2))) fun _ _ => some 0

/-- The additions to the array of rates; `none`: outside the array. -/
def add (size : ℕ) (t : RateEntry d → Option ℕ) (L : List (RateEntry d × K)) : Option (List (ℕ × K)) :=
  L.mapM fun u => (t u.1).bind fun q => if q < size then some (q, u.2) else none

end RateEnt

open RateEnt

namespace ProdRxn

variable {d : ℕ} {K : Type*} [Field K] (r : ProdRxn d K) (inS : ℕ → Bool)

/-- `mapRateEntries` if both reactants are out: the entries of order zero count only the products that exist.
xolotl/core/include/xolotl/core/network/impl/Reaction.tpp:1999-2031. -/
def mapOut : List (RateEntry d × (ℕ × Option ℕ)) :=
  (match r.prod1, r.prod2 with
    | some a, some b => assign (1, none, none) (if inS a then some (a, none) else none) ++ assign (2, none, none) (if inS b then some (b, none) else none)
    | some a, none => assign (1, none, none) (if inS a then some (a, none) else none)
    | none, some b => assign (1, none, none) (if inS b then some (b, none) else none)
    | none, none => []) ++
  (List.finRange d).flatMap fun k =>
    assign (1, some k, none) (rateConst (r.subRow inS .p1 (some k))) ++ assign (2, some k, none) (rateConst (r.subRow inS .p2 (some k)))

/-- The entries of one column of the order zero equations.  Reaction.tpp:2034-2048, 2051-2070, 2119-2134, 2137-2156. -/
def mapZero (x : Slot) (α : Option (Fin d)) (col : Option ℕ) : List (RateEntry d × (ℕ × Option ℕ)) :=
  assign (0, none, α) (rateCol (r.id x) col) ++ assign (1, none, α) (rateCol (r.subRow inS .p1 none) col) ++
  assign (2, none, α) (rateCol (r.subRow inS .p2 none) col)

/-- The entries of one first moment equation.  Reaction.tpp:2075-2088, 2091-2114 and 2161-2174, 2177-2201. -/
def mapMoment (n : Fin 3) (k : Fin d) (row : Option ℕ) (col : Option (Fin d) → Option ℕ) : List (RateEntry d × (ℕ × Option ℕ)) :=
  assign (n, some k, none) (rateCol row (col none)) ++ (List.finRange d).flatMap fun i => assign (n, some k, some i) (rateCol row (col (some i)))

/-- `mapRateEntries` if only the reactant `x` is in.  Reaction.tpp:2033-2116 and 2118-2203. -/
def mapIn (x : Slot) (col : Option (Fin d) → Option ℕ) : List (RateEntry d × (ℕ × Option ℕ)) :=
  r.mapZero inS x none (col none) ++ ((List.finRange d).flatMap fun i => r.mapZero inS x (some i) (col (some i))) ++
  (List.finRange d).flatMap fun k =>
    mapMoment 0 k (r.mom x k) col ++ mapMoment 1 k (r.subRow inS .p1 (some k)) col ++ mapMoment 2 k (r.subRow inS .p2 (some k)) col

/-- `mapRateEntries`.  xolotl/core/include/xolotl/core/network/impl/Reaction.tpp:1957-2204. -/
def mapRateEntries : List (RateEntry d × (ℕ × Option ℕ)) :=
  match inS r.r1, inS r.r2 with
  | true, true => []
  | false, false => if r.productInSub inS then r.mapOut inS else []
  | true, false => r.mapIn inS .r1 r.colA
  | false, true => r.mapIn inS .r2 r.colB

/-- The accesses of `computeConstantRates` if both reactants are out.  Reaction.tpp:1302-1360. -/
def accessOut (c : ℕ → K) : List (RateEntry d × K) :=
  let f := r.fluxOf c .r1 none
  (match r.prod1, r.prod2 with
    | some a, some b => access (inS a) (1, none, none) (f / r.vol .p1) ++ access (inS b) (2, none, none) (f / r.vol .p2)
    | some a, none => access (inS a) (1, none, none) (f / r.vol .p1)
    | none, some b => access (inS b) (1, none, none) (f / r.vol .p1)
    | none, none => []) ++
  (List.finRange d).flatMap fun k =>
    access (r.subRow inS .p1 (some k)).isSome (1, some k, none) (r.fluxOf c .p1 (some k) / r.vol .p1) ++
    access (r.subRow inS .p2 (some k)).isSome (2, some k, none) (r.fluxOf c .p2 (some k) / r.vol .p2)

/-- One column of the order zero equations.  Reaction.tpp:1370-1383, 1395-1408, 1486-1501, 1513-1527. -/
def accessZero (x : Slot) (α : Option (Fin d)) (g : Bool) (f : K) : List (RateEntry d × K) :=
  access g (0, none, α) (-(f / r.vol x)) ++
  access (g && (r.subRow inS .p1 none).isSome) (1, none, α) (f / r.vol .p1) ++
  access (g && (r.subRow inS .p2 none).isSome) (2, none, α) (f / r.vol .p2)

/-- One first moment equation.  Reaction.tpp:1413-1437, 1448-1473, 1532-1558, 1570-1592. -/
def accessMoment (n : Fin 3) (k : Fin d) (g : Bool) (col : Option (Fin d) → Option ℕ) (f : Option (Fin d) → K) : List (RateEntry d × K) :=
  access g (n, some k, none) (f none) ++
  (List.finRange d).flatMap fun i => access (g && (col (some i)).isSome) (n, some k, some i) (f (some i))

/-- The accesses of `computeConstantRates` if only the first reactant is in.  Reaction.tpp:1362-1476. -/
def accessFirst (c : ℕ → K) : List (RateEntry d × K) :=
  r.accessZero inS .r1 none true (r.pdA c .r1 none none * r.rate) ++
  ((List.finRange d).flatMap fun i => r.accessZero inS .r1 (some i) (r.mom .r1 i).isSome (r.pdA c .r1 none (some i) * r.rate)) ++
  (List.finRange d).flatMap fun k =>
    accessMoment 0 k (r.mom .r1 k).isSome r.colA (fun α => -(r.pdA c .r1 (some k) α * r.rate / r.vol .r1)) ++
    accessMoment 1 k (r.subRow inS .p1 (some k)).isSome r.colA (fun α => r.pdA c .p1 (some k) α * r.rate / r.vol .p1) ++
    accessMoment 2 k (r.subRow inS .p2 (some k)).isSome r.colA (fun α => r.pdA c .p2 (some k) α * r.rate / r.vol .p2)

/-- The accesses of `computeConstantRates` if only the second reactant is in.  Reaction.tpp:1478-1595. -/
def accessSecond (c : ℕ → K) : List (RateEntry d × K) :=
  r.accessZero inS .r2 none true (r.pdB c .r1 none none * r.rate) ++
  ((List.finRange d).flatMap fun i => r.accessZero inS .r2 (some i) (r.mom .r2 i).isSome (r.constSecondMoment c i)) ++
  (List.finRange d).flatMap fun k =>
    accessMoment 0 k (r.mom .r2 k).isSome r.colB (fun β => -(r.pdB c .r2 (some k) β * r.rate / r.vol .r2)) ++
    accessMoment 1 k (r.subRow inS .p1 (some k)).isSome r.colB (fun β => r.pdB c .p1 (some k) β * r.rate / r.vol .p1) ++
    accessMoment 2 k (r.subRow inS .p2 (some k)).isSome r.colB (fun β => r.pdB c .p2 (some k) β * r.rate / r.vol .p2)

/-- The accesses of `computeConstantRates`.  Reaction.tpp:1241-1596. -/
def accesses (c : ℕ → K) : List (RateEntry d × K) :=
  match inS r.r1, inS r.r2 with
  | true, true => []
  | false, false => if r.productInSub inS then r.accessOut inS c else []
  | true, false => r.accessFirst inS c
  | false, true => r.accessSecond inS c

end ProdRxn

namespace DissRxn

variable {d : ℕ} {K : Type*} [Field K] (r : DissRxn d K) (inS : ℕ → Bool)

/-- The entries of one column of the order zero equations.  xolotl/core/include/xolotl/core/network/impl/Reaction.tpp:3066-3076, 3079-3094. -/
def mapZero (α : Option (Fin d)) : List (RateEntry d × (ℕ × Option ℕ)) :=
  assign (0, none, α) (rateCol (r.dofOf .r none) (r.dofOf .r α)) ++ assign (1, none, α) (rateCol (r.subRow inS .p1 none) (r.dofOf .r α)) ++
  assign (2, none, α) (rateCol (r.subRow inS .p2 none) (r.dofOf .r α))

/-- `mapRateEntries` if the reactant is in.  Reaction.tpp:3064-3151. -/
def mapIn : List (RateEntry d × (ℕ × Option ℕ)) :=
  r.mapZero inS none ++ ((List.finRange d).flatMap fun i => r.mapZero inS (some i)) ++
  (List.finRange d).flatMap fun k =>
    ProdRxn.mapMoment 0 k (r.mom .r k) (r.dofOf .r) ++ ProdRxn.mapMoment 1 k (r.subRow inS .p1 (some k)) (r.dofOf .r) ++
    ProdRxn.mapMoment 2 k (r.subRow inS .p2 (some k)) (r.dofOf .r)

/-- `mapRateEntries` if the reactant is out.  Reaction.tpp:3153-3187. -/
def mapOut : List (RateEntry d × (ℕ × Option ℕ)) :=
  assign (1, none, none) (rateConst (r.subRow inS .p1 none)) ++ assign (2, none, none) (rateConst (r.subRow inS .p2 none)) ++
  (List.finRange d).flatMap fun k =>
    assign (1, some k, none) (rateConst (r.subRow inS .p1 (some k))) ++ assign (2, some k, none) (rateConst (r.subRow inS .p2 (some k)))

/-- `mapRateEntries`.  xolotl/core/include/xolotl/core/network/impl/Reaction.tpp:3045-3188. -/
def mapRateEntries : List (RateEntry d × (ℕ × Option ℕ)) :=
  if !inS (r.id .r) && !inS (r.id .p1) && !inS (r.id .p2) then []
  else if r.allIn inS then []
  else if inS (r.id .r) then r.mapIn inS
  else r.mapOut inS

/-- One column of the order zero equations.  Reaction.tpp:2727-2736, 2740-2754. -/
def accessZero (α : Option (Fin d)) (f : K) : List (RateEntry d × K) :=
  access (r.dofOf .r α).isSome (0, none, α) (-(f / r.vol .r)) ++
  access ((r.dofOf .r α).isSome && (r.subRow inS .p1 none).isSome) (1, none, α) (f / r.vol .p1) ++
  access ((r.dofOf .r α).isSome && (r.subRow inS .p2 none).isSome) (2, none, α) (f / r.vol .p2)

/-- The accesses of `computeConstantRates` if the reactant is in; the moment columns of the first product go through the entries of the reactant (2785-2794).  Reaction.tpp:2726-2817. -/
def accessIn : List (RateEntry d × K) :=
  r.accessZero inS none (r.coefs none .r none * r.rate) ++
  ((List.finRange d).flatMap fun i => r.accessZero inS (some i) (r.coefs (some i) .r none * r.rate)) ++
  (List.finRange d).flatMap fun k =>
    (access (r.mom .r k).isSome (0, some k, none) (-(r.coefs none .r (some k) * r.rate / r.vol .r)) ++
      (List.finRange d).flatMap fun i =>
        access ((r.mom .r k).isSome && (r.mom .r i).isSome) (0, some k, some i) (-(r.coefs (some i) .r (some k) * r.rate / r.vol .r))) ++
    (access (r.subRow inS .p1 (some k)).isSome (1, some k, none) (r.coefs none .p1 (some k) * r.rate / r.vol .p1) ++
      (List.finRange d).flatMap fun i =>
        access ((r.subRow inS .p1 (some k)).isSome && (r.mom .r i).isSome) (0, some k, some i) (r.coefs (some i) .p1 (some k) * r.rate / r.vol .p1)) ++
    (access (r.subRow inS .p2 (some k)).isSome (2, some k, none) (r.coefs none .p2 (some k) * r.rate / r.vol .p2) ++
      (List.finRange d).flatMap fun i =>
        access ((r.subRow inS .p2 (some k)).isSome && (r.mom .r i).isSome) (2, some k, some i) (r.coefs (some i) .p2 (some k) * r.rate / r.vol .p2))

/-- The accesses of `computeConstantRates` if the reactant is out.  Reaction.tpp:2819-2867. -/
def accessOut (c : ℕ → K) : List (RateEntry d × K) :=
  access (r.subRow inS .p1 none).isSome (1, none, none) (r.fluxOf c .r none / r.vol .p1) ++
  access (r.subRow inS .p2 none).isSome (2, none, none) (r.fluxOf c .r none / r.vol .p2) ++
  (List.finRange d).flatMap fun k =>
    access (r.subRow inS .p1 (some k)).isSome (1, some k, none) (r.fluxOf c .p1 (some k) / r.vol .p1) ++
    access (r.subRow inS .p2 (some k)).isSome (2, some k, none) (r.fluxOf c .p2 (some k) / r.vol .p2)

/-- The accesses of `computeConstantRates`.  Reaction.tpp:2697-2868. -/
def accesses (c : ℕ → K) : List (RateEntry d × K) :=
  if !inS (r.id .r) && !inS (r.id .p1) && !inS (r.id .p2) then []
  else if r.allIn inS then []
  else if inS (r.id .r) then r.accessIn inS
  else r.accessOut inS c

end DissRxn

namespace RateEnt

variable {d : ℕ} {K : Type*} [Field K]

/-- What `computeConstantRates` of the network adds to the array of one sub-network.  xolotl/core/include/xolotl/core/network/impl/ReactionNetwork.tpp:588-603, xolotl/interface/src/XolotlInterface.cpp:466-472. -/
def addAll (P : List (ProdRxn d K)) (D : List (DissRxn d K)) (inS : ℕ → Bool) (size : ℕ) (pos : ℕ × Option ℕ → Option ℕ) (c : ℕ → K) :
    Option (List (ℕ × K)) := do
  let a ← P.mapM fun r => add size (table pos (r.mapRateEntries inS)) (r.accesses inS c)
  let b ← D.mapM fun r => add size (table pos (r.mapRateEntries inS)) (r.accesses inS c)
  pure (a.flatten ++ b.flatten)

/-- The marks of `getConstantConnectivities` in the numbers of a sub-network with `n` degrees of freedom; column `n` is the constant column.
xolotl/core/include/xolotl/core/network/impl/Reaction.tpp:1598-1813, 2870-2983, xolotl/interface/src/XolotlInterface.cpp:483-490. -/
def marked (n : ℕ) (back : ℕ → ℕ) (conns : List (ℕ × Option ℕ)) (i j : ℕ) : Bool :=
  conns.any fun p => decide (back p.1 = i ∧ (p.2.map back).getD n = j)

/-- `getPosition(backMap(row), backMap(column) | dof, connectivityRow, connectivityEntries)`.  xolotl/core/include/xolotl/core/network/Reaction.h:239-252. -/
def position (n : ℕ) (back : ℕ → ℕ) (M : ℕ → ℕ → Bool) (p : ℕ × Option ℕ) : Option ℕ :=
  Sub.getPosition (Sub.csr n (n + 1) M) (back p.1) ((p.2.map back).getD n)

/-- The length of the array of rates: `_subEntries`.  XolotlInterface.cpp:470, 506. -/
def size (n : ℕ) (M : ℕ → ℕ → Bool) : ℕ := (Sub.csr n (n + 1) M).2.length

/-- The array of rates of a sub-network.  XolotlInterface.cpp:444-473. -/
def array (P : List (ProdRxn d K)) (D : List (DissRxn d K)) (inS : ℕ → Bool) (n : ℕ) (back : ℕ → ℕ) (c : ℕ → K) : Option (List K) :=
  let M := marked n back (Const.allConns P D inS)
  (addAll P D inS (size n M) (position n back M) c).map fun A => (List.range (size n M)).map (netOf A)

/-! ### The constant reactions -/

/-- The pair of an entry of `_constantRateEntries`: orders of the row and of the column. -/
def constPair (r : ConstRxn d) (α β : Option (Fin d)) : Option (ℕ × Option ℕ) :=
  match r.r2 with
  | none => if β = none then rateConst (r.row α) else none
  | some _ => rateCol (r.row α) (r.col β)

/-- `mapRateEntries` of a constant reaction; `none`: not set or `invalidIndex`.  xolotl/core/include/xolotl/core/network/ConstantReaction.h:354-398. -/
def constTable (pos : ℕ × Option ℕ → Option ℕ) (r : ConstRxn d) (α β : Option (Fin d)) : Option ℕ := (constPair r α β).bind pos

/-- `setRate`: what `_constantRates` gets from the array; `none`: outside the array.  ConstantReaction.h:86-123. -/
def setRate (rates : List K) (pos : ℕ × Option ℕ → Option ℕ) (r : ConstRxn d) (α β : Option (Fin d)) : Option K :=
  (constTable pos r α β).bind (rates[·]?)

end RateEnt

end Xolotl.Network
