import Verif.Network.Products
import Mathlib.Algebra.Order.Field.Rat

/-!
# Which reactions a pair of clusters gets in the alloy and zirconium networks

Model of `AlloyReactionGenerator::operator()` and `ZrReactionGenerator::operator()` from the test of the diffusion factors on
(`/repo/xolotl/core/include/xolotl/core/network/impl/AlloyReactionNetwork.tpp:73-645`, `impl/ZrReactionNetwork.tpp:73-315`), of `addSinks` of both (647-672, 317-337)
and of the factor that `AlloyProductionReaction::getRateForProduction` puts on the rate of a reaction (`impl/AlloyReaction.tpp:76-97`).

A cluster of these networks lies on one species axis: it has a kind and an interval of sizes; on the other axes its interval is `[0, 1)`. The searches of
`Verif.Network.Products` are put together as the chain of `if`s of the code does. Productions and dissociations are kept in two lists (the code stores them in two arrays),
a production as its product (`none`: no product), a dissociation as the cluster that dissociates. The searches for constant reactions (lines 33-68) are the subject of `Verif.Network.Constant`.
-/

namespace Xolotl.Network.Pairs

open Xolotl.Network Xolotl.Network.Products

variable {κ : Type} [DecidableEq κ]

/-- A cluster: the species axis it lies on and its interval of sizes on that axis. -/
structure Cl (κ : Type) where
  kind : κ
  reg : Ival

/-- `lo[s]`: the origin of the region (AlloyReactionNetwork.tpp:81, 83). -/
def lo (c : Cl κ) (s : κ) : ℤ := if c.kind = s then c.reg.b else 0

/-- `hi[s]`: the upper limit point of the region (AlloyReactionNetwork.tpp:82, 84). -/
def hi (c : Cl κ) (s : κ) : ℤ := if c.kind = s then c.reg.e else 1

/-- The clusters of a network: `t s` is what `subpaving.findTileId` finds on the axis `s`, `kindOf k` is the axis of the cluster `k`. -/
structure Net (κ : Type) where
  t : κ → Tiling
  kindOf : ℕ → κ
  spec : ∀ s, ∀ k ∈ (t s).ids, kindOf k = s

/-- The reactions added for a pair. -/
structure Out where
  prods : List (Option ℕ)
  diss : List ℕ
  deriving DecidableEq

/-- `(lo1.isOnAxis(s) && lo2.isOnAxis(s')) || (lo1.isOnAxis(s') && lo2.isOnAxis(s))`. -/
def on (c1 c2 : Cl κ) (s s' : κ) : Prop := (c1.kind = s ∧ c2.kind = s') ∨ (c1.kind = s' ∧ c2.kind = s)

instance (c1 c2 : Cl κ) (s s' : κ) : Decidable (on c1 c2 s s') := inferInstanceAs (Decidable (_ ∨ _))

/-- `for (auto k = minSize; k <= maxSize; k++)` with one look-up and `previousIndex` (for instance AlloyReactionNetwork.tpp:131-143). -/
def grow (t : Tiling) (minSize maxSize : ℤ) : List (Option ℕ) :=
  prevLoop none ((upTo minSize maxSize).map fun x => .ofFind (t.find x))

/-- One dissociation for each production with a product, if `b` (for instance AlloyReactionNetwork.tpp:138-140). -/
def dissIf (b : Bool) (prods : List (Option ℕ)) : List ℕ := if b then prods.filterMap id else []

/-- Productions only. -/
def only (prods : List (Option ℕ)) : Out := ⟨prods, []⟩

/-- `lo1[s] == 1 || lo2[s] == 1`. -/
def unit (c1 c2 : Cl κ) (s : κ) : Bool := lo c1 s == 1 || lo c2 s == 1

/-! ### Alloys -/

/-- The species of the alloy network. -/
inductive AK
  | v | void | faulted | i | perfect | frank
  deriving DecidableEq, Repr

/-- The look-ups of one iteration of the loops Perfect + Faulted and Perfect + Void (AlloyReactionNetwork.tpp:484-532, 572-620). -/
def visitsPF (tV tF tI tP : Tiling) (x : ℤ) : List Visit :=
  if 0 < x then [.ofFind (tV.find x), .ofFind (tF.find x)]
  else if x < 0 then [.ofFind (tI.find (-x)), .ofFind (tP.find (-x))] else [.zero]

/-- The size of the cluster of kind `s` (`lo1.isOnAxis(s) ? lo1[s] : lo2[s]`). -/
def sizeOf (c1 c2 : Cl κ) (s : κ) : ℤ := if c1.kind = s then lo c1 s else lo c2 s

/-- The sizes of the cluster of kind `s` (`lo1.isOnAxis(s) ? cl1Reg : cl2Reg`). -/
def regOf (c1 c2 : Cl κ) (s : κ) : Ival := if c1.kind = s then c1.reg else c2.reg

/-- `AlloyReactionGenerator::operator()` from line 73 on; `m1`, `m2`: the diffusion factors are not zero.  AlloyReactionNetwork.tpp:73-645. -/
def alloyPair (N : Net AK) (m1 m2 : Bool) (c1 c2 : Cl AK) : Out :=
  if m1 = false ∧ m2 = false then only []
  else if c1.kind = .v ∧ c2.kind = .v then
    let size := lo c1 .v + lo c2 .v
    let ps := [(N.t .v).find size, (N.t .void).find size, (N.t .faulted).find size].filterMap id
    ⟨ps.map some, if unit c1 c2 .v then ps else []⟩
  else if on c1 c2 .void .v then
    let ps := grow (N.t .void) (lo c1 .v + lo c2 .v + lo c1 .void + lo c2 .void) (lo c1 .v + lo c2 .v + hi c1 .void + hi c2 .void - 2)
    ⟨ps, dissIf (unit c1 c2 .v) ps⟩
  else if on c1 c2 .faulted .v then
    let ps := grow (N.t .faulted) (lo c1 .v + lo c2 .v + lo c1 .faulted + lo c2 .faulted) (lo c1 .v + lo c2 .v + hi c1 .faulted + hi c2 .faulted - 2)
    ⟨ps, dissIf (unit c1 c2 .v) ps⟩
  else if on c1 c2 .i .v then
    only (prevLoop none [visitIV (N.t .v) (N.t .i) (sizeOf c1 c2 .v - sizeOf c1 c2 .i)])
  else if on c1 c2 .perfect .v then
    only (alloyVL (N.t .i) (N.t .perfect) (N.t .v) (sizeOf c1 c2 .v) (regOf c1 c2 .perfect))
  else if on c1 c2 .frank .v then
    only (alloyVL (N.t .i) (N.t .frank) (N.t .v) (sizeOf c1 c2 .v) (regOf c1 c2 .frank))
  else if c1.kind = .i ∧ c2.kind = .i then
    let size := lo c1 .i + lo c2 .i
    only (([(N.t .i).find size, (N.t .frank).find size, (N.t .perfect).find size].filterMap id).map some)
  else if on c1 c2 .frank .i then
    only (grow (N.t .frank) (lo c1 .i + lo c2 .i + lo c1 .frank + lo c2 .frank) (lo c1 .i + lo c2 .i + hi c1 .frank + hi c2 .frank - 2))
  else if on c1 c2 .perfect .i then
    only (grow (N.t .perfect) (lo c1 .i + lo c2 .i + lo c1 .perfect + lo c2 .perfect) (lo c1 .i + lo c2 .i + hi c1 .perfect + hi c2 .perfect - 2))
  else if on c1 c2 .faulted .i then
    only (alloyIL (N.t .v) (N.t .faulted) (sizeOf c1 c2 .i) (regOf c1 c2 .faulted))
  else if on c1 c2 .void .i then
    only (alloyIL (N.t .v) (N.t .void) (sizeOf c1 c2 .i) (regOf c1 c2 .void))
  else if on c1 c2 .perfect .faulted then
    only (prevLoop none ((upTo (wrap (lo c1 .faulted + lo c2 .faulted - hi c1 .perfect - hi c2 .perfect + 2))
      (wrap (hi c1 .faulted + hi c2 .faulted - lo c1 .perfect - lo c2 .perfect - 2) - 1)).flatMap
        (visitsPF (N.t .v) (N.t .faulted) (N.t .i) (N.t .perfect))))
  else if on c1 c2 .frank .perfect then
    only (grow (N.t .frank) (lo c1 .perfect + lo c2 .perfect + lo c1 .frank + lo c2 .frank) (hi c1 .perfect + hi c2 .perfect + hi c1 .frank + hi c2 .frank - 4))
  else if on c1 c2 .void .perfect then
    only (prevLoop none ((upTo (wrap (lo c1 .void + lo c2 .void - hi c1 .perfect - hi c2 .perfect + 2))
      (wrap (hi c1 .void + hi c2 .void - lo c1 .perfect - lo c2 .perfect - 2) - 1)).flatMap
        (visitsPF (N.t .v) (N.t .void) (N.t .i) (N.t .perfect))))
  else if c1.kind = .perfect ∧ c2.kind = .perfect then
    only (grow (N.t .perfect) (lo c1 .perfect + lo c2 .perfect) (hi c1 .perfect + hi c2 .perfect - 2))
  else only []

/-- The factor on the rate of a production (the rate without it depends on the reactants only).  AlloyReaction.tpp:76-97. A reaction of two interstitial
or two vacancy clusters always has a product, so the value for `none` in these cases is not used. -/
def rateFactor (N : Net AK) (c1 c2 : Cl AK) (p : Option ℕ) : ℚ :=
  if c1.kind = .i ∧ c2.kind = .i ∧ (∀ k ∈ p, N.kindOf k ≠ .i) then 1 / 2
  else if c1.kind = .v ∧ c2.kind = .v ∧ (∀ k ∈ p, N.kindOf k ≠ .v) then 1 / 2
  else 1

/-- The sum of the factors of all productions of a pair: the rate at which the pair disappears, divided by the rate at which it meets. -/
def total (N : Net AK) (m1 m2 : Bool) (c1 c2 : Cl AK) : ℚ := ((alloyPair N m1 m2 c1 c2).prods.map (rateFactor N c1 c2)).sum

/-- `isSimplex()` of the region. -/
def simplex (c : Cl κ) : Prop := c.reg.e = c.reg.b + 1

instance (c : Cl κ) : Decidable (simplex c) := inferInstanceAs (Decidable (_ = _))

/-- The number of sink reactions of a cluster; `m`: its diffusion factor is not zero.  AlloyReactionNetwork.tpp:29-31, 647-672. -/
def alloySinks (m : Bool) (c : Cl AK) : ℕ :=
  if m = false then 0 else (if simplex c ∧ c.kind = .i then 1 else 0) + (if simplex c ∧ c.kind = .v then 1 else 0) + (if simplex c ∧ c.kind = .perfect then 1 else 0)

/-! ### Zirconium -/

/-- The species of the zirconium network. -/
inductive ZK
  | v | basal | i
  deriving DecidableEq, Repr

/-- The loop V + V with its special dissociation of the basal cluster of size 9; `u`: one of the two is a single vacancy.  ZrReactionNetwork.tpp:92-120. -/
def zrVVLoop (N : Net ZK) (u : Bool) : Option ℕ → List ℤ → Out
  | _, [] => ⟨[], []⟩
  | p, x :: xs =>
    match (N.t .v).find x with
    | none => zrVVLoop N u p xs
    | some k =>
      if p = some k then zrVVLoop N u p xs
      else
        let r := zrVVLoop N u (some k) xs
        let special := if x = 9 ∧ u = true then (match (N.t .basal).find x with
          | none => []
          | some b => if b = k then [] else [b]) else []
        ⟨some k :: r.prods, (if u then [k] else []) ++ special ++ r.diss⟩

/-- The dissociations of V + Basal: those of the products found on the basal axis.  ZrReactionNetwork.tpp:165-174. -/
def basalOnly (N : Net ZK) (ps : List (Option ℕ)) : List ℕ := (ps.filterMap id).filter fun k => N.kindOf k = .basal

/-- `ZrReactionGenerator::operator()` from line 73 on.  ZrReactionNetwork.tpp:73-315. -/
def zrPair (N : Net ZK) (m1 m2 : Bool) (c1 c2 : Cl ZK) : Out :=
  if m1 = false ∧ m2 = false then only []
  else if c1.kind = .v ∧ c2.kind = .v then
    zrVVLoop N (unit c1 c2 .v) none (upTo (lo c1 .v + lo c2 .v) (hi c1 .v + hi c2 .v - 2))
  else if c1.kind = .basal ∧ c2.kind = .basal then
    only (grow (N.t .basal) (lo c1 .basal + lo c2 .basal) (hi c1 .basal + hi c2 .basal - 2))
  else if on c1 c2 .basal .v then
    let ps := prevLoop none ((upTo (lo c1 .v + lo c2 .v + lo c1 .basal + lo c2 .basal)
      (hi c1 .v + hi c2 .v + hi c1 .basal + hi c2 .basal - 4)).map (visitVB (N.t .basal) (N.t .v)))
    ⟨ps, if unit c1 c2 .v then basalOnly N ps else []⟩
  else if on c1 c2 .basal .i then
    only (prevLoop none ((upTo (lo c1 .basal + lo c2 .basal - hi c1 .i - hi c2 .i + 2)
      (hi c1 .basal + hi c2 .basal - 2 - lo c1 .i - lo c2 .i)).map (visitIB (N.t .basal) (N.t .v) (N.t .i))))
  else if on c1 c2 .i .v then
    only (prevLoop none ((upTo (lo c1 .v + lo c2 .v - hi c1 .i - hi c2 .i + 2)
      (hi c1 .v + hi c2 .v - 2 - lo c1 .i - lo c2 .i)).map (visitIV (N.t .v) (N.t .i))))
  else if c1.kind = .i ∧ c2.kind = .i then
    let ps := grow (N.t .i) (lo c1 .i + lo c2 .i) (hi c1 .i + hi c2 .i - 2)
    ⟨ps, dissIf (unit c1 c2 .i) ps⟩
  else only []

/-- The number of sink reactions of a cluster.  ZrReactionNetwork.tpp:29-31, 317-337. -/
def zrSinks (m : Bool) (c : Cl ZK) : ℕ :=
  if m = false then 0 else (if simplex c ∧ c.kind = .i then 1 else 0) + (if simplex c ∧ c.kind = .v then 1 else 0)

end Xolotl.Network.Pairs
