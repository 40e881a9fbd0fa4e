import Verif.Network.Region
import Mathlib.Data.Int.DivMod

/-!
# Search for the products of a reaction

Model of the product searches of the reaction generators:

* `PSIReactionGenerator::operator()` (`/repo/xolotl/core/include/xolotl/core/network/impl/PSIReactionNetwork.tpp`:
  I + I 453-482, I + V 485-548, general case 551-590, second search for trap mutation 639-700),
* `ZrReactionGenerator::operator()` (`impl/ZrReactionNetwork.tpp:86-312`),
* `AlloyReactionGenerator::operator()` (`impl/AlloyReactionNetwork.tpp:86-655`),
* the general case shared by Fe and NE (`impl/FeReactionNetwork.tpp:108-166`, `impl/NEReactionNetwork.tpp:355-399, 454-479`).

`Subpaving::findTileId` (plsm, not part of the repository) is represented by `Tiling`: a look-up along one species axis
returns the tile whose interval on that axis contains the size. Only the production reactions are kept; a reaction is
recorded as its product, `none` standing for "no product".
-/

namespace Xolotl.Network.Products

open Xolotl.Network

/-- The tiles met along one species axis and the look-up `subpaving.findTileId(comp)` for a composition on that axis. -/
structure Tiling where
  find : ℤ → Option ℕ
  ids : Set ℕ
  reg : ℕ → Ival
  spec : ∀ x k, find x = some k ↔ k ∈ ids ∧ (reg k).b ≤ x ∧ x < (reg k).e
  nonneg : ∀ k ∈ ids, 0 ≤ (reg k).b

/-- The sizes visited by `for (k = lo; k <= hi; k++)`. -/
def upTo (lo hi : ℤ) : List ℤ := (List.range (hi + 1 - lo).toNat).map fun n : ℕ => lo + (n : ℤ)

/-- Outcome of the visit of one size. -/
inductive Visit
  | miss
  | zero
  | hit (k : ℕ)
  deriving DecidableEq

/-- `findTileId` compared with `invalidIndex()`. -/
def Visit.ofFind : Option ℕ → Visit
  | none => .miss
  | some k => .hit k

/-- Loops that remember the last product in `previousIndex` (for instance ZrReactionNetwork.tpp:258-287). -/
def prevLoop : Option ℕ → List Visit → List (Option ℕ)
  | _, [] => []
  | p, .miss :: vs => prevLoop p vs
  | p, .zero :: vs => none :: prevLoop p vs
  | p, .hit k :: vs => if p = some k then prevLoop p vs else some k :: prevLoop (some k) vs

/-- One visit of the interstitial-vacancy loops: vacancy cluster for positive net sizes, interstitial cluster for negative ones, no product for zero
(PSIReactionNetwork.tpp:506-544, ZrReactionNetwork.tpp:259-286). -/
def visitIV (tV tI : Tiling) (x : ℤ) : Visit :=
  if 0 < x then .ofFind (tV.find x) else if x < 0 then .ofFind (tI.find (-x)) else .zero

/-- PSI loop on `prodSize` with `prodBounds` (PSIReactionNetwork.tpp:498-545). -/
def psiLoop (tV tI : Tiling) : ℤ × ℤ → List ℤ → List (Option ℕ)
  | _, [] => []
  | b, x :: xs =>
    if b.1 ≤ x ∧ x ≤ b.2 ∧ x ≠ 0 then psiLoop tV tI b xs
    else if 0 < x then
      match tV.find x with
      | some k => some k :: psiLoop tV tI ((tV.reg k).b, (tV.reg k).e - 1) xs
      | none => psiLoop tV tI b xs
    else if x < 0 then
      match tI.find (-x) with
      | some k => some k :: psiLoop tV tI (1 - (tI.reg k).e, -(tI.reg k).b) xs
      | none => psiLoop tV tI b xs
    else none :: psiLoop tV tI (0, 0) xs

/-- PSI, I + V (484-546): `v` and `i` are the vacancy and interstitial intervals of the reactants. -/
def psiIV (tV tI : Tiling) (v i : Ival) : List (Option ℕ) :=
  psiLoop tV tI (0, 0) (upTo (v.b - i.e + 1) (v.e - 1 - i.b))

/-- PSI loop of I + I (459-480). -/
def psiIILoop (tI : Tiling) : ℤ × ℤ → List ℤ → List (Option ℕ)
  | _, [] => []
  | b, x :: xs =>
    if b.1 ≤ x ∧ x ≤ b.2 then psiIILoop tI b xs
    else match tI.find x with
      | some k => some k :: psiIILoop tI ((tI.reg k).b, (tI.reg k).e - 1) xs
      | none => psiIILoop tI b xs

/-- PSI, I + I (453-481). -/
def psiII (tI : Tiling) (i1 i2 : Ival) : List (Option ℕ) :=
  psiIILoop tI (0, 0) (upTo (i1.b + i2.b) (i1.e + i2.e - 2))

/-- Zr, V + I (ZrReactionNetwork.tpp:249-290). The interval of the other reactant on the same axis is `[0, 1)`. -/
def zrIV (tV tI : Tiling) (v i : Ival) : List (Option ℕ) :=
  prevLoop none ((upTo (v.b + 0 - i.e - 1 + 2) (v.e + 1 - 2 - i.b - 0)).map (visitIV tV tI))

/-- One visit of the Zr loop interstitial + basal (203-242). -/
def visitIB (tB tV tI : Tiling) (x : ℤ) : Visit :=
  if 9 < x then .ofFind (tB.find x) else visitIV tV tI x

/-- Zr, I + Basal (193-246). -/
def zrIB (tB tV tI : Tiling) (basal i : Ival) : List (Option ℕ) :=
  prevLoop none ((upTo (basal.b + 0 - i.e - 1 + 2) (basal.e + 1 - 2 - i.b - 0)).map (visitIB tB tV tI))

/-- One visit of the Zr loop V + Basal (161-187). -/
def visitVB (tB tV : Tiling) (x : ℤ) : Visit :=
  if 9 < x then .ofFind (tB.find x) else .ofFind (tV.find x)

/-- Zr, V + Basal (152-190). -/
def zrVB (tB tV : Tiling) (v basal : Ival) : List (Option ℕ) :=
  prevLoop none ((upTo (v.b + 0 + 0 + basal.b) (v.e + 1 + 1 + basal.e - 4)).map (visitVB tB tV))

/-- Loops over one product axis: Zr V + V (87-123), Basal + Basal (127-149), I + I (292-311);
Alloy Frank + I (347-369), Perfect + I (371-394), Perfect + Frank (536-559), Perfect + Perfect (624-645). `a` and `b` are the intervals of the two reactants. -/
def sameKind (t : Tiling) (a b : Ival) : List (Option ℕ) :=
  prevLoop none ((upTo (a.b + b.b) (a.e + b.e - 2)).map fun x => .ofFind (t.find x))

/-- The two look-ups of one iteration of the Alloy loops V + Perfect and V + Frank (AlloyReactionNetwork.tpp:220-260, 272-312):
the small cluster first, then the loop, for positive sizes; the vacancy cluster for negative ones. -/
def visitsVL (tI tP tV : Tiling) (x : ℤ) : List Visit :=
  if 0 < x then [.ofFind (tI.find x), .ofFind (tP.find x)]
  else if x < 0 then [.ofFind (tV.find (-x))] else [.zero]

/-- Alloy, V + Perfect and V + Frank (213-314): `makeIntervalRange` over the sizes of the loop. -/
def alloyVL (tI tP tV : Tiling) (vSize : ℤ) (p : Ival) : List (Option ℕ) :=
  prevLoop none ((upTo p.b (p.e - 1)).flatMap fun k => visitsVL tI tP tV (k - vSize))

/-- Look-ups of one iteration of the Alloy loops I + Faulted and I + Void (396-470): nothing when the net size is not positive. -/
def visitsIL (tV tF : Tiling) (x : ℤ) : List Visit :=
  if 0 < x then [.ofFind (tV.find x), .ofFind (tF.find x)] else []

/-- Alloy, I + Faulted and I + Void. -/
def alloyIL (tV tF : Tiling) (iSize : ℤ) (f : Ival) : List (Option ℕ) :=
  prevLoop none ((upTo f.b (f.e - 1)).flatMap fun k => visitsIL tV tF (k - iSize))

/-- 32 bit unsigned arithmetic: `AmountType` is `uint32_t`. -/
def wrap (x : ℤ) : ℤ := x % 2 ^ 32

/-- The unsigned sizes visited by the Alloy loops Perfect + Faulted and Perfect + Void
(`for (auto k = minSize; k < maxSize; k++)`, 472-486, 561-574). -/
def alloyPFSizes (f p : Ival) : List ℤ :=
  upTo (wrap (f.b + 0 - p.e - 1 + 2)) (wrap (f.e + 1 - p.b - 0 - 2) - 1)

/-- Bounds of the general case on an axis other than V and I (PSIReactionNetwork.tpp:556-567). -/
def boundsPlain (a b : Ival) : ℤ × ℤ := (wrap (a.b + b.b), wrap (a.e + b.e - 2))

/-- Bounds of the general case on the V axis, after subtracting the interstitials (558-564). -/
def boundsV (a b i1 i2 : Ival) : ℤ × ℤ :=
  (wrap ((boundsPlain a b).1 - wrap (i1.e + i2.e - 2)), wrap ((boundsPlain a b).2 - wrap (i1.b + i2.b)))

/-- Test of one axis of a candidate product (577-584). -/
def axisGood (p : Ival) (bd : ℤ × ℤ) : Bool := !(decide (bd.2 < p.b)) && !(decide (p.e - 1 < bd.1))

/-- `isGood` (573-585): `σ` are the species other than V and I. -/
def isGood {σ : Type} (sp : List σ) (r1 r2 prod : σ → Ival) (v1 v2 i1 i2 pv : Ival) : Bool :=
  (sp.all fun l => axisGood (prod l) (boundsPlain (r1 l) (r2 l))) && axisGood pv (boundsV v1 v2 i1 i2)

/-- Second search of the PSI generator when the first one found nothing (655-690): for `n = 1, …, 6` look for the interstitial cluster, shift
the vacancy bounds by one and search again. `prods s` are the clusters found with the vacancy bounds shifted by `s`. The result lists
the pairs (product, interstitial cluster). `fuel` counts the remaining values of `n`. -/
def tmSearch (findI : ℕ → Option ℕ) (prods : ℕ → List ℕ) : (fuel n shift : ℕ) → List (ℕ × ℕ)
  | 0, _, _ => []
  | fuel + 1, n, shift =>
    match findI n with
    | none => tmSearch findI prods fuel (n + 1) shift
    | some c =>
      if prods (shift + 1) = [] then tmSearch findI prods fuel (n + 1) (shift + 1)
      else (prods (shift + 1)).map fun k => (k, c)

end Xolotl.Network.Products
