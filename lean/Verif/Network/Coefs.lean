import Verif.Network.Region
import Mathlib.Data.List.FinRange

/-!
# Grouping coefficients of a production reaction

Model of `ProductionReaction::computeCoefficients`,
`/repo/xolotl/core/include/xolotl/core/network/impl/Reaction.tpp:174-482`.

The 4-index array `_coefs(α, β, slot, γ)` is a function of `Option (Fin d)` indices (`none` is index 0, `some i` is
index `i+1`).  The two outer loops over the species are modelled as folds over `0, 1, .., d-1` *in order*,
because later statements of an iteration read entries that other iterations write: reading an entry before its
iteration has run returns the initial zero of the Kokkos view.  Inside one outer iteration the
writes are presented simultaneously (every statement of an iteration reads either values written
earlier in the same iteration, which are inlined, or values of other iterations, read from the incoming
state).
-/

namespace Xolotl.Network

open Xolotl.Util

/-- The four participants of a production reaction; third index of `_coefs` (0, 1, 2, 3). -/
inductive Slot
  | r1 | r2 | p1 | p2
  deriving DecidableEq

/-- Is the slot a product (`p + 2`)? -/
def Slot.isProd : Slot → Bool
  | .p1 | .p2 => true
  | _ => false

/-- Everything `computeCoefficients` reads: reflected regions, reflected dispersions and product
ids (`none` is `invalidIndex`). -/
structure ProdIn (d : ℕ) (K : Type*) where
  /-- `cl1RR`, `cl2RR`, `pr1RR`, `pr2RR` (Reaction.tpp:204-209). -/
  c1 : Fin d → Ival
  c2 : Fin d → Ival
  p1 : Fin d → Ival
  p2 : Fin d → Ival
  /-- `cl1Disp`, `cl2Disp` and the product dispersions (Reaction.tpp:195-200, 249-254). -/
  d1 : Fin d → K
  d2 : Fin d → K
  dp1 : Fin d → K
  dp2 : Fin d → K
  /-- `_products[0]`, `_products[1]`. -/
  prod1 : Option ℕ
  prod2 : Option ℕ

variable {d : ℕ} {K : Type*} [Field K] [LinearOrder K]

/-- `_coefs`: (first reactant order, second reactant order, slot, moment). -/
abbrev Tensor (d : ℕ) (K : Type*) := Option (Fin d) → Option (Fin d) → Slot → Option (Fin d) → K

namespace ProdIn

variable (r : ProdIn d K)

/-- `_products[p] != invalidIndex` (reactants are always valid). -/
def valid : Slot → Bool
  | .p1 => r.prod1.isSome
  | .p2 => r.prod2.isSome
  | _ => true

/-- `thisRR = (prodId == _products[0]) ? pr1RR : pr2RR` (Reaction.tpp:247, 365). -/
def thisRR : Slot → Fin d → Ival
  | .p2 => if r.prod2 = r.prod1 then r.p1 else r.p2
  | .p1 => r.p1
  | .r1 => r.c1
  | .r2 => r.c2

/-- `otherRR = (prodId == _products[0]) ? pr2RR : pr1RR` (Reaction.tpp:248, 366). -/
def otherRR : Slot → Fin d → Ival
  | .p2 => if r.prod2 = r.prod1 then r.p2 else r.p1
  | .p1 => r.p2
  | .r1 => r.c2
  | .r2 => r.c1

/-- `thisDispersion` (Reaction.tpp:250-254) and the reactant dispersions. -/
def thisDisp : Slot → Fin d → K
  | .p2 => if r.prod2 = r.prod1 then r.dp1 else r.dp2
  | .p1 => r.dp1
  | .r1 => r.d1
  | .r2 => r.d2

/-- Neither product exists (Reaction.tpp:213). -/
def noProd : Bool := r.prod1.isNone && r.prod2.isNone

/-- `_widths[i]` (Reaction.tpp:214-220). -/
def width (i : Fin d) : K :=
  if r.noProd then 1 else overlapWidth (r.c1 i) (r.c2 i) (r.p1 i) (r.p2 i)

/-- `nOverlap` (Reaction.tpp:211-220, 56-76). -/
def nOverlap : K := if r.noProd then 1 else ∏ i, r.width i

/-- `factor = nOverlap / _widths[i]` (Reaction.tpp:225). -/
def factor (i : Fin d) : K := r.nOverlap / r.width i

/-- Value of `_coefs(i+1,0,0,0)` (Reaction.tpp:226-227). -/
def cA (i : Fin d) : K :=
  r.factor i * computeFirstOrderSum (r.c1 i) (r.c2 i) (r.p1 i) (r.p2 i)

/-- Value of `_coefs(0,i+1,0,0)` (Reaction.tpp:233-234). -/
def cB (i : Fin d) : K :=
  r.factor i * computeFirstOrderSum (r.c2 i) (r.c1 i) (r.p1 i) (r.p2 i)

/-- Value of `_coefs(0,0,p+2,i+1)` (Reaction.tpp:258-261). -/
def cP (q : Slot) (i : Fin d) : K :=
  r.factor i * computeFirstOrderSum (r.thisRR q i) (r.otherRR q i) (r.c2 i) (r.c1 i) /
    r.thisDisp q i

/-- One iteration of the first outer loop (Reaction.tpp:223-288). -/
def step1 (s : Tensor d K) (i : Fin d) : Tensor d K := fun α β q γ =>
  match α, β, γ with
  | some a, none, none =>          -- :226
    if a = i ∧ q = .r1 then r.cA i else s α β q γ
  | none, some b, none =>          -- :233
    if b = i ∧ q = .r1 then r.cB i else s α β q γ
  | none, none, some k =>
    if k = i then
      match q with
      | .r1 => r.cA i / r.d1 i     -- :229
      | .r2 => r.cB i / r.d2 i     -- :236
      | q => if r.valid q then r.cP q i else s α β q γ   -- :258
    else s α β q γ
  | some a, none, some k =>
    if a = i ∧ q.isProd ∧ r.valid q then
      if k = i then                -- :267
        r.factor i *
          computeSecondOrderOffsetSum (r.c1 i) (r.c2 i) (r.thisRR q i) (r.otherRR q i) /
          r.thisDisp q i
      else r.cA i * s none none q (some k) / r.nOverlap  -- :278
    else s α β q γ
  | none, some b, some k =>
    if b = i ∧ q.isProd ∧ r.valid q then
      if k = i then                -- :272
        r.factor i *
          computeSecondOrderOffsetSum (r.c2 i) (r.c1 i) (r.thisRR q i) (r.otherRR q i) /
          r.thisDisp q i
      else r.cB i * s none none q (some k) / r.nOverlap  -- :282
    else s α β q γ
  | _, _, _ => s α β q γ

/-- Value given to `_coefs(i+1,j+1,0,0)` in the second loop (Reaction.tpp:292-318). -/
def cAB (s : Tensor d K) (i j : Fin d) : K :=
  if i = j then
    s (some i) (some j) .r1 none +
      r.factor i * reactantsSecondOrderSum (r.c1 i) (r.c2 i) (r.p1 i) (r.p2 i)
  else s (some i) none .r1 none * s none (some j) .r1 none / r.nOverlap

/-- Value given to `_coefs(i+1,0,0,k+1)` (Reaction.tpp:325, 335). -/
def cA1 (s : Tensor d K) (i k : Fin d) : K :=
  if k = i then
    r.factor i * computeSecondOrderSum (r.c1 i) (r.c2 i) (r.p1 i) (r.p2 i) / r.d1 i
  else s (some i) none .r1 none * s (some k) none .r1 none / (r.nOverlap * r.d1 k)

/-- Value given to `_coefs(0,i+1,1,k+1)` (Reaction.tpp:329, 338). -/
def cB2 (s : Tensor d K) (i k : Fin d) : K :=
  if k = i then
    r.factor i * computeSecondOrderSum (r.c2 i) (r.c1 i) (r.p1 i) (r.p2 i) / r.d2 i
  else s none (some i) .r1 none * s none (some k) .r1 none / (r.nOverlap * r.d2 k)

/-- Value given to `_coefs(0,i+1,0,k+1)` (Reaction.tpp:343): reads `_coefs(k+1,i+1,0,0)`, which has
been written by this iteration only when `k = i`. -/
def cB1 (s : Tensor d K) (i k : Fin d) : K :=
  (if k = i then r.cAB s i i else s (some k) (some i) .r1 none) / r.d1 k

/-- Value given to `_coefs(i+1,0,1,k+1)` (Reaction.tpp:347). -/
def cA2 (s : Tensor d K) (i k : Fin d) : K := r.cAB s i k / r.d2 k

/-- Value given to `_coefs(i+1,j+1,p+2,k+1)` (Reaction.tpp:374-426). -/
def cABP (s : Tensor d K) (i j k : Fin d) (q : Slot) : K :=
  if i = j ∧ j = k then
    (s (some i) (some j) q (some k) +
      r.factor i * productThirdOrderSum (r.c1 i) (r.c2 i) (r.thisRR q i) (r.otherRR q i)) /
      r.thisDisp q k
  else if j = k then
    s (some i) none .r1 none * s none (some j) q (some k) / r.nOverlap
  else if i = k then
    s none (some j) .r1 none * s (some i) none q (some k) / r.nOverlap
  else if i = j then
    s none none q (some k) * r.cAB s i j / r.nOverlap
  else
    s (some i) none .r1 none * s none (some j) .r1 none * s none none q (some k) /
      (r.nOverlap * r.nOverlap)

/-- Value given to `_coefs(i+1,j+1,0,k+1)` (Reaction.tpp:430-478). -/
def cABR1 (s : Tensor d K) (i j k : Fin d) : K :=
  if i = j ∧ j = k then
    r.factor i * computeThirdOrderSum (r.c2 i) (r.c1 i) (r.p1 i) (r.p2 i) / r.d1 i
  else if i = k then
    s none (some j) .r1 none * r.cA1 s i k / r.nOverlap
  else if j = k then
    s (some i) none .r1 none * s none (some j) .r1 (some k) / r.nOverlap
  else if i = j then
    s none none .r1 (some k) * r.cAB s i j / r.nOverlap
  else
    s (some i) none .r1 none * s none (some j) .r1 none * s (some k) none .r1 none /
      (r.nOverlap * r.nOverlap * r.d1 k)

/-- Value given to `_coefs(i+1,j+1,1,k+1)` (Reaction.tpp:430-478). -/
def cABR2 (s : Tensor d K) (i j k : Fin d) : K :=
  if i = j ∧ j = k then
    r.factor i * computeThirdOrderSum (r.c1 i) (r.c2 i) (r.p1 i) (r.p2 i) / r.d2 i
  else if i = k then
    s none (some j) .r1 none * r.cA2 s i k / r.nOverlap
  else if j = k then
    s (some i) none .r1 none * s none (some j) .r2 (some k) / r.nOverlap
  else if i = j then
    s none none .r2 (some k) * r.cAB s i j / r.nOverlap
  else
    s (some i) none .r1 none * s none (some j) .r1 none * s none (some k) .r1 none /
      (r.nOverlap * r.nOverlap * r.d2 k)

/-- One iteration of the second outer loop (Reaction.tpp:290-481). -/
def step2 (s : Tensor d K) (i : Fin d) : Tensor d K := fun α β q γ =>
  match α, β, γ with
  | some a, some j, none => if a = i ∧ q = .r1 then r.cAB s i j else s α β q γ
  | some a, none, some k =>
    if a = i then
      match q with
      | .r1 => r.cA1 s i k
      | .r2 => r.cA2 s i k
      | _ => s α β q γ
    else s α β q γ
  | none, some b, some k =>
    if b = i then
      match q with
      | .r1 => r.cB1 s i k
      | .r2 => r.cB2 s i k
      | _ => s α β q γ
    else s α β q γ
  | some a, some j, some k =>
    if a = i then
      match q with
      | .r1 => r.cABR1 s i j k
      | .r2 => r.cABR2 s i j k
      | q => if r.valid q then r.cABP s i j k q else s α β q γ
    else s α β q γ
  | _, _, _ => s α β q γ

/-- State before the loops: zero-initialised view, then `_coefs(0,0,0,0) = nOverlap`
(Reaction.tpp:222). -/
def coefs0 : Tensor d K := fun α β q γ =>
  match α, β, γ with
  | none, none, none => if q = .r1 then r.nOverlap else 0
  | _, _, _ => 0

/-- `_coefs` after the first loop. -/
def coefs1 : Tensor d K := (List.finRange d).foldl r.step1 r.coefs0

/-- `_coefs` after `computeCoefficients`. -/
def coefs : Tensor d K := (List.finRange d).foldl r.step2 r.coefs1

/-! ### Independent specification -/

/-- The participant's group on each axis. -/
def reg : Slot → Fin d → Ival
  | .r1 => r.c1
  | .r2 => r.c2
  | .p1 => r.p1
  | .p2 => r.p2

/-- The participant's dispersion on each axis. -/
def disp : Slot → Fin d → K
  | .r1 => r.d1
  | .r2 => r.d2
  | .p1 => r.dp1
  | .p2 => r.dp2

/-- All composition quadruples: on every axis one size of each group with `r1 + r2 = p1 + p2`. -/
def allQuads : Finset (Fin d → Quad) :=
  Fintype.piFinset fun i => quads (r.c1 i) (r.c2 i) (r.p1 i) (r.p2 i)

end ProdIn

/-- The composition of a participant in a quadruple. -/
def Slot.part : Slot → Quad → ℤ
  | .r1, q => q.1
  | .r2, q => q.2.1
  | .p1, q => q.2.2.1
  | .p2, q => q.2.2.2

namespace ProdIn

variable (r : ProdIn d K)

/-- Deviation of a participant from its group centre (1 for order zero). -/
def dev (q : Slot) (γ : Option (Fin d)) (x : Fin d → Quad) : K :=
  match γ with
  | none => 1
  | some k => (q.part (x k) : K) - (r.reg q k).mid

/-- Dispersion normalisation of the equation of moment `γ` (1 for order zero). -/
def dispO (q : Slot) (γ : Option (Fin d)) : K :=
  match γ with
  | none => 1
  | some k => r.disp q k

/-- What the coefficient means: the sum over all composition quadruples of the product of the
deviations of the two reactants and of the normalised deviation of the updated participant. -/
def coefSpec (α β : Option (Fin d)) (q : Slot) (γ : Option (Fin d)) : K :=
  (∑ x ∈ r.allQuads, r.dev .r1 α x * r.dev .r2 β x * r.dev q γ x) / r.dispO q γ

/-- Entries that are read by another iteration before they are written, so that the code
effectively uses zero for them (only possible with at least two moment axes). -/
def Lost (α β : Option (Fin d)) (q : Slot) (γ : Option (Fin d)) : Prop :=
  match α, β, γ with
  | some i, none, some k => q.isProd ∧ i < k
  | none, some i, some k => (q.isProd ∨ q = .r1) ∧ i < k
  | some i, some j, some k => q.isProd = false ∧ j = k ∧ i < j
  | _, _, _ => False

end ProdIn

end Xolotl.Network
