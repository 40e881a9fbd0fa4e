import Verif.Network.Production
import Mathlib.Analysis.Calculus.Deriv.Mul
import Mathlib.Analysis.Calculus.Deriv.Add
import Mathlib.Tactic.Ring
import Mathlib.Tactic.FieldSimp
import Mathlib.Algebra.BigOperators.Field
import Mathlib.Tactic.Linarith

/-!
# Helper lemmas for the production reaction theorems
-/

set_option linter.unusedSectionVars false

namespace Xolotl.Network

namespace ProdRxn

variable {d : ℕ} {K : Type*} [Field K] (r : ProdRxn d K)

/-- Value of an unknown of the first reactant. -/
def uA (c : ℕ → K) (α : Option (Fin d)) : K := (r.colA α).elim 0 c
/-- Value of an unknown of the second reactant. -/
def uB (c : ℕ → K) (α : Option (Fin d)) : K := (r.colB α).elim 0 c

theorem cm_r1 (c : ℕ → K) (i : Fin d) : r.cm c .r1 i = r.uA c (some i) := by
  simp only [cm, uA, colA]; cases r.mom .r1 i <;> rfl

theorem cm_r2 (c : ℕ → K) (i : Fin d) : r.cm c .r2 i = r.uB c (some i) := by
  simp only [cm, uB, colB]; cases r.mom .r2 i <;> rfl

theorem uA_none (c : ℕ → K) : r.uA c none = c r.r1 := rfl
theorem uB_none (c : ℕ → K) : r.uB c none = c r.r2 := rfl

theorem fluxOf_eq (c : ℕ → K) (q : Slot) (γ : Option (Fin d)) :
    r.fluxOf c q γ = r.rate * ∑ α, ∑ β, r.coefs α β q γ * r.uA c α * r.uB c β := by
  simp only [fluxOf, Fintype.sum_option, cm_r1, cm_r2, uA_none, uB_none, Finset.sum_add_distrib]
  ring

theorem pdA_eq (c : ℕ → K) (q : Slot) (γ α : Option (Fin d)) :
    r.pdA c q γ α = ∑ β, r.coefs α β q γ * r.uB c β := by
  simp only [pdA, Fintype.sum_option, cm_r2, uB_none]

theorem pdB_eq (c : ℕ → K) (q : Slot) (γ β : Option (Fin d)) :
    r.pdB c q γ β = ∑ α, r.coefs α β q γ * r.uA c α := by
  simp only [pdB, Fintype.sum_option, cm_r1, uA_none]

/-- Sum of the partials of one equation with respect to `col` (up to rate, sign and volume). -/
def dFlux (c : ℕ → K) (q : Slot) (γ : Option (Fin d)) (col : ℕ) : K :=
  (∑ α, if r.colA α = some col then r.pdA c q γ α else 0) +
  ∑ β, if r.colB β = some col then r.pdB c q γ β else 0

/-- Contribution of the equations of one participant to `fluxes[n]`. -/
def eqTerm (c : ℕ → K) (q : Slot) (s : K) (n : ℕ) : K :=
  (if r.id q = some n then s * (r.fluxOf c .r1 none / r.vol q) else 0) +
  ∑ k, if r.rowId q (some k) = some n then s * (r.fluxOf c q (some k) / r.vol q) else 0

/-- Contribution of the equations of one participant to the Jacobian entry `(row, col)`. -/
def jacTerm (c : ℕ → K) (q : Slot) (s : K) (row col : ℕ) : K :=
  (if r.id q = some row then s * (r.rate * r.dFlux c .r1 none col / r.vol q) else 0) +
  ∑ k, if r.rowId q (some k) = some row then
    s * (r.rate * r.dFlux c q (some k) col / r.vol q) else 0

theorem computeFlux_net (hp : r.prod1 = none → r.prod2 = none) (c : ℕ → K) (n : ℕ) :
    netOf (r.computeFlux c) n =
      r.eqTerm c .r1 (-1) n + r.eqTerm c .r2 (-1) n + r.eqTerm c .p1 1 n + r.eqTerm c .p2 1 n := by
  have h2 : netOf (r.productUpdates (r.fluxOf c .r1 none)) n =
      (if r.id .p1 = some n then r.fluxOf c .r1 none / r.vol .p1 else 0) +
      (if r.id .p2 = some n then r.fluxOf c .r1 none / r.vol .p2 else 0) := by
    rcases h1 : r.prod1 with _ | a
    · simp [productUpdates, id, h1, hp h1, netOf_nil]
    · rcases h2 : r.prod2 with _ | b <;>
        simp [productUpdates, id, h1, h2, netOf_cons, netOf_nil]
  simp only [computeFlux, netOf_append, h2, netOf_finRange, netOf_emit, netOf_cons, netOf_nil,
    Finset.sum_add_distrib, eqTerm, id, rowId, Option.bind_some, neg_mul, one_mul,
    Option.some.injEq]
  ring_nf

theorem entry_eq (row col : Option ℕ) (a b : ℕ) :
    entry row col = some (a, b) ↔ row = some a ∧ col = some b := by
  cases row <;> cases col <;> simp [entry]

theorem pdZero_net (col : Option ℕ) (temp : K) (row n : ℕ) :
    netOf (r.pdZero col temp) (row, n) = if col = some n then
      (if r.id .r1 = some row then -1 * (r.rate * temp / r.vol .r1) else 0) +
      (if r.id .r2 = some row then -1 * (r.rate * temp / r.vol .r2) else 0) +
      (if r.id .p1 = some row then 1 * (r.rate * temp / r.vol .p1) else 0) +
      (if r.id .p2 = some row then 1 * (r.rate * temp / r.vol .p2) else 0) else 0 := by
  by_cases h : col = some n <;>
    simp only [pdZero, netOf_append, netOf_emit, entry_eq, h, and_true, and_false, if_true,
      if_false, one_mul, neg_mul, add_zero]

theorem pdMoment_net (c : ℕ → K) (q : Slot) (k : Fin d) (s : K) (row n : ℕ) :
    netOf (r.pdMoment c q k (fun x => s * x)) (row, n) =
      if r.rowId q (some k) = some row then
        s * (r.rate * r.dFlux c q (some k) n / r.vol q) else 0 := by
  by_cases h : r.rowId q (some k) = some row
  · simp only [pdMoment, netOf_append, netOf_emit, netOf_finRange, entry_eq, h, true_and, if_true,
      dFlux, Fintype.sum_option, Finset.sum_add_distrib, ]
    simp only [mul_add, add_div, Finset.mul_sum, Finset.sum_div, mul_ite, mul_zero, ite_div,
      zero_div]
    ring
  · simp only [pdMoment, netOf_append, netOf_emit, netOf_finRange, entry_eq, h, false_and, if_false,
      Finset.sum_const_zero, add_zero]

theorem computePartials_net (c : ℕ → K) (row col : ℕ) :
    netOf (r.computePartials c) (row, col) =
      r.jacTerm c .r1 (-1) row col + r.jacTerm c .r2 (-1) row col +
      r.jacTerm c .p1 1 row col + r.jacTerm c .p2 1 row col := by
  have hm : ∀ q k, netOf (r.pdMoment c q k (fun x => -x)) (row, col) =
      if r.rowId q (some k) = some row then
        -1 * (r.rate * r.dFlux c q (some k) col / r.vol q) else 0 := fun q k => by
    rw [← pdMoment_net]; simp
  have hp : ∀ q k, netOf (r.pdMoment c q k (fun x => x)) (row, col) =
      if r.rowId q (some k) = some row then
        1 * (r.rate * r.dFlux c q (some k) col / r.vol q) else 0 := fun q k => by
    rw [← pdMoment_net]; simp
  have hz : ∀ q : Slot, ∀ s : K, (if r.id q = some row then
        s * (r.rate * r.dFlux c .r1 none col / r.vol q) else 0) =
      (if r.colA none = some col then if r.id q = some row then
        s * (r.rate * r.pdA c .r1 none none / r.vol q) else 0 else 0) +
      (if r.colB none = some col then if r.id q = some row then
        s * (r.rate * r.pdB c .r1 none none / r.vol q) else 0 else 0) +
      ∑ i, ((if r.colA (some i) = some col then if r.id q = some row then
        s * (r.rate * r.pdA c .r1 none (some i) / r.vol q) else 0 else 0) +
        (if r.colB (some i) = some col then if r.id q = some row then
        s * (r.rate * r.pdB c .r1 none (some i) / r.vol q) else 0 else 0)) := fun q s => by
    by_cases h : r.id q = some row
    · simp only [h, if_true, dFlux, Fintype.sum_option, Finset.sum_add_distrib]
      simp only [mul_add, add_div, Finset.mul_sum, Finset.sum_div, mul_ite, mul_zero, ite_div,
        zero_div]
      ring
    · simp only [h, if_false, ite_self, Finset.sum_const_zero, add_zero]
  have hs : ∀ (p : Prop) [Decidable p] (a b c e : K), (if p then a + b + c + e else 0) =
      (if p then a else 0) + (if p then b else 0) + (if p then c else 0) +
      (if p then e else 0) := by
    intro p _ a b c e; split_ifs <;> simp
  simp only [computePartials, netOf_append, netOf_finRange, hm, hp, pdZero_net, jacTerm, hz,
    Finset.sum_add_distrib, hs]
  ring

end ProdRxn

end Xolotl.Network
