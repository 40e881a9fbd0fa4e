import Verif.Network.Constant
import Verif.Network.ProductionLemmas
import Verif.Network.DissociationProps
import Verif.Network.ProductionProps
import Mathlib.Tactic.IntervalCases

/-!
# C19: constant rates give the flux of the reactions that leave the sub-network
-/

set_option linter.unusedSectionVars false

namespace Xolotl.Network

namespace Const

variable {d : ℕ} {K : Type*} [Field K]

/-- What the rate array gives to row `n` at concentrations `c`: every entry times the concentration of its column, and the entry of the constant column as it is. -/
def evalRates (L : List ((ℕ × Option ℕ) × K)) (c : ℕ → K) (n : ℕ) : K :=
  (L.map fun u => if u.1.1 = n then u.2 * u.1.2.elim 1 c else 0).sum

theorem eval_nil (c : ℕ → K) (n : ℕ) : evalRates ([] : List ((ℕ × Option ℕ) × K)) c n = 0 := rfl

theorem eval_append (L M : List ((ℕ × Option ℕ) × K)) (c : ℕ → K) (n : ℕ) :
    evalRates (L ++ M) c n = evalRates L c n + evalRates M c n := by
  simp [evalRates]

theorem eval_finRange (f : Fin d → List ((ℕ × Option ℕ) × K)) (c : ℕ → K) (n : ℕ) :
    evalRates ((List.finRange d).flatMap f) c n = ∑ i, evalRates (f i) c n := by
  rw [Fin.sum_univ_def]
  induction List.finRange d with
  | nil => rfl
  | cons a l ih => rw [List.flatMap_cons, eval_append, ih, List.map_cons, List.sum_cons]

theorem eval_col (row col : Option ℕ) (v : K) (c : ℕ → K) (n : ℕ) :
    evalRates (emit (rateCol row col) v) c n = if row = some n then v * col.elim 0 c else 0 := by
  cases row <;> cases col <;> simp [rateCol, ProdRxn.entry, emit, evalRates]

theorem eval_const (row : Option ℕ) (v : K) (c : ℕ → K) (n : ℕ) :
    evalRates (emit (rateConst row) v) c n = if row = some n then v else 0 := by
  cases row <;> simp [rateConst, emit, evalRates]

theorem eval_constIf (p : Bool) (a : ℕ) (v : K) (c : ℕ → K) (n : ℕ) :
    evalRates (emitIf p (some (a, none)) v) c n = if p = true ∧ a = n then v else 0 := by
  cases p <;> simp [emitIf, emit, evalRates]

end Const

open Const

namespace ProdRxn

variable {d : ℕ} {K : Type*} [Field K] (r : ProdRxn d K) (inS : ℕ → Bool)

/-- `n` is no degree of freedom of a participant outside the sub-network. -/
def OwnRow (n : ℕ) : Prop := ∀ q γ cl, r.rowId q γ = some n → r.id q = some cl → inS cl = true

theorem subRow_iff {n : ℕ} (hn : r.OwnRow inS n) (q : Slot) (γ : Option (Fin d)) :
    r.subRow inS q γ = some n ↔ r.rowId q γ = some n := by
  rcases h : r.id q with _ | cl
  · cases γ <;> simp [subRow, rowId, h]
  · constructor
    · intro e
      simp only [subRow, h, Option.bind_some] at e
      split at e
      · exact e
      · cases e
    · intro e
      simp [subRow, h, hn q γ cl e h, e]

theorem row_out {n : ℕ} (hn : r.OwnRow inS n) {q : Slot} {cl : ℕ} (h : r.id q = some cl)
    (ho : inS cl = false) (γ : Option (Fin d)) : r.rowId q γ ≠ some n := by
  intro e
  have := hn q γ cl e h
  rw [ho] at this
  cases this

theorem eqTerm_out {n : ℕ} (hn : r.OwnRow inS n) {q : Slot} {cl : ℕ} (h : r.id q = some cl)
    (ho : inS cl = false) (c : ℕ → K) (s : K) : r.eqTerm c q s n = 0 := by
  have h0 : r.id q ≠ some n := r.row_out inS hn h ho none
  simp [eqTerm, h0, fun k => r.row_out inS hn h ho (some k)]

theorem eqTerm_congr (q : Slot) (s : K) (n : ℕ) (c c' : ℕ → K)
    (h : ∀ q γ, r.fluxOf c q γ = r.fluxOf c' q γ) : r.eqTerm c q s n = r.eqTerm c' q s n := by
  simp only [eqTerm, h]

theorem eval_constMoment (row : Option ℕ) (col : Option (Fin d) → Option ℕ) (f : Option (Fin d) → K) (c : ℕ → K)
    (n : ℕ) : evalRates (constMoment row col f) c n =
      if row = some n then ∑ α, f α * (col α).elim 0 c else 0 := by
  simp only [constMoment, eval_append, eval_finRange, eval_col, Fintype.sum_option]
  split <;> simp

theorem eval_constZero {n : ℕ} (hn : r.OwnRow inS n) (x : Slot) (col : Option ℕ) (f : K) (c : ℕ → K) :
    evalRates (r.constZero inS x col f) c n =
      (if r.id x = some n then -(f * col.elim 0 c / r.vol x) else 0) +
      (if r.id .p1 = some n then f * col.elim 0 c / r.vol .p1 else 0) +
      (if r.id .p2 = some n then f * col.elim 0 c / r.vol .p2 else 0) := by
  have e : ∀ q, r.rowId q none = r.id q := fun _ => rfl
  simp only [constZero, eval_append, eval_col, r.subRow_iff inS hn, e]
  congr 1
  · congr 1
    · split <;> ring
    · split <;> ring
  · split <;> ring

/-- Both reactants are outside. -/
theorem eval_bothOut (hp : r.prod1 = none → r.prod2 = none) {n : ℕ} (hn : r.OwnRow inS n)
    (h1 : inS r.r1 = false) (h2 : inS r.r2 = false) (c c' : ℕ → K)
    (hA : ∀ α, r.uA c α = r.uA c' α) (hB : ∀ β, r.uB c β = r.uB c' β) :
    evalRates (r.constBothOut inS c) c' n = netOf (r.computeFlux c') n := by
  have hf : ∀ q γ, r.fluxOf c q γ = r.fluxOf c' q γ := fun q γ => by
    simp only [fluxOf_eq, hA, hB]
  rw [r.computeFlux_net hp, r.eqTerm_out inS hn (q := .r1) rfl h1,
    r.eqTerm_out inS hn (q := .r2) rfl h2]
  have hin : ∀ q cl, r.id q = some cl → (inS cl = true ∧ cl = n ↔ cl = n) := fun q cl h =>
    ⟨fun e => e.2, fun e => ⟨hn q none cl (by rw [rowId, h, e]) h, e⟩⟩
  simp only [constBothOut, eval_append, eval_finRange, eval_const, r.subRow_iff inS hn, eqTerm,
    Finset.sum_add_distrib, hf, one_mul]
  rcases e1 : r.prod1 with _ | a
  · simp [id, e1, hp e1, eval_nil]
  · rcases e2 : r.prod2 with _ | b
    · simp only [eval_constIf, hin .p1 a e1]
      simp [id, e1, e2]
      ring
    · simp only [eval_append, eval_constIf, hin .p1 a e1, hin .p2 b e2]
      simp [id, e1, e2]
      ring

/-- Euler: the flux is linear in the unknowns of the first reactant. -/
theorem fluxOf_A (c : ℕ → K) (q : Slot) (γ : Option (Fin d)) :
    r.fluxOf c q γ = ∑ α, r.pdA c q γ α * r.rate * r.uA c α := by
  simp only [fluxOf_eq, pdA_eq, Finset.mul_sum, Finset.sum_mul]
  exact Finset.sum_congr rfl fun α _ => Finset.sum_congr rfl fun β _ => by ring

theorem fluxOf_B (c : ℕ → K) (q : Slot) (γ : Option (Fin d)) :
    r.fluxOf c q γ = ∑ β, r.pdB c q γ β * r.rate * r.uB c β := by
  simp only [fluxOf_eq, pdB_eq, Finset.mul_sum, Finset.sum_mul]
  rw [Finset.sum_comm]
  exact Finset.sum_congr rfl fun α _ => Finset.sum_congr rfl fun β _ => by ring

/-- What one reactant inside the sub-network gives, for values `f0` of the order zero equations and `f` of the moment equations. -/
theorem eval_oneIn {n : ℕ} (hn : r.OwnRow inS n) (x : Slot) (hx : (r.id x).isSome) (col : Option (Fin d) → Option ℕ)
    (f0 : Option (Fin d) → K) (f : Slot → Fin d → Option (Fin d) → K) (c : ℕ → K)
    (h0 : r.fluxOf c .r1 none = ∑ α, f0 α * (col α).elim 0 c)
    (h1 : ∀ q k, r.fluxOf c q (some k) = ∑ α, f q k α * (col α).elim 0 c) :
    evalRates (r.constZero inS x (col none) (f0 none) ++
      ((List.finRange d).flatMap fun i => r.constZero inS x (col (some i)) (f0 (some i))) ++
      (List.finRange d).flatMap fun k =>
        constMoment (r.mom x k) col (fun α => -(f x k α / r.vol x)) ++
        constMoment (r.subRow inS .p1 (some k)) col (fun α => f .p1 k α / r.vol .p1) ++
        constMoment (r.subRow inS .p2 (some k)) col (fun α => f .p2 k α / r.vol .p2)) c n =
    r.eqTerm c x (-1) n + r.eqTerm c .p1 1 n + r.eqTerm c .p2 1 n := by
  have hm : ∀ k, r.mom x k = r.rowId x (some k) := fun k => by
    obtain ⟨cl, h⟩ := Option.isSome_iff_exists.mp hx
    simp [rowId, h]
  have s1 : ∀ q k (v : K), (∑ α, f q k α / v * (col α).elim 0 c) = r.fluxOf c q (some k) / v :=
    fun q k v => by
      rw [h1, Finset.sum_div]; exact Finset.sum_congr rfl fun _ _ => by ring
  have s2 : ∀ q k (v : K), (∑ α, -(f q k α / v) * (col α).elim 0 c) = -(r.fluxOf c q (some k) / v) :=
    fun q k v => by
      rw [← s1, ← Finset.sum_neg_distrib]; exact Finset.sum_congr rfl fun _ _ => by ring
  have z : ∀ (P : Prop) [Decidable P] (v : K), (∑ i : Fin d, if P then f0 (some i) * (col (some i)).elim 0 c / v else 0) =
      if P then (∑ i : Fin d, f0 (some i) * (col (some i)).elim 0 c) / v else 0 := fun P _ v => by
    split <;> simp [Finset.sum_div]
  have z' : ∀ (P : Prop) [Decidable P] (v : K), (∑ i : Fin d, if P then -(f0 (some i) * (col (some i)).elim 0 c / v) else 0) =
      if P then -((∑ i : Fin d, f0 (some i) * (col (some i)).elim 0 c) / v) else 0 := fun P _ v => by
    split <;> simp [Finset.sum_div]
  simp only [eval_append, eval_finRange, r.eval_constZero inS hn, eval_constMoment,
    r.subRow_iff inS hn, hm, s1, s2, Finset.sum_add_distrib, z, z', eqTerm, neg_one_mul, one_mul]
  rw [h0, Fintype.sum_option]
  split <;> split <;> split <;> ring

/-- The order zero moment columns of the second reactant are what they should be with at most one moment axis. -/
theorem constSecondMoment_eq (hd : d ≤ 1) (c : ℕ → K) (i : Fin d) :
    r.constSecondMoment c i = r.pdB c .r1 none (some i) * r.rate := by
  have : ∀ j : Fin d, j = i := fun j => Fin.ext (by omega)
  have e : ∀ j : Fin d, r.coefs (some i) (some j) .r1 none * r.cm c .r1 i =
      r.coefs (some j) (some i) .r1 none * r.cm c .r1 j := fun j => by rw [this j]
  simp only [constSecondMoment, pdB, e]

/-- **C19** (production). The rates computed on the full network at `c`, applied to the sub-network's concentrations `c'`, give to every row of the sub-network exactly the flux of the reaction,
provided the concentrations of the reactants outside are those of `c`. Missing: reactions with both reactants inside (`both_in_lost`), and the second reactant inside with moments along two axes or more
(`second_in_wrong`). -/
theorem constant_rates_partial (hp : r.prod1 = none → r.prod2 = none) {n : ℕ} (hn : r.OwnRow inS n)
    (hnot : ¬ (inS r.r1 = true ∧ inS r.r2 = true))
    (hB2 : inS r.r2 = true → d ≤ 1 ∨ ∀ i, r.mom .r2 i = none) (c c' : ℕ → K)
    (hA : inS r.r1 = false → ∀ α m, r.colA α = some m → c m = c' m)
    (hB : inS r.r2 = false → ∀ β m, r.colB β = some m → c m = c' m) :
    evalRates (r.computeConstantRates inS c) c' n = netOf (r.computeFlux c') n := by
  have uA' : inS r.r1 = false → ∀ α, r.uA c α = r.uA c' α := fun h α => by
    unfold uA; rcases e : r.colA α with _ | m
    · rfl
    · exact hA h α m e
  have uB' : inS r.r2 = false → ∀ β, r.uB c β = r.uB c' β := fun h β => by
    unfold uB; rcases e : r.colB β with _ | m
    · rfl
    · exact hB h β m e
  rcases h1 : inS r.r1 with _ | _ <;> rcases h2 : inS r.r2 with _ | _
  · rw [computeConstantRates, h1, h2]
    dsimp only
    split
    · exact r.eval_bothOut inS hp hn h1 h2 c c' (uA' h1) (uB' h2)
    · rename_i hps
      rw [eval_nil, r.computeFlux_net hp, r.eqTerm_out inS hn (q := .r1) rfl h1,
        r.eqTerm_out inS hn (q := .r2) rfl h2]
      have hq : ∀ q, (q = .p1 ∨ q = .p2) → r.eqTerm c' q 1 n = 0 := fun q hq => by
        rcases e : r.id q with _ | cl
        · simp [eqTerm, rowId, e]
        · refine r.eqTerm_out inS hn e ?_ c' 1
          rcases hq with rfl | rfl <;> simp only [id] at e <;>
            simp [productInSub, e] at hps
          · exact hps.1
          · exact hps.2
      rw [hq .p1 (.inl rfl), hq .p2 (.inr rfl)]; ring
  · rw [computeConstantRates, h1, h2]
    have hpd : ∀ q γ β, r.pdB c q γ β = r.pdB c' q γ β := fun q γ β => by
      simp only [pdB_eq, uA' h1]
    rw [r.computeFlux_net hp, r.eqTerm_out inS hn (q := .r1) rfl h1, zero_add]
    have := r.eval_oneIn inS hn .r2 rfl r.colB
      (fun β => match β with
        | none => r.pdB c .r1 none none * r.rate
        | some i => r.constSecondMoment c i)
      (fun q k β => r.pdB c q (some k) β * r.rate) c' ?_ ?_
    · exact this
    · rw [fluxOf_B, Fintype.sum_option, Fintype.sum_option]
      simp only [hpd]
      congr 1
      refine Finset.sum_congr rfl fun i _ => ?_
      rcases hB2 h2 with hd | hm
      · rw [r.constSecondMoment_eq hd, hpd]; rfl
      · simp [uB, colB, hm i]
    · intro q k
      rw [fluxOf_B]; simp only [hpd]; rfl
  · rw [computeConstantRates, h1, h2]
    have hpd : ∀ q γ α, r.pdA c q γ α = r.pdA c' q γ α := fun q γ α => by
      simp only [pdA_eq, uB' h2]
    rw [r.computeFlux_net hp, r.eqTerm_out inS hn (q := .r2) rfl h2, add_zero]
    refine r.eval_oneIn inS hn .r1 rfl r.colA (fun α => r.pdA c .r1 none α * r.rate)
      (fun q k α => r.pdA c q (some k) α * r.rate) c' ?_ ?_
    · rw [fluxOf_A]; simp only [hpd]; rfl
    · intro q k
      rw [fluxOf_A]; simp only [hpd]; rfl
  · exact absurd ⟨h1, h2⟩ hnot


/-! ### Positions -/

/-- The positions a production reaction may use: rows of its participants inside the sub-network; the constant column when both reactants are outside, the columns of the reactant that is
inside otherwise. -/
def ConstPos (p : ℕ × Option ℕ) : Prop :=
  (inS r.r1 = false ∧ inS r.r2 = false ∧ p.2 = none ∧
    ∃ q γ, (q = .p1 ∨ q = .p2) ∧ r.subRow inS q γ = some p.1) ∨
  (inS r.r1 = true ∧ inS r.r2 = false ∧
    ∃ q γ, (q = .r1 ∨ q = .p1 ∨ q = .p2) ∧ r.subRow inS q γ = some p.1 ∧
      ∃ α b, r.colA α = some b ∧ p.2 = some b) ∨
  (inS r.r1 = false ∧ inS r.r2 = true ∧
    ∃ q γ, (q = .r2 ∨ q = .p1 ∨ q = .p2) ∧ r.subRow inS q γ = some p.1 ∧
      ∃ β b, r.colB β = some b ∧ p.2 = some b)

theorem rateCol_eq (row col : Option ℕ) (p : ℕ × Option ℕ) :
    rateCol row col = some p ↔ row = some p.1 ∧ ∃ b, col = some b ∧ p.2 = some b := by
  obtain ⟨a, x⟩ := p
  cases row <;> cases col <;> simp [rateCol, entry, eq_comm]

theorem rateConst_eq (row : Option ℕ) (p : ℕ × Option ℕ) :
    rateConst row = some p ↔ row = some p.1 ∧ p.2 = none := by
  obtain ⟨a, x⟩ := p
  cases row <;> simp [rateConst, eq_comm]

theorem mem_marks (row : Option ℕ) (col : Option (Fin d) → Option ℕ) (p : ℕ × Option ℕ) :
    p ∈ marks row col ↔ row = some p.1 ∧ ∃ α b, col α = some b ∧ p.2 = some b := by
  simp only [marks, List.mem_append, Option.mem_toList, List.mem_flatMap,
    List.mem_finRange, true_and, rateCol_eq]
  constructor
  · rintro (⟨h, b, h1, h2⟩ | ⟨i, h, b, h1, h2⟩)
    · exact ⟨h, none, b, h1, h2⟩
    · exact ⟨h, some i, b, h1, h2⟩
  · rintro ⟨h, _ | i, b, h1, h2⟩
    · exact .inl ⟨h, b, h1, h2⟩
    · exact .inr ⟨i, h, b, h1, h2⟩

theorem subRow_in {q : Slot} {cl : ℕ} (h : r.id q = some cl) (hi : inS cl = true) (γ : Option (Fin d)) :
    r.subRow inS q γ = r.rowId q γ := by
  simp [subRow, h, hi]

theorem mem_marksIn {x : Slot} {cl : ℕ} (h : r.id x = some cl) (hi : inS cl = true)
    (col : Option (Fin d) → Option ℕ) (p : ℕ × Option ℕ) :
    p ∈ r.marksIn inS x col ↔ ∃ q γ, (q = x ∨ q = .p1 ∨ q = .p2) ∧ r.subRow inS q γ = some p.1 ∧
      ∃ α b, col α = some b ∧ p.2 = some b := by
  have e0 : r.id x = r.subRow inS x none := by rw [r.subRow_in inS h hi]; rfl
  have e1 : ∀ k, r.mom x k = r.subRow inS x (some k) := fun k => by
    rw [r.subRow_in inS h hi]; simp [rowId, h]
  simp only [marksIn, List.mem_append, List.mem_flatMap, List.mem_finRange, true_and, mem_marks, e0, e1]
  constructor
  · rintro (((⟨a, b⟩ | ⟨a, b⟩) | ⟨a, b⟩) | ⟨k, (⟨a, b⟩ | ⟨a, b⟩) | ⟨a, b⟩⟩)
    · exact ⟨x, none, .inl rfl, a, b⟩
    · exact ⟨.p1, none, .inr (.inl rfl), a, b⟩
    · exact ⟨.p2, none, .inr (.inr rfl), a, b⟩
    · exact ⟨x, some k, .inl rfl, a, b⟩
    · exact ⟨.p1, some k, .inr (.inl rfl), a, b⟩
    · exact ⟨.p2, some k, .inr (.inr rfl), a, b⟩
  · rintro ⟨q, _ | k, rfl | rfl | rfl, a, b⟩
    · exact .inl (.inl (.inl ⟨a, b⟩))
    · exact .inl (.inl (.inr ⟨a, b⟩))
    · exact .inl (.inr ⟨a, b⟩)
    · exact .inr ⟨k, .inl (.inl ⟨a, b⟩)⟩
    · exact .inr ⟨k, .inl (.inr ⟨a, b⟩)⟩
    · exact .inr ⟨k, .inr ⟨a, b⟩⟩

/-- **C19**. The constant connectivities of a production reaction are exactly the positions it may use. -/
theorem constant_connectivities (p : ℕ × Option ℕ) :
    p ∈ r.constConnectivities inS ↔ r.ConstPos inS p := by
  unfold ConstPos
  rcases h1 : inS r.r1 with _ | _ <;> rcases h2 : inS r.r2 with _ | _
  · simp only [constConnectivities, h1, h2, List.mem_append, Option.mem_toList,
      List.mem_flatMap, List.mem_finRange, true_and, rateConst_eq]
    constructor
    · rintro ((⟨a, b⟩ | ⟨a, b⟩) | ⟨k, ⟨a, b⟩ | ⟨a, b⟩⟩)
      · exact .inl ⟨b, .p1, none, .inl rfl, a⟩
      · exact .inl ⟨b, .p2, none, .inr rfl, a⟩
      · exact .inl ⟨b, .p1, some k, .inl rfl, a⟩
      · exact .inl ⟨b, .p2, some k, .inr rfl, a⟩
    · rintro (⟨b, q, _ | k, rfl | rfl, a⟩ | h | h)
      · exact .inl (.inl ⟨a, b⟩)
      · exact .inl (.inr ⟨a, b⟩)
      · exact .inr ⟨k, .inl ⟨a, b⟩⟩
      · exact .inr ⟨k, .inr ⟨a, b⟩⟩
      · simp at h
      · simp at h
  · simp only [constConnectivities, h1, h2, r.mem_marksIn inS (x := .r2) rfl h2]
    simp
  · simp only [constConnectivities, h1, h2, r.mem_marksIn inS (x := .r1) rfl h1]
    simp
  · simp [constConnectivities, h1, h2]

theorem mem_constMoment (row : Option ℕ) (col : Option (Fin d) → Option ℕ) (f : Option (Fin d) → K)
    (u : (ℕ × Option ℕ) × K) (h : u ∈ constMoment row col f) :
    row = some u.1.1 ∧ ∃ α b, col α = some b ∧ u.1.2 = some b := by
  simp only [constMoment, List.mem_append, List.mem_flatMap, List.mem_finRange, true_and] at h
  rcases h with h | ⟨i, h⟩
  · obtain ⟨a, b, c⟩ := (rateCol_eq _ _ _).mp (mem_emit h); exact ⟨a, none, b, c⟩
  · obtain ⟨a, b, c⟩ := (rateCol_eq _ _ _).mp (mem_emit h); exact ⟨a, some i, b, c⟩

theorem mem_constZero {x : Slot} {cl : ℕ} (h : r.id x = some cl) (hi : inS cl = true)
    (col : Option ℕ) (f : K) (u : (ℕ × Option ℕ) × K) (hu : u ∈ r.constZero inS x col f) :
    ∃ q γ, (q = x ∨ q = .p1 ∨ q = .p2) ∧ r.subRow inS q γ = some u.1.1 ∧
      ∃ b, col = some b ∧ u.1.2 = some b := by
  have e0 : r.id x = r.subRow inS x none := by rw [r.subRow_in inS h hi]; rfl
  simp only [constZero, List.mem_append, e0] at hu
  rcases hu with (hu | hu) | hu <;> obtain ⟨a, b⟩ := (rateCol_eq _ _ _).mp (mem_emit hu)
  · exact ⟨x, none, .inl rfl, a, b⟩
  · exact ⟨.p1, none, .inr (.inl rfl), a, b⟩
  · exact ⟨.p2, none, .inr (.inr rfl), a, b⟩

theorem mem_oneIn {x : Slot} {cl : ℕ} (h : r.id x = some cl) (hi : inS cl = true)
    (col : Option (Fin d) → Option ℕ) (f0 : K) (f1 : Fin d → K) (fx fp fq : Fin d → Option (Fin d) → K)
    (u : (ℕ × Option ℕ) × K)
    (hu : u ∈ r.constZero inS x (col none) f0 ++
      ((List.finRange d).flatMap fun i => r.constZero inS x (col (some i)) (f1 i)) ++
      (List.finRange d).flatMap fun k =>
        constMoment (r.mom x k) col (fx k) ++
        constMoment (r.subRow inS .p1 (some k)) col (fp k) ++
        constMoment (r.subRow inS .p2 (some k)) col (fq k)) :
    ∃ q γ, (q = x ∨ q = .p1 ∨ q = .p2) ∧ r.subRow inS q γ = some u.1.1 ∧
      ∃ α b, col α = some b ∧ u.1.2 = some b := by
  have e1 : ∀ k, r.mom x k = r.subRow inS x (some k) := fun k => by
    rw [r.subRow_in inS h hi]; simp [rowId, h]
  simp only [List.mem_append, List.mem_flatMap, List.mem_finRange, true_and, e1] at hu
  rcases hu with (hu | ⟨i, hu⟩) | ⟨k, (hu | hu) | hu⟩
  · obtain ⟨q, γ, hq, a, b⟩ := r.mem_constZero inS h hi _ _ _ hu; exact ⟨q, γ, hq, a, none, b⟩
  · obtain ⟨q, γ, hq, a, b⟩ := r.mem_constZero inS h hi _ _ _ hu; exact ⟨q, γ, hq, a, some i, b⟩
  · obtain ⟨a, b⟩ := mem_constMoment _ _ _ _ hu; exact ⟨x, some k, .inl rfl, a, b⟩
  · obtain ⟨a, b⟩ := mem_constMoment _ _ _ _ hu; exact ⟨.p1, some k, .inr (.inl rfl), a, b⟩
  · obtain ⟨a, b⟩ := mem_constMoment _ _ _ _ hu; exact ⟨.p2, some k, .inr (.inr rfl), a, b⟩

/-- **C19**. Every entry a production reaction updates is among its constant connectivities, so its position is found. -/
theorem constant_rates_covered (c : ℕ → K) (u : (ℕ × Option ℕ) × K)
    (hu : u ∈ r.computeConstantRates inS c) : u.1 ∈ r.constConnectivities inS := by
  rw [constant_connectivities]
  unfold ConstPos
  rcases h1 : inS r.r1 with _ | _ <;> rcases h2 : inS r.r2 with _ | _ <;>
    simp only [computeConstantRates, h1, h2] at hu
  · left
    refine ⟨rfl, rfl, ?_⟩
    split at hu
    · simp only [constBothOut, List.mem_append, List.mem_flatMap, List.mem_finRange, true_and] at hu
      rcases hu with hu | ⟨k, hu | hu⟩
      · have key : ∀ q a (v : K), r.id q = some a → u ∈ emitIf (inS a) (some (a, none)) v →
            u.1.2 = none ∧ r.subRow inS q none = some u.1.1 := fun q a v h hm => by
          unfold emitIf at hm
          split at hm
          · rename_i hi
            have := mem_emit hm
            simp only [Option.some.injEq] at this
            rw [← this, r.subRow_in inS h hi]
            exact ⟨rfl, h⟩
          · cases hm
        rcases e1 : r.prod1 with _ | a <;> rcases e2 : r.prod2 with _ | b <;> simp only [e1, e2] at hu
        · cases hu
        · obtain ⟨x, y⟩ := key .p2 b _ e2 hu; exact ⟨x, .p2, none, .inr rfl, y⟩
        · obtain ⟨x, y⟩ := key .p1 a _ e1 hu; exact ⟨x, .p1, none, .inl rfl, y⟩
        · rcases List.mem_append.mp hu with hu | hu
          · obtain ⟨x, y⟩ := key .p1 a _ e1 hu; exact ⟨x, .p1, none, .inl rfl, y⟩
          · obtain ⟨x, y⟩ := key .p2 b _ e2 hu; exact ⟨x, .p2, none, .inr rfl, y⟩
      · obtain ⟨a, b⟩ := (rateConst_eq _ _).mp (mem_emit hu)
        exact ⟨b, .p1, some k, .inl rfl, a⟩
      · obtain ⟨a, b⟩ := (rateConst_eq _ _).mp (mem_emit hu)
        exact ⟨b, .p2, some k, .inr rfl, a⟩
    · cases hu
  · right; right
    exact ⟨rfl, rfl, r.mem_oneIn inS (x := .r2) rfl h2 _ _ _ _ _ _ u hu⟩
  · right; left
    exact ⟨rfl, rfl, r.mem_oneIn inS (x := .r1) rfl h1 _ _ _ _ _ _ u hu⟩
  · cases hu

end ProdRxn

namespace DissRxn

variable {d : ℕ} {K : Type*} [Field K] (r : DissRxn d K) (inS : ℕ → Bool)

/-- `n` is no degree of freedom of a participant outside the sub-network. -/
def OwnRow (n : ℕ) : Prop := ∀ q γ, r.dofOf q γ = some n → inS (r.id q) = true

theorem subRow_iff {n : ℕ} (hn : r.OwnRow inS n) (q : DSlot) (γ : Option (Fin d)) :
    r.subRow inS q γ = some n ↔ r.dofOf q γ = some n := by
  unfold subRow
  by_cases h : inS (r.id q) = true
  · rw [if_pos h]
  · rw [if_neg h]
    exact ⟨fun e => (nomatch e), fun e => absurd (hn q γ e) h⟩

theorem eval_row (row : Option ℕ) (q : DSlot) (γ : Option (Fin d)) (s v : K) (c : ℕ → K) (n : ℕ) :
    evalRates (emit (rateCol row (r.dofOf .r none)) (s * (r.coefs none q γ * r.rate / v))) c n +
      ∑ i, evalRates (emit (rateCol row (r.mom .r i)) (s * (r.coefs (some i) q γ * r.rate / v))) c n =
    if row = some n then s * (r.fluxOf c q γ / v) else 0 := by
  simp only [eval_col]
  by_cases h : row = some n
  · simp only [h, if_true, diss_fluxOf_eq, Fintype.sum_option, u, mul_add, add_div, Finset.mul_sum, Finset.sum_div]
    congr 1
    · ring
    · exact Finset.sum_congr rfl fun i _ => by simp only [dofOf]; ring
  · simp [h]

theorem eqTerm_out {n : ℕ} (hn : r.OwnRow inS n) {q : DSlot} (ho : inS (r.id q) = false) (c : ℕ → K) (s : K) :
    r.eqTerm c q s n = 0 := by
  have : ∀ γ, r.dofOf q γ ≠ some n := fun γ e => by
    have := hn q γ e; rw [ho] at this; cases this
  simp [eqTerm, this]

/-- **C19** (dissociation and re-solution). As for production. Missing: reactant and first product inside, both with first moments (`diss_moment_wrong`). -/
theorem constant_rates_partial {n : ℕ} (hn : r.OwnRow inS n) (unset : ℕ × Option ℕ)
    (hnot : r.allIn inS = false)
    (hB4 : inS (r.id .r) = true → inS (r.id .p1) = true →
      (∀ k, r.mom .p1 k = none) ∨ ∀ i, r.mom .r i = none)
    (c c' : ℕ → K) (hR : inS (r.id .r) = false → ∀ α m, r.dofOf .r α = some m → c m = c' m) :
    evalRates (r.computeConstantRates inS unset c) c' n = netOf (r.computeFlux c') n := by
  rw [diss_computeFlux_net, computeConstantRates, hnot]
  simp only [Bool.false_eq_true, if_false]
  rcases hr : inS (r.id .r) with _ | _
  · rw [r.eqTerm_out inS hn hr]
    have hf : ∀ q γ, r.fluxOf c q γ = r.fluxOf c' q γ := fun q γ => by
      rw [diss_fluxOf_eq, diss_fluxOf_eq]
      have : ∀ α, r.u c α = r.u c' α := fun α => by
        unfold u; rcases e : r.dofOf .r α with _ | m
        · rfl
        · exact hR hr α m e
      simp only [this]
    by_cases h : inS (r.id .p1) = false ∧ inS (r.id .p2) = false
    · rw [r.eqTerm_out inS hn h.1, r.eqTerm_out inS hn h.2]
      simp [h.1, h.2, eval_nil]
    · have : (!inS (r.id .p1) && !inS (r.id .p2)) = false := by
        revert h; cases inS (r.id .p1) <;> cases inS (r.id .p2) <;> simp
      simp only [Bool.not_false, Bool.true_and, this, Bool.false_eq_true, if_false]
      simp only [constOut, eval_append, eval_finRange, eval_const, r.subRow_iff inS hn, eqTerm, hf,
        Fintype.sum_option, Finset.sum_add_distrib, cslot, if_true, reduceCtorEq, if_false, one_mul]
      ring
  · simp only [Bool.not_true, Bool.false_and, Bool.false_eq_true, if_false, if_true]
    have hB : ∀ k i v, evalRates (emitIf ((r.subRow inS .p1 (some k)).isSome && (r.mom .r i).isSome)
          (some ((rateCol (r.mom .r k) (r.mom .r i)).getD unset)) v) c' n =
        evalRates (emit (rateCol (r.subRow inS .p1 (some k)) (r.mom .r i)) v) c' n := fun k i v => by
      by_cases hp : inS (r.id .p1) = true
      · rcases hB4 hr hp with h | h
        · simp [subRow, hp, dofOf, h k, emitIf, rateCol, ProdRxn.entry, emit]
        · simp [h i, emitIf, rateCol, ProdRxn.entry, emit]
      · simp [subRow, hp, emitIf, rateCol, ProdRxn.entry, emit]
    have e1 := fun row q γ (v : K) => r.eval_row row q γ 1 v c' n
    have e2 := fun row q γ (v : K) => r.eval_row row q γ (-1) v c' n
    simp only [one_mul, neg_one_mul] at e1 e2
    have em : ∀ i, r.dofOf .r (some i) = r.mom .r i := fun _ => rfl
    have es : ∀ {q γ}, (r.subRow inS q γ = some n) = (r.dofOf q γ = some n) := fun {q γ} =>
      propext (r.subRow_iff inS hn q γ)
    simp only [constIn, constZero, eval_append, eval_finRange, hB, e1, e2, em]
    simp only [Finset.sum_add_distrib]
    have z0 := e2 (r.dofOf .r none) .r none (r.vol .r)
    have z1 := e1 (r.subRow inS .p1 none) .r none (r.vol .p1)
    have z2 := e1 (r.subRow inS .p2 none) .r none (r.vol .p2)
    simp only [eqTerm, Fintype.sum_option, cslot, if_true, reduceCtorEq, if_false, one_mul, neg_one_mul, em]
    simp only [es] at z1 z2 ⊢
    rw [← z0, ← z1, ← z2]
    simp only [dofOf]
    ring

/-- The positions a dissociation may use. -/
def ConstPos (p : ℕ × Option ℕ) : Prop :=
  r.allIn inS = false ∧
  ((inS (r.id .r) = false ∧ p.2 = none ∧ ∃ q γ, r.subRow inS q γ = some p.1) ∨
   (inS (r.id .r) = true ∧ (∃ q γ, r.subRow inS q γ = some p.1) ∧
     ∃ α b, r.dofOf .r α = some b ∧ p.2 = some b))

/-- **C19**. The constant connectivities of a dissociation are exactly the positions it may use. -/
theorem constant_connectivities (p : ℕ × Option ℕ) :
    p ∈ r.constConnectivities inS ↔ r.ConstPos inS p := by
  unfold ConstPos constConnectivities
  rcases ha : r.allIn inS with _ | _
  swap
  · simp
  rcases hr : inS (r.id .r) with _ | _
  · have hn : ∀ γ, r.subRow inS .r γ = none := fun γ => by simp [subRow, hr]
    simp only [Bool.false_eq_true, if_false, List.mem_append, Option.mem_toList,
      List.mem_flatMap, List.mem_finRange, true_and, ProdRxn.rateConst_eq]
    constructor
    · rintro ((⟨a, b⟩ | ⟨a, b⟩) | ⟨k, ⟨a, b⟩ | ⟨a, b⟩⟩)
      · exact .inl ⟨b, .p1, none, a⟩
      · exact .inl ⟨b, .p2, none, a⟩
      · exact .inl ⟨b, .p1, some k, a⟩
      · exact .inl ⟨b, .p2, some k, a⟩
    · rintro (⟨b, q, γ, a⟩ | h)
      · rcases q with _ | _ | _
        · rw [hn] at a; cases a
        · rcases γ with _ | k
          · exact .inl (.inl ⟨a, b⟩)
          · exact .inr ⟨k, .inl ⟨a, b⟩⟩
        · rcases γ with _ | k
          · exact .inl (.inr ⟨a, b⟩)
          · exact .inr ⟨k, .inr ⟨a, b⟩⟩
      · exact h.1.elim
  · have e : ∀ γ, r.subRow inS .r γ = r.dofOf .r γ := fun γ => by simp [subRow, hr]
    have em : ∀ k, r.mom .r k = r.dofOf .r (some k) := fun _ => rfl
    simp only [Bool.false_eq_true, if_false, if_true, List.mem_append, List.mem_flatMap, List.mem_finRange,
      true_and, ProdRxn.mem_marks, em, ← e]
    constructor
    · rintro (((⟨a, b⟩ | ⟨a, b⟩) | ⟨a, b⟩) | ⟨k, (⟨a, b⟩ | ⟨a, b⟩) | ⟨a, b⟩⟩)
      · exact .inr ⟨⟨_, _, a⟩, b⟩
      · exact .inr ⟨⟨_, _, a⟩, b⟩
      · exact .inr ⟨⟨_, _, a⟩, b⟩
      · exact .inr ⟨⟨_, _, a⟩, b⟩
      · exact .inr ⟨⟨_, _, a⟩, b⟩
      · exact .inr ⟨⟨_, _, a⟩, b⟩
    · rintro (h | ⟨⟨q, γ, a⟩, b⟩)
      · exact absurd h.1 (by simp)
      · rcases q with _ | _ | _ <;> rcases γ with _ | k
        · exact .inl (.inl (.inl ⟨a, b⟩))
        · exact .inr ⟨k, .inl (.inl ⟨a, b⟩)⟩
        · exact .inl (.inl (.inr ⟨a, b⟩))
        · exact .inr ⟨k, .inl (.inr ⟨a, b⟩)⟩
        · exact .inl (.inr ⟨a, b⟩)
        · exact .inr ⟨k, .inr ⟨a, b⟩⟩

theorem mem_emitCol {row col : Option ℕ} {v : K} {u : (ℕ × Option ℕ) × K} (h : u ∈ emit (rateCol row col) v) :
    row = some u.1.1 ∧ ∃ b, col = some b ∧ u.1.2 = some b :=
  (ProdRxn.rateCol_eq _ _ _).mp (ProdRxn.mem_emit h)

/-- **C19**. Every entry a dissociation updates is among its constant connectivities, unless the entry of the first product's moments is written through the reactant's entry. -/
theorem constant_rates_covered_partial (unset : ℕ × Option ℕ)
    (hB4 : inS (r.id .r) = true → inS (r.id .p1) = true →
      (∀ k, r.mom .p1 k = none) ∨ ∀ i, r.mom .r i = none)
    (c : ℕ → K) (u : (ℕ × Option ℕ) × K)
    (hu : u ∈ r.computeConstantRates inS unset c) : u.1 ∈ r.constConnectivities inS := by
  rw [constant_connectivities]
  unfold ConstPos
  unfold computeConstantRates at hu
  split at hu
  · cases hu
  rename_i ha
  refine ⟨by simpa using ha, ?_⟩
  split at hu
  · cases hu
  split at hu
  · rename_i hr
    right
    have e : ∀ γ, r.dofOf .r γ = r.subRow inS .r γ := fun γ => by simp [subRow, hr]
    have em : ∀ k, r.mom .r k = r.dofOf .r (some k) := fun _ => rfl
    refine ⟨hr, ?_⟩
    have key : ∀ q γ α (v : K), u ∈ emit (rateCol (r.subRow inS q γ) (r.dofOf .r α)) v →
        (∃ q γ, r.subRow inS q γ = some u.1.1) ∧ ∃ α b, r.dofOf .r α = some b ∧ u.1.2 = some b :=
      fun q γ α v h => by
        obtain ⟨a, b⟩ := mem_emitCol h
        exact ⟨⟨q, γ, a⟩, α, b⟩
    simp only [constIn, constZero, List.mem_append, List.mem_flatMap, List.mem_finRange, true_and] at hu
    rcases hu with (((hu | hu) | hu) | ⟨i, (hu | hu) | hu⟩) |
      ⟨k, ((hu | ⟨i, hu⟩) | hu | ⟨i, hu⟩) | hu | ⟨i, hu⟩⟩
    · exact key .r none none _ (by rw [← e]; exact hu)
    · exact key _ _ _ _ hu
    · exact key _ _ _ _ hu
    · exact key .r none (some i) _ (by rw [← e]; exact hu)
    · exact key _ _ _ _ hu
    · exact key _ _ _ _ hu
    · exact key .r (some k) none _ (by rw [← e]; exact hu)
    · exact key .r (some k) (some i) _ (by rw [← e]; exact hu)
    · exact key _ _ _ _ hu
    · exfalso
      by_cases hp : inS (r.id .p1) = true
      · rcases hB4 hr hp with h | h
        · simp [subRow, hp, dofOf, h k, emitIf] at hu
        · simp [h i, emitIf] at hu
      · simp [subRow, hp, emitIf] at hu
    · exact key _ _ _ _ hu
    · exact key .p2 (some k) (some i) _ hu
  · rename_i hr
    left
    refine ⟨by simpa using hr, ?_⟩
    have key : ∀ q γ (v : K), u ∈ emit (rateConst (r.subRow inS q γ)) v →
        u.1.2 = none ∧ ∃ q γ, r.subRow inS q γ = some u.1.1 := fun q γ v h => by
      obtain ⟨a, b⟩ := (ProdRxn.rateConst_eq _ _).mp (ProdRxn.mem_emit h)
      exact ⟨b, q, γ, a⟩
    simp only [constOut, List.mem_append, List.mem_flatMap, List.mem_finRange, true_and] at hu
    rcases hu with (hu | hu) | ⟨k, hu | hu⟩ <;> exact key _ _ _ hu

end DissRxn

/-! ### The constant reactions of the sub-network -/

namespace Const

variable {d : ℕ} {K : Type*} [Field K]

/-- Degrees of freedom of a cluster. -/
def dof (mom : ℕ → Fin d → Option ℕ) (a : ℕ) : Option (Fin d) → Option ℕ
  | none => some a
  | some k => mom a k

/-- Different clusters or orders have different degrees of freedom, for the clusters `0, …, N - 1`. -/
def Distinct (N : ℕ) (mom : ℕ → Fin d → Option ℕ) : Prop :=
  ∀ a b α β m, a < N → b < N → dof mom a α = some m → dof mom b β = some m → a = b ∧ α = β

theorem net_colTerm (R : ℕ × Option ℕ → K) (c : ℕ → K) (row col : Option ℕ) (n : ℕ) :
    netOf (ConstRxn.colTerm R c row col) n =
      if row = some n then col.elim 0 fun m => c m * R (n, some m) else 0 := by
  cases col with
  | none => simp [ConstRxn.colTerm, netOf_nil]
  | some m =>
    simp only [ConstRxn.colTerm, netOf_emit]
    by_cases e : row = some n
    · rw [if_pos e, if_pos e, e]; rfl
    · rw [if_neg e, if_neg e]

/-- What a constant reaction gives to `n`. -/
theorem constRxn_flux (r : ConstRxn d) (R : ℕ × Option ℕ → K) (c : ℕ → K) (n : ℕ) :
    netOf (r.computeFlux R c) n =
      ∑ α, if r.row α = some n then
        (match r.r2 with
          | none => R (n, none)
          | some _ => ∑ β, (r.col β).elim 0 fun m => c m * R (n, some m)) else 0 := by
  rcases h : r.r2 with _ | b
  · have e : ∀ α, netOf (emit (r.row α) (ConstRxn.rateAt R (rateConst (r.row α)))) n =
        if r.row α = some n then R (n, none) else 0 := fun α => by
      rw [netOf_emit]
      by_cases e : r.row α = some n
      · rw [if_pos e, if_pos e, e]; rfl
      · rw [if_neg e, if_neg e]
    simp only [ConstRxn.computeFlux, h, netOf_append, netOf_finRange, e, Fintype.sum_option]
  · simp only [ConstRxn.computeFlux, h, netOf_append, netOf_finRange, net_colTerm, Fintype.sum_option,
      Finset.sum_add_distrib]
    have ei : ∀ (P : Prop) [Decidable P] (f : Fin d → K),
        (∑ i, if P then f i else 0) = if P then ∑ i, f i else 0 := fun P _ f => by
      split <;> simp
    have ia : ∀ (P : Prop) [Decidable P] (x y : K), (if P then x + y else 0) = (if P then x else 0) + if P then y else 0 :=
      fun P _ x y => by split <;> simp
    simp only [ei, ia, Finset.sum_add_distrib]
    ring

theorem sum_flatMap_range {α : Type*} (N : ℕ) (f : ℕ → List α) (g : α → K) :
    (((List.range N).flatMap f).map g).sum = ∑ i ∈ Finset.range N, ((f i).map g).sum := by
  rw [Finset.sum_range, Fin.sum_univ_def]
  rw [show (List.range N) = (List.finRange N).map Fin.val by simp, List.flatMap_map]
  induction List.finRange N with
  | nil => rfl
  | cons a l ih => simp [List.flatMap_cons, ih]

/-- Every marked pair of clusters, and every marked constant column, has exactly one constant reaction. -/
theorem constantReactions_sum (N : ℕ) (mom : ℕ → Fin d → Option ℕ) (conns : ℕ × Option ℕ → Bool) (g : ConstRxn d → K) :
    ((constantReactions N mom conns).map g).sum =
      ∑ i ∈ Finset.range N, ((if conns (i, none) then g ⟨i, none, mom i, fun _ => none⟩ else 0) +
        ∑ j ∈ Finset.range N, if conns (i, some j) then g ⟨i, some j, mom i, mom j⟩ else 0) := by
  let f : ℕ → ℕ → K := fun i j => if conns (i, some j) then g ⟨i, some j, mom i, mom j⟩ else 0
  let h : ℕ → K := fun i => if conns (i, none) then g ⟨i, none, mom i, fun _ => none⟩ else 0
  have e : ∀ i j, ((if i ≤ j then
      (if i = j ∧ conns (i, none) then [(⟨i, none, mom i, fun _ => none⟩ : ConstRxn d)] else []) ++
      (if conns (i, some j) then [⟨i, some j, mom i, mom j⟩] else []) ++
      (if j ≠ i ∧ conns (j, some i) then [⟨j, some i, mom j, mom i⟩] else [])
      else []).map g).sum = (if j = i then h i else 0) + (if i ≤ j then f i j else 0) +
        (if i < j then f j i else 0) := fun i j => by
    rcases lt_trichotomy i j with hij | rfl | hij
    · have h1 : ¬ i = j := by omega
      have h2 : ¬ j = i := by omega
      simp only [hij.le, hij, h1, h2, if_true, if_false, false_and, ne_eq, not_false_eq_true, true_and, f]
      split <;> split <;> simp
    · simp only [le_refl, lt_irrefl, if_true, if_false, true_and, ne_eq, not_true_eq_false, false_and, f, h]
      split <;> split <;> simp
    · have h1 : ¬ i ≤ j := by omega
      have h2 : ¬ i < j := by omega
      have h3 : ¬ j = i := by omega
      simp [h1, h2, h3]
  unfold constantReactions
  rw [sum_flatMap_range]
  simp only [sum_flatMap_range, e, Finset.sum_add_distrib]
  have c1 : (∑ i ∈ Finset.range N, ∑ j ∈ Finset.range N, if j = i then h i else 0) =
      ∑ i ∈ Finset.range N, h i :=
    Finset.sum_congr rfl fun i hi => by
      rw [Finset.sum_ite_eq']; simp [Finset.mem_range.mp hi]
  have c2 : (∑ i ∈ Finset.range N, ∑ j ∈ Finset.range N, if i < j then f j i else 0) =
      ∑ i ∈ Finset.range N, ∑ j ∈ Finset.range N, if j < i then f i j else 0 := Finset.sum_comm
  rw [c1, c2, add_assoc, ← Finset.sum_add_distrib]
  congr 1
  refine Finset.sum_congr rfl fun i _ => ?_
  rw [← Finset.sum_add_distrib]
  refine Finset.sum_congr rfl fun j _ => ?_
  by_cases hij : i ≤ j
  · have : ¬ j < i := by omega
    simp [hij, this, f]
  · have : j < i := by omega
    simp [hij, this, f]

/-- **C19**. The constant reactions of a sub-network, given the rate array `R = netOf L`, produce exactly what the entries of `L` stand for. -/
theorem constant_reactions_flux (N : ℕ) (mom : ℕ → Fin d → Option ℕ) (hd : Distinct N mom) (conns : ℕ × Option ℕ → Bool)
    (L : List ((ℕ × Option ℕ) × K)) {a : ℕ} {α : Option (Fin d)} {n : ℕ} (ha : a < N) (hn : dof mom a α = some n)
    (hnone : ∀ u ∈ L, u.1.1 = n → u.1.2 = none → conns (a, none) = true)
    (hsome : ∀ u ∈ L, u.1.1 = n → ∀ m, u.1.2 = some m →
      ∃ b β, b < N ∧ dof mom b β = some m ∧ conns (a, some b) = true) (c : ℕ → K) :
    ((constantReactions N mom conns).map fun r => netOf (r.computeFlux (netOf L) c) n).sum =
      evalRates L c n := by
  rw [constantReactions_sum]
  have rowOf : ∀ i β x y, (⟨i, x, mom i, y⟩ : ConstRxn d).row β = dof mom i β := fun i β x y => by
    cases β <;> rfl
  have colOf : ∀ i j β, (⟨i, some j, mom i, mom j⟩ : ConstRxn d).col β = dof mom j β := fun i j β => by
    cases β <;> rfl
  have hrow : ∀ i (v : K), i < N → (∑ β, if dof mom i β = some n then v else 0) = if i = a then v else 0 := fun i v hi => by
    by_cases h : i = a
    · subst h
      rw [Finset.sum_eq_single α]
      · simp [hn]
      · intro β _ hβ
        rw [if_neg fun e => hβ (hd _ _ _ _ _ hi ha e hn).2]
      · intro h; exact absurd (Finset.mem_univ _) h
    · rw [if_neg h]
      exact Finset.sum_eq_zero fun β _ => if_neg fun e => h (hd _ _ _ _ _ hi ha e hn).1
  simp only [constRxn_flux, rowOf, colOf]
  rw [Finset.sum_eq_single a]
  rotate_left
  · intro i hiN hi
    simp [hi, hrow _ _ (Finset.mem_range.mp hiN)]
  · intro h; exact absurd (Finset.mem_range.mpr ha) h
  simp only [hrow _ _ ha, if_true]
  induction L with
  | nil =>
    have : ∀ p, netOf ([] : List ((ℕ × Option ℕ) × K)) p = 0 := fun _ => rfl
    simp only [this, mul_zero, eval_nil, ite_self]
    have : ∀ o : Option ℕ, o.elim (0 : K) (fun _ => 0) = 0 := fun o => by cases o <;> rfl
    simp [this]
  | cons u L ih =>
    have ih := ih (fun w hw => hnone w (List.mem_cons_of_mem _ hw))
      (fun w hw => hsome w (List.mem_cons_of_mem _ hw))
    have hu := hnone u List.mem_cons_self
    have hs := hsome u List.mem_cons_self
    rw [show evalRates (u :: L) c n = (if u.1.1 = n then u.2 * u.1.2.elim 1 c else 0) + evalRates L c n by
      simp [evalRates], ← ih]
    have el : ∀ (o : Option ℕ) (f g : ℕ → K), (o.elim 0 fun m => f m + g m) = o.elim 0 f + o.elim 0 g :=
      fun o f g => by cases o <;> simp
    have ia : ∀ (P : Prop) [Decidable P] (x y : K), (if P then x + y else 0) = (if P then x else 0) + if P then y else 0 :=
      fun P _ x y => by split <;> simp
    simp only [netOf_cons, mul_add, el, Finset.sum_add_distrib, ia]
    have main : (if conns (a, none) = true then if u.1 = (n, none) then u.2 else 0 else 0) +
        (∑ j ∈ Finset.range N, if conns (a, some j) = true then
          ∑ β, (dof mom j β).elim 0 fun m => c m * if u.1 = (n, some m) then u.2 else 0 else 0) =
        if u.1.1 = n then u.2 * u.1.2.elim 1 c else 0 := by
      obtain ⟨⟨x, y⟩, v⟩ := u
      have e0 : ∀ o : Option ℕ, o.elim (0 : K) (fun _ => 0) = 0 := fun o => by cases o <;> rfl
      by_cases hx : x = n
      · subst hx
        rcases y with _ | m
        · simp only [hu rfl rfl, if_true, Prod.mk.injEq, true_and, reduceCtorEq, if_false, mul_zero, e0,
            Finset.sum_const_zero, ite_self, add_zero, Option.elim_none, mul_one]
        · obtain ⟨b, β, hb, hm, hc⟩ := hs rfl m rfl
          simp only [Prod.mk.injEq, reduceCtorEq, and_false, if_false, ite_self, zero_add, if_true, true_and,
            Option.some.injEq, Option.elim_some]
          rw [Finset.sum_eq_single b]
          · rw [if_pos hc, Finset.sum_eq_single β]
            · rw [hm]; simp [mul_comm]
            · intro γ _ hγ
              rcases e : dof mom b γ with _ | m'
              · rfl
              · have : ¬ m = m' := fun h => hγ (hd _ _ _ _ _ hb hb (h ▸ e) hm).2
                simp [this]
            · intro h; exact absurd (Finset.mem_univ _) h
          · intro j hjN hj
            rw [Finset.sum_eq_zero, ite_self]
            intro γ _
            rcases e : dof mom j γ with _ | m'
            · rfl
            · have : ¬ m = m' := fun h => hj (hd _ _ _ _ _ (Finset.mem_range.mp hjN) hb (h ▸ e) hm).1
              simp [this]
          · intro h; exact absurd (Finset.mem_range.mpr hb) h
      · simp only [Prod.mk.injEq, hx, false_and, if_false, ite_self, mul_zero, e0, Finset.sum_const_zero,
          add_zero]
    rw [← main]
    ring

/-- `back` numbers the clusters and moments of the sub-network (what C20 establishes for the code's maps). -/
structure SubMap (inS : ℕ → Bool) (NF : ℕ) (momF momS : ℕ → Fin d → Option ℕ) (N : ℕ) (back : ℕ → ℕ) : Prop where
  full : ∀ a, inS a = true → a < NF
  lt : ∀ a, inS a = true → back a < N
  dofs : ∀ a α, inS a = true → (dof momF a α).map back = dof momS (back a) α
  inj : ∀ a b, inS a = true → inS b = true → back a = back b → a = b

/-- Participants of a production reaction that are all inside: the sub-network has the reaction itself. -/
def prodInside (inS : ℕ → Bool) (r : ProdRxn d K) : Bool :=
  inS r.r1 && inS r.r2 && r.prod1.all inS && r.prod2.all inS

theorem SubMap.back_inj {inS : ℕ → Bool} {NF : ℕ} {momF momS : ℕ → Fin d → Option ℕ} {N : ℕ} {back : ℕ → ℕ}
    (h : SubMap inS NF momF momS N back) (hS : Distinct N momS) {a b : ℕ} {α β : Option (Fin d)} {m m' : ℕ}
    (ha : inS a = true) (hb : inS b = true) (hm : dof momF a α = some m) (hm' : dof momF b β = some m')
    (e : back m = back m') : m = m' := by
  have e1 := h.dofs a α ha
  have e2 := h.dofs b β hb
  rw [hm, Option.map_some] at e1
  rw [hm', Option.map_some, ← e] at e2
  obtain ⟨x, y⟩ := hS _ _ _ _ _ (h.lt a ha) (h.lt b hb) e1.symm e2.symm
  have := h.inj a b ha hb x
  subst this
  subst y
  rw [hm] at hm'
  exact Option.some.inj hm'

section
variable {inS : ℕ → Bool} {NF : ℕ} {momF momS : ℕ → Fin d → Option ℕ} {N : ℕ} {back : ℕ → ℕ}

/-- A position whose row and column belong to the sub-network. -/
def OwnPos (inS : ℕ → Bool) (momF : ℕ → Fin d → Option ℕ) (p : ℕ × Option ℕ) : Prop :=
  (∃ a α, inS a = true ∧ dof momF a α = some p.1) ∧
  ∀ m, p.2 = some m → ∃ b β, inS b = true ∧ dof momF b β = some m

theorem eval_subRates (h : SubMap inS NF momF momS N back) (hS : Distinct N momS) (L : List ((ℕ × Option ℕ) × K))
    (hL : ∀ u ∈ L, OwnPos inS momF u.1) {a : ℕ} {α : Option (Fin d)} {n : ℕ} (ha : inS a = true)
    (hn : dof momF a α = some n) (cs c' : ℕ → K)
    (hc : ∀ b β m, inS b = true → dof momF b β = some m → c' m = cs (back m)) :
    evalRates (subRates back L) cs (back n) = evalRates L c' n := by
  induction L with
  | nil => rfl
  | cons u L ih =>
    have e : ∀ (x : (ℕ × Option ℕ) × K) M c n, evalRates (x :: M) c n =
        (if x.1.1 = n then x.2 * x.1.2.elim 1 c else 0) + evalRates M c n := fun x M c n => by simp [evalRates]
    rw [subRates, List.map_cons, e, e, ← ih fun w hw => hL w (List.mem_cons_of_mem _ hw)]
    congr 1
    obtain ⟨⟨b, β, hb, hm⟩, h2⟩ := hL u List.mem_cons_self
    have hi : (back u.1.1 = back n) = (u.1.1 = n) :=
      propext ⟨fun x => h.back_inj hS hb ha hm hn x, fun x => by rw [x]⟩
    simp only [renamePos, hi]
    rcases hx : u.1.2 with _ | m
    · rfl
    · obtain ⟨b', β', hb', hm'⟩ := h2 m hx
      simp only [Option.map_some, Option.elim_some, hc b' β' m hb' hm']

theorem prod_own (r : ProdRxn d K) (hmom : ∀ q cl, r.id q = some cl → ∀ k, r.mom q k = momF cl k) (q : Slot)
    (γ : Option (Fin d)) {n : ℕ} (h : r.subRow inS q γ = some n) :
    ∃ a, r.id q = some a ∧ inS a = true ∧ dof momF a γ = some n := by
  unfold ProdRxn.subRow at h
  rcases e : r.id q with _ | a
  · rw [e] at h; cases h
  · rw [e, Option.bind_some] at h
    split at h
    · rename_i hi
      refine ⟨a, rfl, hi, ?_⟩
      rcases γ with _ | k
      · rw [ProdRxn.rowId, e] at h; exact h
      · rw [ProdRxn.rowId, e, Option.bind_some, hmom q a e] at h; exact h
    · cases h

/-- The cluster pair of every position of a production reaction is marked as well. -/
theorem prod_pos (r : ProdRxn d K) (hmom : ∀ q cl, r.id q = some cl → ∀ k, r.mom q k = momF cl k)
    {p : ℕ × Option ℕ} (h : p ∈ r.constConnectivities inS) :
    ∃ a α, inS a = true ∧ dof momF a α = some p.1 ∧
      (p.2 = none → (a, none) ∈ r.constConnectivities inS) ∧
      ∀ m, p.2 = some m → ∃ b β, inS b = true ∧ dof momF b β = some m ∧
        (a, some b) ∈ r.constConnectivities inS := by
  have r0 : ∀ q γ a, r.subRow inS q γ = some p.1 → r.id q = some a → inS a = true →
      r.subRow inS q none = some a := fun q γ a _ h2 h3 => by
    rw [r.subRow_in inS h2 h3]; exact h2
  rw [r.constant_connectivities] at h
  rcases h with ⟨i1, i2, hp, q, γ, hq, h⟩ | ⟨i1, i2, q, γ, hq, h, α, b, hc, hp⟩ |
    ⟨i1, i2, q, γ, hq, h, α, b, hc, hp⟩ <;> obtain ⟨a, ea, ia, da⟩ := prod_own r hmom q γ h
  · refine ⟨a, γ, ia, da, fun _ => ?_, fun m hm => by rw [hp] at hm; cases hm⟩
    rw [r.constant_connectivities]
    exact .inl ⟨i1, i2, rfl, q, none, hq, r0 q γ a h ea ia⟩
  · refine ⟨a, γ, ia, da, fun e => (by rw [hp] at e; cases e), fun m hm => ?_⟩
    rw [hp] at hm
    cases hm
    refine ⟨r.r1, α, i1, ?_, ?_⟩
    · rcases α with _ | k
      · exact hc
      · rw [← hc]; exact (hmom .r1 r.r1 rfl k).symm
    · rw [r.constant_connectivities]
      exact .inr (.inl ⟨i1, i2, q, none, hq, r0 q γ a h ea ia, none, r.r1, rfl, rfl⟩)
  · refine ⟨a, γ, ia, da, fun e => (by rw [hp] at e; cases e), fun m hm => ?_⟩
    rw [hp] at hm
    cases hm
    refine ⟨r.r2, α, i2, ?_, ?_⟩
    · rcases α with _ | k
      · exact hc
      · rw [← hc]; exact (hmom .r2 r.r2 rfl k).symm
    · rw [r.constant_connectivities]
      exact .inr (.inr ⟨i1, i2, q, none, hq, r0 q γ a h ea ia, none, r.r2, rfl, rfl⟩)

theorem diss_own (r : DissRxn d K) (hmom : ∀ q k, r.mom q k = momF (r.id q) k) (q : DSlot)
    (γ : Option (Fin d)) {n : ℕ} (h : r.subRow inS q γ = some n) :
    inS (r.id q) = true ∧ dof momF (r.id q) γ = some n ∧ r.subRow inS q none = some (r.id q) := by
  unfold DissRxn.subRow at h
  split at h
  · rename_i hi
    refine ⟨hi, ?_, by simp [DissRxn.subRow, hi, DissRxn.dofOf]⟩
    rcases γ with _ | k
    · exact h
    · rw [DissRxn.dofOf, hmom] at h; exact h
  · cases h

theorem diss_pos (r : DissRxn d K) (hmom : ∀ q k, r.mom q k = momF (r.id q) k)
    {p : ℕ × Option ℕ} (h : p ∈ r.constConnectivities inS) :
    ∃ a α, inS a = true ∧ dof momF a α = some p.1 ∧
      (p.2 = none → (a, none) ∈ r.constConnectivities inS) ∧
      ∀ m, p.2 = some m → ∃ b β, inS b = true ∧ dof momF b β = some m ∧
        (a, some b) ∈ r.constConnectivities inS := by
  rw [r.constant_connectivities] at h
  obtain ⟨hall, ⟨hr, hp, q, γ, h⟩ | ⟨hr, ⟨q, γ, h⟩, α, b, hb, hp⟩⟩ := h <;>
    obtain ⟨x, y, z⟩ := diss_own r hmom q γ h
  · refine ⟨_, γ, x, y, fun _ => ?_, fun m hm => by rw [hp] at hm; cases hm⟩
    rw [r.constant_connectivities]
    exact ⟨hall, .inl ⟨hr, rfl, q, none, z⟩⟩
  · refine ⟨_, γ, x, y, fun e => (by rw [hp] at e; cases e), fun m hm => ?_⟩
    rw [hp] at hm
    cases hm
    refine ⟨r.id .r, α, hr, ?_, ?_⟩
    · rcases α with _ | k
      · exact hb
      · rw [← hb]; exact (hmom .r k).symm
    · rw [r.constant_connectivities]
      exact ⟨hall, .inr ⟨hr, ⟨q, none, z⟩, none, r.id .r, rfl, rfl⟩⟩

/-- **C19** (sub-networks). The sub-network's constant reactions, given the rates computed on the full network, produce at every cluster and moment of the sub-network exactly the flux of the full network's
reactions that are not inside the sub-network. Concentrations `c'` are those of the sub-network `cs` inside and those of the last exchange `c` outside.
Missing: reactions with both reactants inside and a product outside (`both_in_lost`), the second reactant inside with several moment axes (`second_in_wrong`), and dissociations with
grouped reactant and first product inside (`diss_moment_wrong`). -/
theorem sub_network_flux_partial (P : List (ProdRxn d K)) (D : List (DissRxn d K)) (unset : ℕ × Option ℕ)
    (hF : Distinct NF momF) (hS : Distinct N momS) (h : SubMap inS NF momF momS N back)
    (hPN : ∀ r ∈ P, ∀ q cl, r.id q = some cl → cl < NF) (hDN : ∀ r ∈ D, ∀ q, r.id q < NF)
    (hPm : ∀ r ∈ P, ∀ q cl, r.id q = some cl → ∀ k, r.mom q k = momF cl k)
    (hDm : ∀ r ∈ D, ∀ q k, r.mom q k = momF (r.id q) k)
    (hp : ∀ r ∈ P, r.prod1 = none → r.prod2 = none)
    (hB5 : ∀ r ∈ P, inS r.r1 = true → inS r.r2 = true → prodInside inS r = true)
    (hB2 : ∀ r ∈ P, inS r.r1 = false → inS r.r2 = true → d ≤ 1 ∨ ∀ i, r.mom .r2 i = none)
    (hB4 : ∀ r ∈ D, r.allIn inS = false → inS (r.id .r) = true → inS (r.id .p1) = true →
      (∀ k, r.mom .p1 k = none) ∨ ∀ i, r.mom .r i = none)
    (c cs c' : ℕ → K)
    (hin : ∀ b β m, inS b = true → dof momF b β = some m → c' m = cs (back m))
    (hout : ∀ b β m, b < NF → inS b = false → dof momF b β = some m → c' m = c m)
    {a : ℕ} {α : Option (Fin d)} {n : ℕ} (ha : inS a = true) (hn : dof momF a α = some n) :
    ((constantReactions N momS fun p => decide (p ∈ (allConns P D inS).map (renamePos back))).map fun r =>
        netOf (r.computeFlux (netOf (subRates back (allRates P D inS unset c))) cs) (back n)).sum =
      ((P.filter fun r => !prodInside inS r).map fun r => netOf (r.computeFlux c') n).sum +
      ((D.filter fun r => !r.allIn inS).map fun r => netOf (r.computeFlux c') n).sum := by
  -- every updated entry is a marked position
  have cov : ∀ u ∈ allRates P D inS unset c, ∃ b β, inS b = true ∧ dof momF b β = some u.1.1 ∧
      (u.1.2 = none → (b, none) ∈ allConns P D inS) ∧
      ∀ m, u.1.2 = some m → ∃ b' β', inS b' = true ∧ dof momF b' β' = some m ∧
        (b, some b') ∈ allConns P D inS := by
    intro u hu
    rcases List.mem_append.mp hu with hu | hu <;> obtain ⟨r, hr, hu⟩ := List.mem_flatMap.mp hu
    · obtain ⟨b, β, x, y, z, w⟩ := prod_pos r (hPm r hr) (r.constant_rates_covered inS c u hu)
      have sub : ∀ p, p ∈ r.constConnectivities inS → p ∈ allConns P D inS := fun p hp =>
        List.mem_append_left _ (List.mem_flatMap.mpr ⟨r, hr, hp⟩)
      refine ⟨b, β, x, y, fun e => sub _ (z e), fun m hm => ?_⟩
      obtain ⟨b', β', x', y', z'⟩ := w m hm
      exact ⟨b', β', x', y', sub _ z'⟩
    · have hall : r.allIn inS = false := by
        rcases e : r.allIn inS with _ | _
        · rfl
        · rw [DissRxn.computeConstantRates, e] at hu; cases hu
      obtain ⟨b, β, x, y, z, w⟩ := diss_pos r (hDm r hr)
        (r.constant_rates_covered_partial inS unset (hB4 r hr hall) c u hu)
      have sub : ∀ p, p ∈ r.constConnectivities inS → p ∈ allConns P D inS := fun p hp =>
        List.mem_append_right _ (List.mem_flatMap.mpr ⟨r, hr, hp⟩)
      refine ⟨b, β, x, y, fun e => sub _ (z e), fun m hm => ?_⟩
      obtain ⟨b', β', x', y', z'⟩ := w m hm
      exact ⟨b', β', x', y', sub _ z'⟩
  have hnS : dof momS (back a) α = some (back n) := by rw [← h.dofs a α ha, hn]; rfl
  have same : ∀ {b β m}, inS b = true → dof momF b β = some m → back m = back n → b = a := fun {b β m} hb hm e => by
    have := h.back_inj hS hb ha hm hn e
    subst this
    exact (hF _ _ _ _ _ (h.full _ hb) (h.full _ ha) hm hn).1
  rw [constant_reactions_flux N momS hS _ _ (h.lt a ha) hnS]
  rotate_left
  · intro w hw e1 e2
    obtain ⟨u, hu, rfl⟩ := List.mem_map.mp hw
    obtain ⟨b, β, x, y, z, _⟩ := cov u hu
    have := same x y e1
    subst this
    simp only [renamePos, Option.map_eq_none_iff] at e2
    exact decide_eq_true (List.mem_map.mpr ⟨_, z e2, rfl⟩)
  · intro w hw e1 m e2
    obtain ⟨u, hu, rfl⟩ := List.mem_map.mp hw
    obtain ⟨b, β, x, y, _, z⟩ := cov u hu
    have := same x y e1
    subst this
    simp only [renamePos, Option.map_eq_some_iff] at e2
    obtain ⟨m', hm', rfl⟩ := e2
    obtain ⟨b', β', x', y', z'⟩ := z m' hm'
    refine ⟨back b', β', h.lt b' x', by rw [← h.dofs b' β' x', y']; rfl, ?_⟩
    exact decide_eq_true (List.mem_map.mpr ⟨_, z', rfl⟩)
  rw [eval_subRates h hS _ (fun u hu => by
    obtain ⟨b, β, x, y, _, z⟩ := cov u hu
    refine ⟨⟨b, β, x, y⟩, fun m hm => ?_⟩
    obtain ⟨b', β', x', y', _⟩ := z m hm
    exact ⟨b', β', x', y'⟩) ha hn cs c' hin]
  -- sum over the reactions
  have ev : ∀ {τ : Type _} (l : List τ) (f : τ → List ((ℕ × Option ℕ) × K)), evalRates (l.flatMap f) c' n =
      (l.map fun r => evalRates (f r) c' n).sum := fun l f => by
    induction l with
    | nil => rfl
    | cons r l ih => rw [List.flatMap_cons, eval_append, ih, List.map_cons, List.sum_cons]
  have filt : ∀ {τ : Type _} (l : List τ) (q : τ → Bool) (f g : τ → K),
      (∀ r ∈ l, f r = if q r then g r else 0) → (l.map f).sum = ((l.filter q).map g).sum := fun l q f g => by
    induction l with
    | nil => intro _; rfl
    | cons r l ih =>
      intro hl
      have h1 := hl r List.mem_cons_self
      have h2 := ih fun r hr => hl r (List.mem_cons_of_mem _ hr)
      rw [List.map_cons, List.sum_cons, h1, h2, List.filter_cons]
      split <;> simp
  rw [allRates, eval_append, ev, ev]
  congr 1
  · refine filt P _ _ _ fun r hr => ?_
    rcases e : prodInside inS r with _ | _
    · have hmom := hPm r hr
      have rowF : ∀ q γ cl m, r.id q = some cl → r.rowId q γ = some m → dof momF cl γ = some m := fun q γ cl m e h => by
        rcases γ with _ | k
        · rw [ProdRxn.rowId, e] at h; exact h
        · rw [ProdRxn.rowId, e, Option.bind_some, hmom q cl e] at h; exact h
      refine r.constant_rates_partial inS (hp r hr) ?_ ?_ ?_ c c' ?_ ?_
      · intro q γ cl hr' hid
        have := (hF _ _ _ _ _ (hPN r hr q cl hid) (h.full _ ha) (rowF q γ cl n hid hr') hn).1
        rw [this]; exact ha
      · rintro ⟨x, y⟩
        rw [hB5 r hr x y] at e; cases e
      · intro h2
        refine hB2 r hr ?_ h2
        rcases h1 : inS r.r1 with _ | _
        · rfl
        · rw [hB5 r hr h1 h2] at e; cases e
      · intro h1 γ m hm
        refine (hout r.r1 γ m (hPN r hr .r1 _ rfl) h1 ?_).symm
        exact rowF .r1 γ r.r1 m rfl (by cases γ <;> exact hm)
      · intro h1 γ m hm
        refine (hout r.r2 γ m (hPN r hr .r2 _ rfl) h1 ?_).symm
        exact rowF .r2 γ r.r2 m rfl (by cases γ <;> exact hm)
    · simp only [prodInside, Bool.and_eq_true] at e
      simp only [ProdRxn.computeConstantRates, e.1.1.1, e.1.1.2, eval_nil]
      rfl
  · refine filt D _ _ _ fun r hr => ?_
    rcases e : r.allIn inS with _ | _
    · have hmom := hDm r hr
      have rowF : ∀ q γ m, r.dofOf q γ = some m → dof momF (r.id q) γ = some m := fun q γ m h => by
        rcases γ with _ | k
        · exact h
        · rw [DissRxn.dofOf, hmom] at h; exact h
      refine r.constant_rates_partial inS ?_ unset e (hB4 r hr e) c c' ?_
      · intro q γ hq
        rw [(hF _ _ _ _ _ (hDN r hr q) (h.full _ ha) (rowF q γ n hq) hn).1]; exact ha
      · intro h1 γ m hm
        exact (hout _ γ m (hDN r hr .r) h1 (rowF .r γ m hm)).symm
    · rw [DissRxn.computeConstantRates, e]; rfl

/-- **C19** (total). Reactions inside plus constant reactions give the flux of the full network. Same restrictions as `sub_network_flux_partial`. -/
theorem sub_network_total_partial (P : List (ProdRxn d K)) (D : List (DissRxn d K)) (unset : ℕ × Option ℕ)
    (hF : Distinct NF momF) (hS : Distinct N momS) (h : SubMap inS NF momF momS N back)
    (hPN : ∀ r ∈ P, ∀ q cl, r.id q = some cl → cl < NF) (hDN : ∀ r ∈ D, ∀ q, r.id q < NF)
    (hPm : ∀ r ∈ P, ∀ q cl, r.id q = some cl → ∀ k, r.mom q k = momF cl k)
    (hDm : ∀ r ∈ D, ∀ q k, r.mom q k = momF (r.id q) k)
    (hp : ∀ r ∈ P, r.prod1 = none → r.prod2 = none)
    (hB5 : ∀ r ∈ P, inS r.r1 = true → inS r.r2 = true → prodInside inS r = true)
    (hB2 : ∀ r ∈ P, inS r.r1 = false → inS r.r2 = true → d ≤ 1 ∨ ∀ i, r.mom .r2 i = none)
    (hB4 : ∀ r ∈ D, r.allIn inS = false → inS (r.id .r) = true → inS (r.id .p1) = true →
      (∀ k, r.mom .p1 k = none) ∨ ∀ i, r.mom .r i = none)
    (c cs c' : ℕ → K)
    (hin : ∀ b β m, inS b = true → dof momF b β = some m → c' m = cs (back m))
    (hout : ∀ b β m, b < NF → inS b = false → dof momF b β = some m → c' m = c m)
    {a : ℕ} {α : Option (Fin d)} {n : ℕ} (ha : inS a = true) (hn : dof momF a α = some n) :
    ((P.filter fun r => prodInside inS r).map fun r => netOf (r.computeFlux c') n).sum +
      ((D.filter fun r => r.allIn inS).map fun r => netOf (r.computeFlux c') n).sum +
    ((constantReactions N momS fun p => decide (p ∈ (allConns P D inS).map (renamePos back))).map fun r =>
        netOf (r.computeFlux (netOf (subRates back (allRates P D inS unset c))) cs) (back n)).sum =
      (P.map fun r => netOf (r.computeFlux c') n).sum + (D.map fun r => netOf (r.computeFlux c') n).sum := by
  rw [sub_network_flux_partial P D unset hF hS h hPN hDN hPm hDm hp hB5 hB2 hB4 c cs c' hin hout ha hn]
  have sp : ∀ {τ : Type _} (l : List τ) (q : τ → Bool) (g : τ → K),
      (l.map g).sum = ((l.filter q).map g).sum + ((l.filter fun r => !q r).map g).sum := fun l q g => by
    induction l with
    | nil => simp
    | cons r l ih =>
      rw [List.map_cons, List.sum_cons, ih, List.filter_cons, List.filter_cons]
      rcases q r <;> simp <;> ring
  rw [sp P (prodInside inS), sp D fun r => r.allIn inS]
  ring

end

/-! ### Where the full claim fails -/

/-- All tensors one, no moments. -/
def witB5 : ProdRxn 0 ℚ := ⟨0, 1, some 2, none, fun _ k => k.elim0, fun _ => 1, 1, fun _ _ _ _ => 1⟩

/-- **C19 fails** when both reactants are inside and the product is not: nothing is added to the rates, so the sub-network never loses the reactants. -/
theorem both_in_lost : ¬ ∀ (r : ProdRxn 0 ℚ) (inS : ℕ → Bool) (n : ℕ) (c : ℕ → ℚ), (r.prod1 = none → r.prod2 = none) →
    r.OwnRow inS n → prodInside inS r = false →
    evalRates (r.computeConstantRates inS c) c n = netOf (r.computeFlux c) n := by
  intro h
  have := h witB5 (fun n => decide (n ≤ 1)) 0 (fun _ => 1) (fun e => by cases e) (by
    intro q γ cl h1 h2
    cases q <;> rcases γ with _ | k <;> first | exact k.elim0 | (cases h1; cases h2; rfl) | cases h1) rfl
  revert this
  decide +kernel

/-- Two axes; both reactants grouped; coefficients that depend on the axes. -/
def witB2 : ProdRxn 2 ℚ := ⟨0, 1, none, none,
  fun q k => match q with | .r1 => some (2 + k.val) | .r2 => some (4 + k.val) | _ => none, fun _ => 1, 1,
  fun a b _ _ => match a, b with | some i, some j => (i.val : ℚ) + 3 * j.val | _, _ => 1⟩

/-- **C19 fails** with two moment axes when only the second reactant is inside: the loop reads the transposed coefficient and the wrong moment (Reaction.tpp:1506-1510). -/
theorem second_in_wrong : ¬ ∀ (r : ProdRxn 2 ℚ) (inS : ℕ → Bool) (n : ℕ) (c : ℕ → ℚ), (r.prod1 = none → r.prod2 = none) →
    r.OwnRow inS n → ¬ (inS r.r1 = true ∧ inS r.r2 = true) →
    evalRates (r.computeConstantRates inS c) c n = netOf (r.computeFlux c) n := by
  intro h
  have := h witB2 (fun n => n == 1) 1 (fun n => (n : ℚ)) (fun _ => rfl) (by
    intro q γ cl h1 h2
    cases q <;> rcases γ with _ | k <;> simp [ProdRxn.rowId, ProdRxn.id, witB2] at h1 h2 ⊢ <;> omega) (by decide)
  revert this
  decide +kernel

/-- One axis; reactant and first product grouped. -/
def witB4 : DissRxn 1 ℚ := ⟨fun q => match q with | .r => 0 | .p1 => 1 | .p2 => 2,
  fun q _ => match q with | .r => some 3 | .p1 => some 4 | .p2 => none, fun _ => 1, 1, fun _ _ _ => 1⟩

/-- **C19 fails** for a dissociation with grouped reactant and grouped first product inside: the moment columns of the product's moment equation are added to the reactant's entry (Reaction.tpp:2785-2794). -/
theorem diss_moment_wrong : ¬ ∀ (r : DissRxn 1 ℚ) (inS : ℕ → Bool) (n : ℕ) (unset : ℕ × Option ℕ) (c : ℕ → ℚ), r.OwnRow inS n →
    r.allIn inS = false →
    evalRates (r.computeConstantRates inS unset c) c n = netOf (r.computeFlux c) n := by
  intro h
  have := h witB4 (fun n => decide (n ≤ 1)) 4 (0, none) (fun _ => 1) (by
    intro q γ h1
    cases q <;> rcases γ with _ | k <;> simp [DissRxn.dofOf, witB4] at h1 ⊢) rfl
  revert this
  decide +kernel

/-! ### A case that meets the hypotheses: two clusters inside with one grouped, two outside -/

def exMomF (a : ℕ) (_ : Fin 1) : Option ℕ := if a = 1 then some 4 else if a = 3 then some 5 else none
def exMomS (a : ℕ) (_ : Fin 1) : Option ℕ := if a = 1 then some 2 else none
def exIn (a : ℕ) : Bool := a == 0 || a == 1
def exBack (m : ℕ) : ℕ := if m = 4 then 2 else m
def exProd : ProdRxn 1 ℚ := ⟨1, 2, some 3, none,
  fun q k => match q with | .r1 => exMomF 1 k | .r2 => exMomF 2 k | .p1 => exMomF 3 k | .p2 => none, fun _ => 1, 1, fun _ _ _ _ => 1⟩
def exDiss : DissRxn 1 ℚ := ⟨fun q => match q with | .r => 3 | .p1 => 1 | .p2 => 2,
  fun q => match q with | .r => exMomF 3 | .p1 => exMomF 1 | .p2 => exMomF 2, fun _ => 1, 1, fun _ _ _ => 1⟩

theorem exHyps : Distinct 4 exMomF ∧ Distinct 2 exMomS ∧ SubMap exIn 4 exMomF exMomS 2 exBack := by
  refine ⟨?_, ?_, ⟨?_, ?_, ?_, ?_⟩⟩
  · intro a b α β n ha hb h1 h2
    interval_cases a <;> interval_cases b <;> rcases α with _ | i <;> rcases β with _ | j <;>
      simp [dof, exMomF] at h1 h2 ⊢ <;> omega
  · intro a b α β n ha hb h1 h2
    interval_cases a <;> interval_cases b <;> rcases α with _ | i <;> rcases β with _ | j <;>
      simp [dof, exMomS] at h1 h2 ⊢ <;> omega
  · intro a h
    simp only [exIn, Bool.or_eq_true, beq_iff_eq] at h
    omega
  · intro a h
    simp only [exIn, Bool.or_eq_true, beq_iff_eq] at h
    rcases h with rfl | rfl <;> decide
  · intro a α h
    simp only [exIn, Bool.or_eq_true, beq_iff_eq] at h
    rcases h with rfl | rfl <;> rcases α with _ | i <;> simp [dof, exMomF, exMomS, exBack]
  · intro a b h1 h2
    simp only [exIn, Bool.or_eq_true, beq_iff_eq] at h1 h2
    rcases h1 with rfl | rfl <;> rcases h2 with rfl | rfl <;> simp [exBack]

/-- All hypotheses hold at once and the flux is not zero: at the moment of the grouped cluster inside. -/
example : ((constantReactions 2 exMomS fun p => decide (p ∈ (allConns [exProd] [exDiss] exIn).map (renamePos exBack))).map fun r =>
        netOf (r.computeFlux (netOf (subRates exBack (allRates [exProd] [exDiss] exIn (0, none) fun n => (n : ℚ) + 1)))
          fun n => if n = 2 then 5 else (n : ℚ) + 1) (exBack 4)).sum =
      netOf (exProd.computeFlux fun n => (n : ℚ) + 1) 4 + netOf (exDiss.computeFlux fun n => (n : ℚ) + 1) 4 ∧
    netOf (exProd.computeFlux fun n => (n : ℚ) + 1) 4 + netOf (exDiss.computeFlux fun n => (n : ℚ) + 1) 4 ≠ 0 := by
  refine ⟨?_, by decide +kernel⟩
  have h := sub_network_flux_partial [exProd] [exDiss] (0, none) exHyps.1 exHyps.2.1 exHyps.2.2
    (by
      intro r hr q cl h
      rw [List.mem_singleton.mp hr] at h
      cases q <;> simp [ProdRxn.id, exProd] at h <;> omega)
    (by
      intro r hr q
      rw [List.mem_singleton.mp hr]
      cases q <;> decide)
    (by
      intro r hr q cl h k
      rw [List.mem_singleton.mp hr] at h ⊢
      cases q <;> simp [ProdRxn.id, exProd] at h ⊢ <;> rw [h])
    (by
      intro r hr q k
      rw [List.mem_singleton.mp hr]
      cases q <;> rfl)
    (by
      intro r hr
      rw [List.mem_singleton.mp hr]
      decide)
    (by
      intro r hr
      rw [List.mem_singleton.mp hr]
      decide)
    (fun _ _ _ _ => .inl le_rfl)
    (by
      intro r hr
      rw [List.mem_singleton.mp hr]
      decide)
    (fun n => (n : ℚ) + 1) (fun n => if n = 2 then 5 else (n : ℚ) + 1) (fun n => (n : ℚ) + 1)
    (by
      intro b β m hb h
      have : b = 0 ∨ b = 1 := by simpa [exIn] using hb
      rcases this with rfl | rfl <;> rcases β with _ | j <;> simp [dof, exMomF] at h <;> subst h <;> norm_num [exBack])
    (fun _ _ _ _ _ _ => rfl) (a := 1) (α := some 0) (n := 4) rfl rfl
  rw [h]
  simp [prodInside, exProd, exDiss, DissRxn.allIn, exIn]

end Const

namespace ConstRxn

variable {d : ℕ} (r : ConstRxn d)

/-- **C08, C19**. The partial derivatives of a constant reaction are the derivatives of its flux. -/
theorem constant_jacobian (R : ℕ × Option ℕ → ℝ) (c : ℕ → ℝ) (row col : ℕ) :
    HasDerivAt (fun x => netOf (r.computeFlux R (Function.update c col x)) row)
      (netOf (r.computePartials R) (row, col)) (c col) := by
  have one : ∀ a b : Option ℕ, HasDerivAt (fun x => netOf (colTerm R (Function.update c col x) a b) row)
      (netOf (partial1 R a b) (row, col)) (c col) := by
    intro a b
    rcases b with _ | m
    · have : partial1 R a none = [] := by cases a <;> rfl
      rw [this]; exact hasDerivAt_const _ _
    · rcases a with _ | n
      · exact hasDerivAt_const _ _
      · have e1 : ∀ x, netOf (colTerm R (Function.update c col x) (some n) (some m)) row =
            if n = row then Function.update c col x m * R (n, some m) else 0 := fun x => by
          simp [colTerm, emit, netOf_cons, netOf_nil, rateAt, rateCol, ProdRxn.entry]
        have e2 : netOf (partial1 R (some n) (some m)) (row, col) =
            if n = row ∧ m = col then R (n, some m) else 0 := by
          simp [partial1, emit, netOf_cons, netOf_nil, rateAt, rateCol, ProdRxn.entry]
        simp only [e1, e2]
        by_cases hn : n = row
        · by_cases hm : m = col
          · subst hm
            simpa [hn] using (hasDerivAt_id' (c m)).mul_const (R (row, some m))
          · simpa [hn, hm, Function.update_of_ne hm] using hasDerivAt_const (c col) (c m * R (row, some m))
        · simpa [hn] using hasDerivAt_const (c col) (0 : ℝ)
  unfold computeFlux computePartials
  split
  · rename_i h
    simpa [netOf_nil] using hasDerivAt_const (c col) _
  · simp only [netOf_append, netOf_finRange]
    exact (one _ _).add (HasDerivAt.fun_sum fun i _ => ((one _ _).add (one _ _)).add
      (HasDerivAt.fun_sum fun j _ => one _ _))

/-- **C09, C19**. Every entry written by `computePartialDerivatives` is in the connectivity. -/
theorem constant_partials_covered {K : Type*} [Field K] (R : ℕ × Option ℕ → K) (u : (ℕ × ℕ) × K) (hu : u ∈ r.computePartials R) :
    u.1 ∈ r.computeConnectivity := by
  have one : ∀ γ α, u ∈ partial1 R (r.row γ) (r.col α) → u.1 ∈ ProdRxn.linkBlock r.row r.col := fun γ α h =>
    ProdRxn.mem_linkBlock (γ := γ) (α := α) (ProdRxn.mem_emit h)
  unfold computePartials at hu
  unfold computeConnectivity
  refine List.mem_append_right _ ?_
  rcases e : r.r2 with _ | b
  · rw [e] at hu; cases hu
  · rw [e] at hu
    simp only [List.mem_append, List.mem_flatMap] at hu
    obtain h | ⟨i, _, (h | h) | ⟨j, _, h⟩⟩ := hu <;> exact one _ _ h

end ConstRxn

end Xolotl.Network
