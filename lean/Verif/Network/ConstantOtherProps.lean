import Verif.Network.ConstantOther
import Verif.Network.ConstantProps
import Verif.Network.SimpleProps

/-!
# C19 for trap mutation, re-solution, nucleation and sinks, and C10 for constant reactions
-/

set_option linter.unusedSectionVars false

namespace Xolotl.Network

variable {d : ℕ} {K : Type*} [Field K] [LinearOrder K]

open Const

namespace ConstOther

/-- **C19 (sinks)** Nothing crosses: a sink outside the sub-network has no flux inside it, so no constant rate is the right one. -/
theorem sink_exact (r : SinkRxn K) (inS : ℕ → Bool) (t : TmData K) (unset : ℕ × Option ℕ) (c c' : ℕ → K) {n : ℕ} (hn : inS n = true) (hr : inS r.reactant = false) :
    evalRates (Rxn.constantRates (d := d) t inS unset c (.sink r)) c' n = netOf (r.computeFlux c') n := by
  have : r.reactant ≠ n := by rintro rfl; rw [hr] at hn; cases hn
  simp [Rxn.constantRates, evalRates, SinkRxn.computeFlux, netOf, this]

/-- **C19 (trap mutation)** With the helium cluster outside, the constant rates differ from the flux exactly by the helium-vacancy product: what they add is the interstitial alone. -/
theorem tm_gap (r : TmRxn K) (t : TmData K) (inS : ℕ → Bool) (c : ℕ → K) {n : ℕ} (hn : inS n = true) (hr : inS r.he = false) :
    evalRates (r.computeConstantRates t inS c) c n + (if r.enabled t = true ∧ r.heV = n then r.appliedRate t * c r.he else 0) = netOf (r.computeFlux t c) n := by
  have h0 : r.he ≠ n := by rintro rfl; rw [hr] at hn; cases hn
  unfold TmRxn.computeConstantRates TmRxn.computeFlux
  rcases he : r.enabled t
  · simp [evalRates, netOf]
  · by_cases hv : r.heV = n <;> by_cases hi : r.i = n
    · simp [evalRates, netOf, h0, hv, hi, hr, hn, emitIf, emit]
    · rcases hI : inS r.i <;> simp [evalRates, netOf, h0, hv, hi, hr, hn, emitIf, emit, hI]
    · simp [evalRates, netOf, h0, hv, hi, hr, hn, emitIf, emit]
    · rcases hI : inS r.i <;> rcases hV : inS r.heV <;> simp [evalRates, netOf, h0, hv, hi, hr, emitIf, emit, hI, hV]

/-- **C19 (trap mutation, partial)** Missing: the helium-vacancy product inside (`tm_lost`) and the helium cluster inside (`tm_lost`). -/
theorem tm_partial (r : TmRxn K) (t : TmData K) (inS : ℕ → Bool) (c : ℕ → K) {n : ℕ} (hn : inS n = true) (hr : inS r.he = false) (hv : inS r.heV = false) :
    evalRates (r.computeConstantRates t inS c) c n = netOf (r.computeFlux t c) n := by
  have h0 : r.heV ≠ n := by rintro rfl; rw [hv] at hn; cases hn
  rw [← tm_gap r t inS c hn hr, if_neg (fun h => h0 h.2), add_zero]

/-- A trap mutation of He1 into He1V1 and I1: clusters 0, 1, 2. -/
def exTm : TmRxn ℚ := ⟨0, 1, 2, 0, 1, 3⟩
/-- Enabled everywhere, no desorption. -/
def exData : TmData ℚ := ⟨none, 1, 1, 1, fun _ => 0, fun _ => 1, fun _ => true⟩

/-- The interstitial inside: it receives the flux, which is not zero. -/
example : evalRates (exTm.computeConstantRates exData (fun n => n == 2) fun _ => 5) (fun _ => 5) 2 = 15 ∧ netOf (exTm.computeFlux exData fun _ => 5) 2 = 15 := by
  decide +kernel

/-- **C19 (trap mutation, negation)** The helium-vacancy cluster inside receives nothing, and helium inside is never consumed. -/
theorem tm_lost :
    (∃ (r : TmRxn ℚ) (t : TmData ℚ) (inS : ℕ → Bool) (c : ℕ → ℚ) (n : ℕ), inS n = true ∧ inS r.he = false ∧
      evalRates (r.computeConstantRates t inS c) c n = 0 ∧ netOf (r.computeFlux t c) n = 15) ∧
    ∃ (r : TmRxn ℚ) (t : TmData ℚ) (inS : ℕ → Bool) (c : ℕ → ℚ) (n : ℕ), inS n = true ∧ inS r.heV = false ∧ inS r.i = false ∧
      evalRates (r.computeConstantRates t inS c) c n = 0 ∧ netOf (r.computeFlux t c) n = -15 :=
  ⟨⟨exTm, exData, fun n => n == 1, fun _ => 5, 1, by decide +kernel⟩, exTm, exData, fun n => n == 0, fun _ => 5, 0, by decide +kernel⟩

/-- **C19 (nucleation, negation)** Nucleation never has a constant rate: the product inside receives nothing. -/
theorem nuc_lost : ∃ (r : NucRxn ℚ) (t : TmData ℚ) (inS : ℕ → Bool) (unset : ℕ × Option ℕ) (c : ℕ → ℚ) (n : ℕ), inS n = true ∧ inS r.reactant = false ∧
    evalRates (Rxn.constantRates (d := 0) t inS unset c (.nuc r)) c n = 0 ∧ netOf (r.computeFlux c) n = 3 :=
  ⟨⟨0, 1, 3⟩, exData, fun n => n == 1, (0, none), fun _ => 7, 1, by decide +kernel⟩

/-- **C19 (re-solution)** The rates themselves are those of a dissociation with the same participants, so they are exact in the same cases. -/
theorem resol_rates_partial (r : DissRxn d K) (t : TmData K) (inS : ℕ → Bool) {n : ℕ} (hn : r.OwnRow inS n) (unset : ℕ × Option ℕ)
    (hnot : r.allIn inS = false)
    (hB4 : inS (r.id .r) = true → inS (r.id .p1) = true → (∀ k, r.mom .p1 k = none) ∨ ∀ i, r.mom .r i = none)
    (c c' : ℕ → K) (hR : inS (r.id .r) = false → ∀ α m, r.dofOf .r α = some m → c m = c' m) :
    evalRates (Rxn.constantRates t inS unset c (.resol r)) c' n = netOf (r.computeFlux c') n :=
  r.constant_rates_partial inS hn unset hnot hB4 c c' hR

theorem getPosition_none {row : List ℕ} {col : ℕ} : getPosition row col = none ↔ col ∉ row := by
  unfold getPosition
  rw [List.findIdx?_eq_none_iff]
  constructor
  · intro h hc
    simpa using h col hc
  · intro h x hx
    have : x ≠ col := by rintro rfl; exact h hx
    simpa using this

theorem mem_announced {conns : List (ℕ × Option ℕ)} {dof row col : ℕ} : col ∈ announced conns dof row ↔ ∃ x, (row, x) ∈ conns ∧ x.getD dof = col := by
  unfold announced
  simp only [List.mem_map, List.mem_filter, beq_iff_eq]
  constructor
  · rintro ⟨⟨a, x⟩, ⟨h, rfl⟩, rfl⟩
    exact ⟨x, h, rfl⟩
  · rintro ⟨x, h, rfl⟩
    exact ⟨(row, x), ⟨h, rfl⟩, rfl⟩

/-- **C19 (trap mutation, negation)** Its rate entries are never valid: whatever is announced, the column looked up is not a column of a sub-network smaller than the network. -/
theorem tm_position_invalid (conns : List (ℕ × Option ℕ)) (subDof fullDof row : ℕ) (hc : ∀ p ∈ conns, ∀ m, p.2 = some m → m < subDof) (h : subDof < fullDof) :
    tmConstPosition conns subDof fullDof row = none := by
  unfold tmConstPosition
  rw [getPosition_none, mem_announced]
  rintro ⟨x, hx, e⟩
  rcases x with _ | m
  · simp only [Option.getD_none] at e; omega
  · have := hc _ hx m rfl
    simp only [Option.getD_some] at e; omega

/-- **C19 (re-solution, negation)** It announces nothing: a product that no other reaction announces has no place for its constant rate. -/
theorem resol_position_invalid (rs : List (Rxn d K)) (inS : ℕ → Bool) (subDof row : ℕ) (h : ∀ r ∈ rs, ∃ q, r = .resol q) :
    resolConstPosition (rs.flatMap (Rxn.constConnectivities inS)) subDof row = none := by
  unfold resolConstPosition
  rw [getPosition_none, mem_announced]
  rintro ⟨x, hx, -⟩
  obtain ⟨r, hr, hx⟩ := List.mem_flatMap.1 hx
  obtain ⟨q, rfl⟩ := h r hr
  cases hx

/-- With an announced entry in the row, a re-solution does find the constant column, so it depends on other reactions; the trap mutation does not find it. -/
example : resolConstPosition [(1, some 0), (1, none)] 2 1 = some 1 ∧ tmConstPosition [(1, some 0), (1, none)] 2 4 1 = none := by decide

end ConstOther

namespace ConstRxn

variable (r : ConstRxn d)

/-- The values written through valid entries. -/
def written (L : List (Option (ℕ × ℕ) × K)) : List ((ℕ × ℕ) × K) := L.filterMap fun u => u.1.map fun e => (e, u.2)

/-- Clusters and moments as the network numbers them: the same cluster twice has the same moments, otherwise rows and columns are different; within a cluster different orders are different. -/
structure Numbered : Prop where
  same : r.r2 = some r.r1 → r.mom1 = r.mom2
  diff : r.r2 ≠ some r.r1 → ∀ α β m, r.row α = some m → r.col β ≠ some m
  own : ∀ α β m, r.row α = some m → r.row β = some m → α = β

/-- **C10 (constant reactions, partial)** With at most one moment axis every entry is one of the diagonal entries announced, and the reduced values are the diagonal of the full ones.
Missing: several axes (`reduced_off_diagonal`). -/
theorem constant_reduced_partial (h : r.Numbered) (hd : d ≤ 1) (R : ℕ × Option ℕ → K) (n : ℕ) :
    (∀ u ∈ r.computeReducedPartials R, ∃ e ∈ r.computeReducedConnectivity, u.1 = some e) ∧
    netOf (written (r.computeReducedPartials R)) (n, n) = netOf (r.computePartials R) (n, n) := by
  obtain ⟨r1, r2, m1, m2⟩ := r
  rcases r2 with _ | b
  · simp [computeReducedPartials, computePartials, written]
  by_cases hb : b = r1
  · subst hb
    have hm := h.same rfl
    simp only at hm
    subst hm
    interval_cases d
    · simp [computeReducedPartials, computePartials, written, computeReducedConnectivity, row, col, partial1, netOf, ProdRxn.entry, rateCol, rateAt, emit]
    · have hne : ∀ m, m1 0 = some m → m ≠ b := by
        rintro m hm rfl
        have := h.own none (some 0) m rfl hm
        cases this
      have f1 : List.finRange 1 = [0] := rfl
      rcases e : m1 0 with _ | m
      · obtain rfl : m1 = fun _ => none := funext fun i => by rw [Fin.eq_zero i]; exact e
        simp [computeReducedPartials, computePartials, written, computeReducedConnectivity, row, col, partial1, netOf, ProdRxn.entry, rateCol, rateAt, emit, f1]
      · have h1 := hne m e
        obtain rfl : m1 = fun _ => some m := funext fun i => by rw [Fin.eq_zero i]; exact e
        refine ⟨by simp [computeReducedPartials, computeReducedConnectivity, ProdRxn.entry, f1], ?_⟩
        have z1 : ¬ (b = n ∧ m = n) := fun z => h1 (z.2.trans z.1.symm)
        have z2 : ¬ (m = n ∧ b = n) := fun z => h1 (z.1.trans z.2.symm)
        simp [computeReducedPartials, computePartials, written, row, col, partial1, netOf, ProdRxn.entry, rateCol, rateAt, emit, f1, z1, z2]
  · have hr : (⟨r1, some b, m1, m2⟩ : ConstRxn d).computeReducedPartials R = [] := by simp [computeReducedPartials, hb]
    rw [hr]
    refine ⟨by simp, ?_⟩
    have hd' := h.diff (by simpa using hb)
    have one : ∀ α β, netOf (partial1 R ((⟨r1, some b, m1, m2⟩ : ConstRxn d).row α) ((⟨r1, some b, m1, m2⟩ : ConstRxn d).col β)) (n, n) = 0 := by
      intro α β
      unfold partial1
      rw [netOf_emit]
      rw [if_neg]
      intro he
      rcases ea : (⟨r1, some b, m1, m2⟩ : ConstRxn d).row α with _ | x
      · rw [ea] at he; cases he
      · rcases eb : (⟨r1, some b, m1, m2⟩ : ConstRxn d).col β with _ | y
        · rw [ea, eb] at he; cases he
        · rw [ea, eb] at he
          simp only [ProdRxn.entry, Option.some.injEq, Prod.mk.injEq] at he
          obtain ⟨rfl, rfl⟩ := he
          exact hd' α β _ ea eb
    have e : ∀ α β, netOf (partial1 R ((⟨r1, some b, m1, m2⟩ : ConstRxn d).row α) ((⟨r1, some b, m1, m2⟩ : ConstRxn d).col β)) (n, n) = 0 := one
    simp only [computePartials, netOf_append, netOf_finRange, e, Finset.sum_const_zero, add_zero, written, List.filterMap_nil, netOf_nil]

/-- A grouped cluster with itself. -/
def exSelf : ConstRxn 1 := ⟨0, some 0, fun _ => some 1, fun _ => some 1⟩

example : exSelf.Numbered ∧ netOf (written (exSelf.computeReducedPartials fun p => if p = (1, some 1) then (7 : ℚ) else 2)) (1, 1) = 7 := by
  refine ⟨⟨fun _ => rfl, fun h => absurd rfl h, ?_⟩, by decide +kernel⟩
  intro α β m h1 h2
  rcases α with _ | i <;> rcases β with _ | j <;> simp [row, exSelf] at h1 h2 ⊢ <;> omega

/-- **C10 (constant reactions, negation)** With two grouped axes an off-diagonal entry is written that the reduced connectivity does not contain; with one of two axes grouped, an entry that was never set is written. -/
theorem reduced_off_diagonal :
    (∃ r : ConstRxn 2, r.Numbered ∧ ∃ u ∈ r.computeReducedPartials (fun _ => (1 : ℚ)), ∃ e, u.1 = some e ∧ e ∉ r.computeReducedConnectivity) ∧
    ∃ r : ConstRxn 2, r.Numbered ∧ ∃ u ∈ r.computeReducedPartials (fun _ => (1 : ℚ)), u.1 = none := by
  refine ⟨⟨⟨0, some 0, fun i => some (1 + i.val), fun i => some (1 + i.val)⟩, ⟨fun _ => rfl, fun h => absurd rfl h, ?_⟩, (some (1, 2), 1), by decide +kernel, (1, 2), rfl, by decide⟩,
    ⟨0, some 0, fun i => if i = 0 then some 1 else none, fun i => if i = 0 then some 1 else none⟩, ⟨fun _ => rfl, fun h => absurd rfl h, ?_⟩, (none, 0), by decide +kernel, rfl⟩
  · intro α β m h1 h2
    rcases α with _ | i <;> rcases β with _ | j <;> simp [row] at h1 h2 ⊢ <;> omega
  · intro α β m h1 h2
    rcases α with _ | i <;> rcases β with _ | j <;> simp [row] at h1 h2 ⊢ <;> omega

end ConstRxn

end Xolotl.Network
