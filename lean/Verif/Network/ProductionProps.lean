import Verif.Network.ProductionLemmas

/-!
# C08, C09, C10 for production reactions
-/

set_option linter.unusedSectionVars false

namespace Xolotl.Network

namespace ProdRxn

variable {d : ℕ}

section
variable (r : ProdRxn d ℝ)

theorem uA_deriv (c : ℕ → ℝ) (col : ℕ) (α : Option (Fin d)) :
    HasDerivAt (fun x => r.uA (Function.update c col x) α)
      (if r.colA α = some col then 1 else 0) (c col) := by
  unfold uA
  cases h : r.colA α with
  | none => simpa using hasDerivAt_const (c col) (0 : ℝ)
  | some m =>
    by_cases hm : m = col
    · subst hm; simpa using hasDerivAt_id' (c m)
    · simpa [hm, Function.update_of_ne hm] using hasDerivAt_const (c col) (c m)

theorem uB_deriv (c : ℕ → ℝ) (col : ℕ) (α : Option (Fin d)) :
    HasDerivAt (fun x => r.uB (Function.update c col x) α)
      (if r.colB α = some col then 1 else 0) (c col) := by
  unfold uB
  cases h : r.colB α with
  | none => simpa using hasDerivAt_const (c col) (0 : ℝ)
  | some m =>
    by_cases hm : m = col
    · subst hm; simpa using hasDerivAt_id' (c m)
    · simpa [hm, Function.update_of_ne hm] using hasDerivAt_const (c col) (c m)

theorem fluxOf_deriv (c : ℕ → ℝ) (col : ℕ) (q : Slot) (γ : Option (Fin d)) :
    HasDerivAt (fun x => r.fluxOf (Function.update c col x) q γ)
      (r.rate * r.dFlux c q γ col) (c col) := by
  simp only [fluxOf_eq]
  have h := HasDerivAt.const_mul r.rate (HasDerivAt.fun_sum (u := Finset.univ) fun α _ =>
    HasDerivAt.fun_sum (u := Finset.univ) fun β _ =>
      ((r.uA_deriv c col α).const_mul (r.coefs α β q γ)).mul (r.uB_deriv c col β))
  refine h.congr_deriv ?_
  simp only [Function.update_eq_self]
  congr 1
  simp only [Finset.sum_add_distrib, dFlux]
  congr 1
  · refine Finset.sum_congr rfl fun α _ => ?_
    rw [pdA_eq]
    split_ifs with h
    · simp
    · simp
  · rw [Finset.sum_comm]
    refine Finset.sum_congr rfl fun β _ => ?_
    rw [pdB_eq]
    split_ifs with h
    · simp
    · simp

theorem eqTerm_deriv (c : ℕ → ℝ) (q : Slot) (s : ℝ) (row col : ℕ) :
    HasDerivAt (fun x => r.eqTerm (Function.update c col x) q s row)
      (r.jacTerm c q s row col) (c col) := by
  unfold eqTerm jacTerm
  refine HasDerivAt.add ?_ (HasDerivAt.fun_sum fun k _ => ?_)
  · split_ifs with h
    · exact ((r.fluxOf_deriv c col .r1 none).div_const _).const_mul s
    · exact hasDerivAt_const _ _
  · split_ifs with h
    · exact ((r.fluxOf_deriv c col q (some k)).div_const _).const_mul s
    · exact hasDerivAt_const _ _

/-- **C08** The Jacobian entries a production reaction accumulates are the exact partial derivatives of
the fluxes it accumulates: for every state, every degree of freedom and every equation, whatever coincidences
there are between the ids of the participants. The hypothesis says that a second product comes with a
first one. -/
theorem production_jacobian (hp : r.prod1 = none → r.prod2 = none) (c : ℕ → ℝ) (row col : ℕ) :
    HasDerivAt (fun x => netOf (r.computeFlux (Function.update c col x)) row)
      (netOf (r.computePartials c) (row, col)) (c col) := by
  simp only [computePartials_net, r.computeFlux_net hp]
  exact (((r.eqTerm_deriv c _ _ _ _).add (r.eqTerm_deriv c _ _ _ _)).add
    (r.eqTerm_deriv c _ _ _ _)).add (r.eqTerm_deriv c _ _ _ _)

end

/-- A grouped reaction `0 + 1 → 2` with one moment axis, moments 3 (first reactant) and 4 (product). -/
def witFlux : ProdRxn 1 ℝ where
  r1 := 0
  r2 := 1
  prod1 := some 2
  prod2 := none
  mom := fun q _ => match q with | .r1 => some 3 | .p1 => some 4 | _ => none
  vol := fun q => match q with | .r1 => 3 | .p1 => 3 | _ => 1
  rate := 2
  coefs := fun α β _ _ => if α = none ∧ β = none then 3 else 1

/-- Non-vacuity: a non-zero entry. -/
example : netOf (witFlux.computePartials fun _ => 1) (0, 1) = -8 / 3 := by
  rw [computePartials_net]
  simp [jacTerm, dFlux, pdA, pdB, witFlux, id, rowId, colA, colB, cm, Fintype.sum_option]
  norm_num

/-- A reaction whose only product is stored in the second product slot. -/
def witB1 : ProdRxn 0 ℝ where
  r1 := 0
  r2 := 1
  prod1 := none
  prod2 := some 2
  mom := fun _ i => i.elim0
  vol := fun q => match q with | .p2 => 2 | _ => 1
  rate := 1
  coefs := fun _ _ _ _ => 1

/-- **C08 fails without that hypothesis**: when only the second product exists the flux divides by the volume
of the (absent) first product while the Jacobian divides by the volume of the second. -/
theorem production_jacobian_second_product_only :
    ¬ ∀ (r : ProdRxn 0 ℝ) (c : ℕ → ℝ) (row col : ℕ),
      HasDerivAt (fun x => netOf (r.computeFlux (Function.update c col x)) row)
        (netOf (r.computePartials c) (row, col)) (c col) := by
  intro h
  have h1 := h witB1 (fun _ => 1) 2 0
  have e1 : (fun x => netOf (witB1.computeFlux (Function.update (fun _ => 1) 0 x)) 2) =
      fun x : ℝ => x := by
    funext x
    simp [computeFlux, productUpdates, witB1, netOf, fluxOf]
  have e2 : netOf (witB1.computePartials fun _ => 1) (2, 0) = 1 / 2 := by
    rw [computePartials_net]
    simp only [jacTerm, dFlux, Fintype.sum_option]
    simp [pdA, pdB, witB1, id, colA, colB]
  rw [e1, e2] at h1
  have := h1.unique (hasDerivAt_id (1 : ℝ))
  norm_num at this

/-! ### C09 -/

section
variable {K : Type*} [Field K] (r : ProdRxn d K)

theorem mem_emit {ι : Type*} {e : Option ι} {v : K} {u : ι × K} (h : u ∈ emit e v) :
    e = some u.1 := by
  cases e with
  | none => simp [emit] at h
  | some a => simp [emit] at h; simp [h]

theorem mem_emitIf {ι : Type*} {p : Bool} {e : Option ι} {v : K} {u : ι × K}
    (h : u ∈ emitIf p e v) : p = true ∧ e = some u.1 := by
  cases p with
  | false => simp [emitIf] at h
  | true => exact ⟨rfl, mem_emit (by simpa [emitIf] using h)⟩

theorem mem_linkBlock {row col : Option (Fin d) → Option ℕ} {γ α : Option (Fin d)} {u : ℕ × ℕ}
    (h : entry (row γ) (col α) = some u) : u ∈ linkBlock row col := by
  unfold linkBlock
  have h0 : u ∈ link (row γ) (col α) := by simp [link, h]
  match γ, α with
  | none, none => simp [h0]
  | none, some i =>
    refine List.mem_append_right _ (List.mem_flatMap.mpr ⟨i, List.mem_finRange i, ?_⟩)
    simp [h0]
  | some k, none =>
    refine List.mem_append_right _ (List.mem_flatMap.mpr ⟨k, List.mem_finRange k, ?_⟩)
    simp [h0]
  | some k, some i =>
    refine List.mem_append_right _ (List.mem_flatMap.mpr ⟨k, List.mem_finRange k, ?_⟩)
    refine List.mem_append_right _ (List.mem_flatMap.mpr ⟨i, List.mem_finRange i, h0⟩)

theorem mem_connA {q : Slot} {γ α : Option (Fin d)} {u : ℕ × ℕ}
    (h : entry (r.rowId q γ) (r.colA α) = some u) : u ∈ r.computeConnectivity := by
  have h0 := mem_linkBlock h
  unfold computeConnectivity
  cases q <;> simp [h0]

theorem mem_connB {q : Slot} {γ α : Option (Fin d)} {u : ℕ × ℕ}
    (h : entry (r.rowId q γ) (r.colB α) = some u) : u ∈ r.computeConnectivity := by
  have h0 := mem_linkBlock h
  unfold computeConnectivity
  cases q <;> simp [h0]

/-- **C09** Every entry a production reaction writes during a Jacobian evaluation is in the sparsity pattern it
declared. -/
theorem production_connectivity_covers (c : ℕ → K) :
    ∀ u ∈ r.computePartials c, u.1 ∈ r.computeConnectivity := by
  intro u hu
  have hz : ∀ (col : Option ℕ) (t : K), u ∈ r.pdZero col t →
      ∃ q, entry (r.rowId q none) col = some u.1 := by
    intro col t h
    simp only [pdZero, List.mem_append] at h
    rcases h with ((h | h) | h) | h
    · exact ⟨.r1, mem_emit h⟩
    · exact ⟨.r2, mem_emit h⟩
    · exact ⟨.p1, mem_emit h⟩
    · exact ⟨.p2, mem_emit h⟩
  have hm : ∀ q k s, u ∈ r.pdMoment c q k s → u.1 ∈ r.computeConnectivity := by
    intro q k s h
    simp only [pdMoment, List.mem_append, List.mem_flatMap] at h
    rcases h with (h | h) | ⟨i, -, h | h⟩
    · exact r.mem_connA (mem_emit h)
    · exact r.mem_connB (mem_emit h)
    · exact r.mem_connA (mem_emit h)
    · exact r.mem_connB (mem_emit h)
  simp only [computePartials, List.mem_append, List.mem_flatMap] at hu
  rcases hu with ((((h | h) | ⟨i, -, h | h⟩) | ⟨k, -, h | h⟩) | ⟨k, -, h⟩) | ⟨k, -, h⟩
  · obtain ⟨q, h⟩ := hz _ _ h; exact r.mem_connA h
  · obtain ⟨q, h⟩ := hz _ _ h; exact r.mem_connB h
  · obtain ⟨q, h⟩ := hz _ _ h; exact r.mem_connA h
  · obtain ⟨q, h⟩ := hz _ _ h; exact r.mem_connB h
  all_goals exact hm _ _ _ h

/-! ### C10 -/

/-- Distinct axes of one cluster have distinct moment ids (`momentIds` are allocated one by one). -/
def MomInj (r : ProdRxn d K) : Prop :=
  ∀ q, ∀ k i : Fin d, ∀ m, r.mom q k = some m → r.mom q i = some m → k = i

theorem redMoment_net (c : ℕ → K) (q : Slot) (k : Fin d) (s : K → K) (gA gB : Fin d → Bool) (n : ℕ)
    (hA : ∀ i, r.rowId q (some k) = some n → (gA i = true ↔ r.colA (some i) = some n) ∨
      r.colA (some i) = none)
    (hB : ∀ i, r.rowId q (some k) = some n → (gB i = true ↔ r.colB (some i) = some n) ∨
      r.colB (some i) = none)
    (h1 : r.rowId q (some k) ≠ r.colA none) (h2 : r.rowId q (some k) ≠ r.colB none) :
    netOf (r.redMoment c q k s gA gB) (n, n) = netOf (r.pdMoment c q k s) (n, n) := by
  by_cases h : r.rowId q (some k) = some n
  · simp only [redMoment, pdMoment, netOf_append, netOf_finRange, netOf_emit, netOf_emitIf,
      entry_eq, h, true_and]
    rw [if_neg (fun e => h1 (h.trans e.symm)), if_neg (fun e => h2 (h.trans e.symm)), zero_add,
      zero_add]
    refine Finset.sum_congr rfl fun i _ => ?_
    congr 1
    · refine if_congr ?_ rfl rfl
      rcases hA i h with e | e
      · simp [e]
      · simp [e]
    · refine if_congr ?_ rfl rfl
      rcases hB i h with e | e
      · simp [e]
      · simp [e]
  · simp only [redMoment, pdMoment, netOf_append, netOf_finRange, netOf_emit, netOf_emitIf,
      entry_eq, h, false_and, and_false, if_false, Finset.sum_const_zero, add_zero]

/-- Moment unknowns are different from the cluster unknowns of the participants. -/
def MomDisj (r : ProdRxn d K) : Prop :=
  ∀ q q', ∀ k : Fin d, ∀ m, r.mom q k = some m → r.id q' ≠ some m

theorem pdZero_moment (hd : r.MomDisj) (q : Slot) (i : Fin d) (t : K) (n : ℕ) :
    netOf (r.pdZero (r.mom q i) t) (n, n) = 0 := by
  rw [pdZero_net]
  by_cases h : r.mom q i = some n
  · have := fun q' => hd q q' i n h
    simp [this]
  · rw [if_neg h]

/-- **C10** The reduced Jacobian of a production reaction is the diagonal part of the full one. -/
theorem production_reduced_eq_diagonal (hi : r.MomInj) (hd : r.MomDisj) (c : ℕ → K) (n : ℕ) :
    netOf (r.computeReducedPartials c) (n, n) = netOf (r.computePartials c) (n, n) := by
  have hA : ∀ i t, netOf (r.pdZero (r.colA (some i)) t) (n, n) = 0 :=
    fun i t => r.pdZero_moment hd .r1 i t n
  have hB : ∀ i t, netOf (r.pdZero (r.colB (some i)) t) (n, n) = 0 :=
    fun i t => r.pdZero_moment hd .r2 i t n
  have hrow : ∀ q k m, r.rowId q (some k) = some m → r.mom q k = some m := by
    intro q k m h
    simp only [rowId] at h
    obtain ⟨x, -, hx⟩ := Option.bind_eq_some_iff.mp h
    exact hx
  have hcA : ∀ q k, r.rowId q (some k) ≠ r.colA none := fun q k e =>
    hd q .r1 k r.r1 (hrow _ _ _ e) rfl
  have hcB : ∀ q k, r.rowId q (some k) ≠ r.colB none := fun q k e =>
    hd q .r2 k r.r2 (hrow _ _ _ e) rfl
  have hm : ∀ q k s gA gB,
      (∀ i, r.mom q k = some n → (gA i = true ↔ r.mom .r1 i = some n)) →
      (∀ i, r.mom q k = some n → (gB i = true ↔ r.mom .r2 i = some n)) →
      netOf (r.redMoment c q k s gA gB) (n, n) = netOf (r.pdMoment c q k s) (n, n) :=
    fun q k s gA gB a b => r.redMoment_net c q k s gA gB n
      (fun i h => Or.inl (a i (hrow _ _ _ h))) (fun i h => Or.inl (b i (hrow _ _ _ h)))
      (hcA q k) (hcB q k)
  have hself : ∀ q (k i : Fin d), r.mom q k = some n →
      (decide (k = i) = true ↔ r.mom q i = some n) := fun q k i h =>
    ⟨fun e => (of_decide_eq_true e) ▸ h, fun e => decide_eq_true (hi q k i n h e)⟩
  have heq : ∀ q q' (k i : Fin d), r.mom q k = some n →
      (eqId (r.mom q k) (r.mom q' i) = true ↔ r.mom q' i = some n) := fun q q' k i h => by
    simp only [eqId, decide_eq_true_eq, h]
    exact eq_comm
  have h0 : ∀ q (x : ℕ) (v : K),
      netOf (emitIf (eqId (r.id q) (some x)) (entry (r.id q) (some x)) v) (n, n) =
      netOf (emit (entry (r.id q) (some x)) v) (n, n) := by
    intro q x v
    rw [netOf_emitIf, netOf_emit]
    refine if_congr ⟨fun h => h.2, fun h => ⟨?_, h⟩⟩ rfl rfl
    obtain ⟨h1, h2⟩ := (entry_eq _ _ _ _).mp h
    simp only [eqId, decide_eq_true_eq]; rw [h1, h2]
  have h0' : ∀ v : K,
      netOf (emitIf (eqId (r.id .r2) (r.id .r1)) (entry (r.id .r1) (r.colB none)) v) (n, n) =
      netOf (emit (entry (r.id .r1) (r.colB none)) v) (n, n) := by
    intro v
    rw [netOf_emitIf, netOf_emit]
    refine if_congr ⟨fun h => h.2, fun h => ⟨?_, h⟩⟩ rfl rfl
    obtain ⟨h1, h2⟩ := (entry_eq _ _ _ _).mp h
    simp only [eqId, decide_eq_true_eq]
    exact (show r.id .r2 = some n from h2).trans h1.symm
  have eA : r.colA none = some r.r1 := rfl
  have eB : r.colB none = some r.r2 := rfl
  have e1 : r.id .r1 = some r.r1 := rfl
  have e2 : r.id .r2 = some r.r2 := rfl
  simp only [computeReducedPartials, computePartials, netOf_append, netOf_finRange, hA, hB,
    add_zero, Finset.sum_const_zero, h0']
  simp only [pdZero, netOf_append]
  rw [eA, eB]
  have h0r1 := fun q v => h0 q r.r1 v
  have h0r2 := fun q v => h0 q r.r2 v
  rw [← e1] at h0r1
  rw [← e2] at h0r2
  rw [← e1, ← e2]
  simp only [h0r1, h0r2]
  rw [Finset.sum_congr rfl fun k _ => by
    rw [hm .r1 k _ _ _ (fun i h => hself _ _ _ h) (fun i h => heq _ _ _ _ h),
      hm .r2 k _ _ _ (fun i h => heq _ _ _ _ h) (fun i h => hself _ _ _ h)],
    Finset.sum_congr rfl fun k _ => hm .p1 k _ _ _ (fun i h => heq _ _ _ _ h)
      (fun i h => heq _ _ _ _ h),
    Finset.sum_congr rfl fun k _ => hm .p2 k _ _ _ (fun i h => heq _ _ _ _ h)
      (fun i h => heq _ _ _ _ h)]
  ring

/-- **C10/C09** Every entry written by the reduced Jacobian is on the diagonal and belongs to the reduced sparsity
pattern. -/
theorem production_reduced_covers (c : ℕ → K) :
    ∀ u ∈ r.computeReducedPartials c,
      u.1.1 = u.1.2 ∧ u.1 ∈ r.computeReducedConnectivity := by
  have key : ∀ x, (r.id .r1 = some x ∨ r.id .r2 = some x ∨ (∃ i, r.mom .r1 i = some x) ∨
      ∃ i, r.mom .r2 i = some x) → (x, x) ∈ r.computeReducedConnectivity := by
    intro x hx
    have hl : (x, x) ∈ link (some x) (some x) := by simp [link, entry]
    unfold computeReducedConnectivity
    simp only [List.mem_append, List.mem_flatMap]
    rcases hx with h | h | ⟨i, h⟩ | ⟨i, h⟩
    · have h' : r.colA none = some x := h
      simp only [h, h', hl, true_or]
    · have h' : r.colB none = some x := h
      simp only [h, h', hl, true_or, or_true]
    · refine Or.inl (Or.inl (Or.inl (Or.inl (Or.inr ⟨i, List.mem_finRange i, ?_⟩))))
      rw [h]; exact hl
    · refine Or.inl (Or.inl (Or.inr ⟨i, List.mem_finRange i, ?_⟩))
      rw [h]; exact hl
  have fin : ∀ (row col : Option ℕ) (u : (ℕ × ℕ) × K), entry row col = some u.1 → row = col →
      (r.id .r1 = col ∨ r.id .r2 = col ∨ (∃ i, r.mom .r1 i = col) ∨ ∃ i, r.mom .r2 i = col) →
      u.1.1 = u.1.2 ∧ u.1 ∈ r.computeReducedConnectivity := by
    intro row col u h1 h2 h3
    obtain ⟨⟨a, b⟩, v⟩ := u
    obtain ⟨ha, hb⟩ := (entry_eq _ _ _ _).mp h1
    have hab : a = b := by
      have := ha.symm.trans (h2.trans hb); simpa using this
    subst hab
    exact ⟨rfl, key a (by rw [hb] at h3; exact h3)⟩
  intro u hu
  have hrow : ∀ q k, (∃ m, r.rowId q (some k) = some m) → r.rowId q (some k) = r.mom q k := by
    rintro q k ⟨m, h⟩
    obtain ⟨x, hx, hm⟩ := Option.bind_eq_some_iff.mp (show (r.id q).bind _ = _ from h)
    rw [h, hm]
  have hmom : ∀ q k s gA gB, (∀ i, gA i = true → r.mom q k = r.mom .r1 i) →
      (∀ i, gB i = true → r.mom q k = r.mom .r2 i) → u ∈ r.redMoment c q k s gA gB →
      u.1.1 = u.1.2 ∧ u.1 ∈ r.computeReducedConnectivity := by
    intro q k s gA gB h1 h2 h
    simp only [redMoment, List.mem_append, List.mem_flatMap] at h
    obtain ⟨i, -, h | h⟩ := h
    · obtain ⟨g, e⟩ := mem_emitIf h
      obtain ⟨ha, hb⟩ := (entry_eq _ _ u.1.1 u.1.2).mp e
      exact fin _ _ u e ((hrow q k ⟨_, ha⟩).trans (h1 i g)) (Or.inr (Or.inr (Or.inl ⟨i, rfl⟩)))
    · obtain ⟨g, e⟩ := mem_emitIf h
      obtain ⟨ha, hb⟩ := (entry_eq _ _ u.1.1 u.1.2).mp e
      exact fin _ _ u e ((hrow q k ⟨_, ha⟩).trans (h2 i g)) (Or.inr (Or.inr (Or.inr ⟨i, rfl⟩)))
  have heq : ∀ a b, eqId a b = true → a = b := fun a b h => of_decide_eq_true h
  simp only [computeReducedPartials, List.mem_append, List.mem_flatMap] at hu
  rcases hu with ((((((((((h | h) | h) | h) | h) | h) | h) | h) | ⟨k, -, h | h⟩) | ⟨k, -, h⟩) |
    ⟨k, -, h⟩)
  · exact fin _ _ u (mem_emit h) rfl (Or.inl rfl)
  · exact fin _ _ u (mem_emitIf h).2 (heq _ _ (mem_emitIf h).1) (Or.inl rfl)
  · exact fin _ _ u (mem_emitIf h).2 (heq _ _ (mem_emitIf h).1) (Or.inl rfl)
  · exact fin _ _ u (mem_emitIf h).2 (heq _ _ (mem_emitIf h).1) (Or.inl rfl)
  · exact fin _ _ u (mem_emitIf h).2 (heq _ _ (mem_emitIf h).1).symm (Or.inr (Or.inl rfl))
  · exact fin _ _ u (mem_emit h) rfl (Or.inr (Or.inl rfl))
  · exact fin _ _ u (mem_emitIf h).2 (heq _ _ (mem_emitIf h).1) (Or.inr (Or.inl rfl))
  · exact fin _ _ u (mem_emitIf h).2 (heq _ _ (mem_emitIf h).1) (Or.inr (Or.inl rfl))
  · exact hmom _ _ _ _ _ (fun i g => by rw [of_decide_eq_true g]) (fun i g => heq _ _ g) h
  · exact hmom _ _ _ _ _ (fun i g => heq _ _ g) (fun i g => by rw [of_decide_eq_true g]) h
  · exact hmom _ _ _ _ _ (fun i g => heq _ _ g) (fun i g => heq _ _ g) h
  · exact hmom _ _ _ _ _ (fun i g => heq _ _ g) (fun i g => heq _ _ g) h

/-- Non-vacuity of `MomInj` and `MomDisj`. -/
example : witFlux.MomInj ∧ witFlux.MomDisj := by
  constructor
  · intro q k i m _ _; exact Subsingleton.elim _ _
  · intro q q' k m h1 h2
    cases q <;> cases q' <;> simp [witFlux, id] at h1 h2 <;> omega

end

end ProdRxn

end Xolotl.Network
