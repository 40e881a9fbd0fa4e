import Verif.Network.Reduced
import Verif.Network.PatternProps
import Verif.Util.TokenizerProps

/-!
# C98: with `-snes_mf_operator` the matrix is the diagonal of the Jacobian
-/

set_option linter.unusedSectionVars false

namespace Xolotl.Network

variable {d : ℕ} {K : Type*} [Field K] [LinearOrder K] [IsStrictOrderedRing K]

/-! ### One reaction -/

/-- What the reduced derivatives of a dissociation leave out of the diagonal entry `n`: the moments of the second product on the axes on which the first product is not grouped. -/
def DissRxn.missing (r : DissRxn d K) (n : ℕ) : K :=
  ∑ k, ∑ i, if r.mom .p1 k = none ∧ r.mom .p2 k = some n ∧ r.mom .r i = some n then r.rate / r.vol .p2 * r.coefs (some i) .p2 (some k) else 0

/-- **C98** The diagonal of the derivatives of a dissociation is what the reduced derivatives hold and what they leave out, for every coincidence of clusters. -/
theorem DissRxn.reduced_deficit (r : DissRxn d K) (hi : r.DMomInj) (hd : r.DMomDisj) (n : ℕ) :
    netOf r.computePartials (n, n) = netOf r.computeReducedPartials (some (n, n)) + r.missing n := by
  have h0 : ∀ q slot (f : K → K), netOf (r.pdRow q slot none f) (n, n) =
      if r.id q = n ∧ r.id .r = n then f (r.rate / r.vol q * r.coefs none slot none) else 0 := by
    intro q slot f
    simp only [pdRow, netOf_append, netOf_emit, netOf_finRange, ProdRxn.entry_eq, dofOf,
      Option.some.injEq]
    rw [Finset.sum_eq_zero, add_zero]
    intro i _
    exact if_neg fun h => hd .r q i n h.2 h.1
  have h1 : ∀ q slot k (f : K → K), netOf (r.pdRow q slot (some k) f) (n, n) =
      ∑ i, if r.mom q k = some n ∧ r.mom .r i = some n then
        f (r.rate / r.vol q * r.coefs (some i) slot (some k)) else 0 := by
    intro q slot k f
    simp only [pdRow, netOf_append, netOf_emit, netOf_finRange, ProdRxn.entry_eq, dofOf,
      Option.some.injEq]
    rw [if_neg fun h => hd q .r k n h.1 h.2, zero_add]
  have hite : ∀ (b : Bool) (l : List (Option (ℕ × ℕ) × K)),
      netOf (if b = true then l else []) (some (n, n)) = if b = true then
        netOf l (some (n, n)) else 0 := by
    intro b l; cases b <;> simp [netOf_nil]
  simp only [computeReducedPartials, computePartials, netOf_append, netOf_finRange, h0, h1,
    rawEmitIf_net, hite, ProdRxn.entry_eq, dofOf, decide_eq_true_eq, Option.some.injEq, true_and, missing]
  have e1 : ∀ k, (if (r.mom .r k).isSome = true then
      ∑ i, if k = i ∧ r.mom .r k = some n ∧ r.mom .r i = some n then
        -(r.rate / r.vol .r * r.coefs (some i) .r (some k)) else 0 else 0) =
      ∑ i, if r.mom .r k = some n ∧ r.mom .r i = some n then
        -(r.rate / r.vol .r * r.coefs (some i) .r (some k)) else 0 := by
    intro k
    by_cases hk : r.mom .r k = some n
    · rw [if_pos (by simp [hk])]
      refine Finset.sum_congr rfl fun i _ => if_congr ?_ rfl rfl
      exact ⟨fun h => h.2, fun h => ⟨hi k i n h.1 h.2, h⟩⟩
    · simp [hk]
  have e2 : ∀ q k (v : Fin d → K),
      (if (r.mom .p1 k).isSome = true then ∑ i, if r.mom q k = r.mom .r i ∧ r.mom q k = some n ∧
        r.mom .r i = some n then v i else 0 else 0) =
      (∑ i, if r.mom q k = some n ∧ r.mom .r i = some n then v i else 0) - ∑ i, if r.mom .p1 k = none ∧ r.mom q k = some n ∧ r.mom .r i = some n then v i else 0 := by
    intro q k v
    cases hp : r.mom .p1 k with
    | none => simp
    | some x =>
      simp only [Option.isSome_some, if_true, reduceCtorEq, false_and, if_false, Finset.sum_const_zero, sub_zero]
      refine Finset.sum_congr rfl fun i _ => if_congr ?_ rfl rfl
      exact ⟨fun h => h.2, fun h => ⟨h.1.trans h.2.symm, h⟩⟩
  have e3 : ∀ k (v : Fin d → K), (∑ i, if r.mom .p1 k = none ∧ r.mom .p1 k = some n ∧ r.mom .r i = some n then v i else 0) = 0 := fun k v =>
    Finset.sum_eq_zero fun i _ => if_neg fun h => by simp [h.1] at h
  have z : ∀ q, (r.id q = r.id .r ∧ r.id q = n ∧ r.id .r = n) ↔ (r.id q = n ∧ r.id .r = n) :=
    fun q => ⟨fun h => h.2, fun h => ⟨h.1.trans h.2.symm, h⟩⟩
  simp only [e1, z, e2, e3, sub_zero, Finset.sum_add_distrib, Finset.sum_sub_distrib]
  ring

/-- No update of the reduced derivatives goes through an element that was never set: on an axis on which only the first product is grouped, the cluster that comes apart is grouped on all axes. -/
def DissRxn.Mapped (r : DissRxn d K) : Prop := ∀ k, (r.mom .p1 k).isSome → r.mom .p2 k = none → ∀ i, r.mom .r i ≠ none

theorem DissRxn.mapped_iff (r : DissRxn d K) : r.Mapped ↔ ∀ u ∈ r.computeReducedPartials, u.1 ≠ none := by
  constructor
  · intro h u hu
    obtain ⟨n, e⟩ := r.dissociation_reduced_mapped h u hu
    simp [e]
  · intro h k h1 h2 i h3
    refine h (none, r.rate / r.vol .p2 * r.coefs (some i) .p2 (some k)) ?_ rfl
    unfold computeReducedPartials
    refine List.mem_append_right _ (List.mem_flatMap.mpr ⟨k, List.mem_finRange k, List.mem_append_right _ ?_⟩)
    rw [if_pos h1]
    refine List.mem_flatMap.mpr ⟨i, List.mem_finRange i, ?_⟩
    rw [h2, h3]
    simp [rawEmitIf, ProdRxn.entry]

/-- What the numbering of the moments gives. -/
def Rxn.Numbered : Rxn d K → Prop
  | .prod r => r.MomInj ∧ r.MomDisj
  | .diss r => r.DMomInj ∧ r.DMomDisj
  | .resol r => r.DMomInj ∧ r.DMomDisj
  | .tm r => r.heV ≠ r.he ∧ r.i ≠ r.he
  | .nuc _ => True
  | .sink _ => True

/-- Every update has an entry. -/
def Rxn.Mapped : Rxn d K → Prop
  | .diss r => r.Mapped
  | .resol r => r.Mapped
  | _ => True

/-- What a reaction leaves out. -/
def Rxn.missing (n : ℕ) : Rxn d K → K
  | .diss r => r.missing n
  | .resol r => r.missing n
  | _ => 0

/-- Nothing is left out: a second product that is the cluster itself is grouped only where the first product is. -/
def Rxn.Whole : Rxn d K → Prop
  | .diss r => r.GuardOK
  | .resol r => r.GuardOK
  | _ => True

theorem DissRxn.missing_zero (r : DissRxn d K) (h : r.GuardOK) (n : ℕ) : r.missing n = 0 := by
  refine Finset.sum_eq_zero fun k _ => Finset.sum_eq_zero fun i _ => if_neg fun ⟨h1, h2, h3⟩ => ?_
  have := h k n h2 ⟨i, h3⟩
  simp [h1] at this

theorem Rxn.missing_zero {r : Rxn d K} (h : r.Whole) (n : ℕ) : r.missing n = 0 := by
  cases r with
  | diss r => exact r.missing_zero h n
  | resol r => exact r.missing_zero h n
  | _ => rfl

theorem netOf_some {ι : Type*} [DecidableEq ι] (l : List (ι × K)) (n : ι) : netOf (l.map fun u => (some u.1, u.2)) (some n) = netOf l n := by
  induction l with
  | nil => rfl
  | cons u l ih =>
    rw [List.map_cons, netOf_cons, netOf_cons, ih]
    simp

/-- **C98** The diagonal entries of a reaction. -/
theorem Rxn.reduced_net {r : Rxn d K} (h : r.Numbered) (t : TmData K) (c : ℕ → K) (n : ℕ) :
    netOf (r.partials t c) (n, n) = netOf (r.reducedPartials t c) (some (n, n)) + r.missing n := by
  cases r with
  | prod r =>
    simp only [reducedPartials, partials, missing, add_zero, netOf_some]
    exact (r.production_reduced_eq_diagonal h.1 h.2 c n).symm
  | diss r => exact r.reduced_deficit h.1 h.2 n
  | resol r => exact r.reduced_deficit h.1 h.2 n
  | tm r =>
    simp only [reducedPartials, partials, missing, add_zero, netOf_some]
    exact (r.trapMutation_reduced_eq_diagonal t h.1 h.2 n).symm
  | nuc r =>
    simp only [reducedPartials, partials, missing, add_zero, netOf_some]
    exact (r.nucleation_reduced_eq_diagonal c n).symm
  | sink r => simp only [reducedPartials, partials, missing, add_zero, netOf_some]

theorem link_diag {a b : Option ℕ} (h : a = b) : ∀ u ∈ ProdRxn.link a b, u.1 = u.2 := by
  intro u hu
  subst h
  cases a <;> simp [ProdRxn.link, ProdRxn.entry] at hu
  simp [hu]

theorem DissRxn.redLinks_diag (r : DissRxn d K) (q : DSlot) : ∀ u ∈ r.redLinks q, u.1 = u.2 := by
  intro u hu
  simp only [redLinks, List.mem_append, List.mem_flatMap] at hu
  rcases hu with hu | ⟨i, -, j, -, hu⟩
  · split at hu
    · rename_i h
      simp at hu
      simp [hu, h]
    · simp at hu
  · split at hu
    · rename_i h
      simp only [Bool.and_eq_true, decide_eq_true_eq] at h
      exact link_diag h.2 u hu
    · simp at hu

theorem DissRxn.reducedConnectivity_diag (r : DissRxn d K) : ∀ u ∈ r.computeReducedConnectivity, u.1 = u.2 := by
  intro u hu
  simp only [computeReducedConnectivity, List.mem_append, List.mem_flatMap] at hu
  rcases hu with ((hu | ⟨i, -, hu⟩) | hu) | hu
  · simp at hu
    simp [hu]
  · exact link_diag rfl u hu
  · exact r.redLinks_diag _ u hu
  · exact r.redLinks_diag _ u hu

theorem ProdRxn.redLinkBlock_diag (r : ProdRxn d K) (q : Slot) (col : Option (Fin d) → Option ℕ) : ∀ u ∈ r.redLinkBlock q col, u.1 = u.2 := by
  intro u hu
  simp only [redLinkBlock, List.mem_append, List.mem_flatMap] at hu
  rcases hu with hu | ⟨i, -, j, -, hu⟩
  · split at hu
    · rename_i h
      exact link_diag (of_decide_eq_true h) u hu
    · simp at hu
  · split at hu
    · rename_i h
      exact link_diag (of_decide_eq_true h) u hu
    · simp at hu

/-- **C98** A reaction asks for diagonal entries only. -/
theorem Rxn.reducedConnectivity_diag (r : Rxn d K) : ∀ u ∈ r.reducedConnectivity, u.1 = u.2 := by
  intro u hu
  cases r with
  | prod r =>
    simp only [reducedConnectivity, ProdRxn.computeReducedConnectivity, List.mem_append, List.mem_flatMap] at hu
    rcases hu with ((((hu | ⟨i, -, hu⟩) | hu) | ⟨i, -, hu⟩) | hu | hu) | hu | hu
    · exact link_diag rfl u hu
    · exact link_diag rfl u hu
    · exact link_diag rfl u hu
    · exact link_diag rfl u hu
    all_goals exact r.redLinkBlock_diag _ _ u hu
  | diss r => exact r.reducedConnectivity_diag u hu
  | resol r => exact r.reducedConnectivity_diag u hu
  | tm r => simp [reducedConnectivity, TmRxn.computeReducedConnectivity] at hu; simp [hu]
  | nuc r =>
    simp only [reducedConnectivity, NucRxn.computeReducedConnectivity, List.mem_append, List.mem_singleton] at hu
    rcases hu with rfl | hu
    · rfl
    · split at hu
      · rename_i h
        simp at hu
        simp [hu, h]
      · simp at hu
  | sink r => simp [reducedConnectivity, SinkRxn.computeConnectivity] at hu; simp [hu]

theorem Rxn.reduced_covers {r : Rxn d K} (t : TmData K) (c : ℕ → K) : ∀ u ∈ r.reducedPartials t c, ∀ e, u.1 = some e → e ∈ r.reducedConnectivity := by
  intro u hu e he
  cases r with
  | prod r =>
    obtain ⟨v, hv, rfl⟩ := List.mem_map.mp hu
    obtain rfl := Option.some.inj he
    exact (r.production_reduced_covers c v hv).2
  | diss r => exact r.dissociation_reduced_covers u hu e he
  | resol r => exact r.dissociation_reduced_covers u hu e he
  | tm r =>
    obtain ⟨v, hv, rfl⟩ := List.mem_map.mp hu
    obtain rfl := Option.some.inj he
    exact (r.trapMutation_connectivity_covers t).2 v hv
  | nuc r =>
    obtain ⟨v, hv, rfl⟩ := List.mem_map.mp hu
    obtain rfl := Option.some.inj he
    exact (r.nucleation_connectivity_covers c).2 v hv
  | sink r =>
    obtain ⟨v, hv, rfl⟩ := List.mem_map.mp hu
    obtain rfl := Option.some.inj he
    simp only [SinkRxn.computePartials, List.mem_singleton] at hv
    simp [hv, reducedConnectivity, SinkRxn.computeConnectivity]

/-- The requests and the updates stay within the degrees of freedom. -/
theorem Rxn.Within.reduced_lt {D : ℕ} {r : Rxn d K} (h : r.Within D) : ∀ u ∈ r.reducedConnectivity, u.1 < D := by
  intro u hu
  have hl : ∀ (a : Option ℕ), (∀ m, a = some m → m < D) → ∀ v ∈ ProdRxn.link a a, v.1 < D := fun a ha v hv => (link_lt ha ha v hv).1
  have hd : ∀ r : DissRxn d K, r.Within D → u ∈ r.computeReducedConnectivity → u.1 < D := by
    intro r h hu
    have hq : ∀ q, u ∈ r.redLinks q → u.1 < D := by
      intro q hu
      simp only [DissRxn.redLinks, List.mem_append, List.mem_flatMap] at hu
      rcases hu with hu | ⟨i, -, j, -, hu⟩
      · split at hu <;> simp at hu
        rw [hu]
        exact h.1 q
      · split at hu
        · exact (link_lt (fun m e => h.2 _ _ m e) (fun m e => h.2 _ _ m e) u hu).1
        · simp at hu
    simp only [DissRxn.computeReducedConnectivity, List.mem_append, List.mem_flatMap] at hu
    rcases hu with ((hu | ⟨i, -, hu⟩) | hu) | hu
    · simp at hu
      rw [hu]
      exact h.1 .r
    · exact hl _ (fun m e => h.2 _ _ m e) u hu
    · exact hq _ hu
    · exact hq _ hu
  cases r with
  | prod r =>
    have h : r.Within D := h
    have hq : ∀ q (col : Option (Fin d) → Option ℕ), u ∈ r.redLinkBlock q col → u.1 < D := by
      intro q col hu
      have hrow : ∀ γ m, r.rowId q γ = some m → m < D := fun γ m e => h.row e
      simp only [ProdRxn.redLinkBlock, List.mem_append, List.mem_flatMap] at hu
      rcases hu with hu | ⟨i, -, j, -, hu⟩
      · split at hu
        · rename_i e
          have e := of_decide_eq_true e
          rw [← e] at hu
          exact hl _ (fun m e' => hrow none m e') u hu
        · simp at hu
      · split at hu
        · rename_i e
          have e := of_decide_eq_true e
          rw [← e] at hu
          exact hl _ (fun m e' => hrow (some i) m e') u hu
        · simp at hu
    simp only [reducedConnectivity, ProdRxn.computeReducedConnectivity, List.mem_append, List.mem_flatMap] at hu
    rcases hu with ((((hu | ⟨i, -, hu⟩) | hu) | ⟨i, -, hu⟩) | hu | hu) | hu | hu
    · exact hl _ (fun m e => h.colA (α := none) e) u hu
    · exact hl _ (fun m e => h.2.2.2.2 _ _ m e) u hu
    · exact hl _ (fun m e => h.colB (α := none) e) u hu
    · exact hl _ (fun m e => h.2.2.2.2 _ _ m e) u hu
    all_goals exact hq _ _ hu
  | diss r => exact hd r h hu
  | resol r => exact hd r h hu
  | tm r =>
    simp [reducedConnectivity, TmRxn.computeReducedConnectivity] at hu
    rw [hu]
    exact h.1
  | nuc r =>
    simp only [reducedConnectivity, NucRxn.computeReducedConnectivity, List.mem_append, List.mem_singleton] at hu
    rcases hu with rfl | hu
    · exact h.1
    · split at hu <;> simp at hu
      rw [hu]
      exact h.2
  | sink r =>
    simp [reducedConnectivity, SinkRxn.computeConnectivity] at hu
    rw [hu]
    exact h

/-! ### The matrix of a network -/

namespace Reduced

open Xolotl.Network.Conn Xolotl.Network.Pattern

variable {D : ℕ}

/-- **C98** The derivatives are reduced if and only if the option is one of the words of the arguments. -/
theorem chosen_iff (args : List Char) : chosen args = true ↔ "-snes_mf_operator".toList ∈ Util.Tokenizer.tokens args := by
  simp only [chosen, List.any_eq_true, decide_eq_true_eq, exists_eq_right]

/-- Its place among the other words does not matter. -/
theorem chosen_append (a b : List Char) : chosen (a ++ ' ' :: b) = (chosen a || chosen b) := by
  simp [chosen, Util.Tokenizer.tokens_append]

theorem mem_requests {rxns : List (Rxn d K)} {r c : ℕ} : (some r, some c) ∈ (requests true rxns).flatten ↔ (r, c) ∈ rxns.flatMap Rxn.reducedConnectivity := by
  simp only [requests, if_true, List.mem_flatten, List.mem_map, List.mem_flatMap]
  constructor
  · rintro ⟨_, ⟨x, hx, rfl⟩, h⟩
    obtain ⟨u, hu, e⟩ := List.mem_map.mp h
    simp only [Prod.mk.injEq, Option.some.injEq] at e
    obtain ⟨rfl, rfl⟩ := e
    exact ⟨x, hx, hu⟩
  · rintro ⟨x, hx, h⟩
    exact ⟨_, ⟨x, hx, rfl⟩, List.mem_map.mpr ⟨_, h, rfl⟩⟩

theorem within_rows {rxns : List (Rxn d K)} (h : ∀ r ∈ rxns, r.Within D) : ∀ r c, (some r, some c) ∈ (requests true rxns).flatten → r < D := fun r c hm => by
  obtain ⟨x, hx, hu⟩ := List.mem_flatMap.mp (mem_requests.mp hm)
  exact (h x hx).reduced_lt _ hu

/-- **C98** The coordinates are the diagonal and nothing else, each once and in order, whatever the schedule of the set up was. -/
theorem coo_diagonal {rxns : List (Rxn d K)} (h : ∀ r ∈ rxns, r.Within D) (B : Build D (requests true rxns)) : B.coo = (List.range (D + 1)).map (fun i => (i, i)) ∧ B.nPartials = D + 1 := by
  have hrow := within_rows h
  have h1 : B.coo = (List.range (D + 1)).map (fun i => (i, i)) := by
    rw [Build.coo, B.pairs_eq, List.range_succ, List.map_append, List.map_singleton, List.map_eq_flatMap]
    congr 1
    refine List.flatMap_congr fun i hi => ?_
    have hi' : i < B.rows.length := by rw [B.length]; exact List.mem_range.mp hi
    rw [List.getElem?_eq_getElem hi', Option.getD_some]
    obtain ⟨n, s⟩ := B.row_spec hrow hi'
    have hs : ∀ c, c ∈ B.rows[i] ↔ c = i := fun c => by
      rw [s c]
      constructor
      · rintro (e | e)
        · exact e.symm
        · obtain ⟨x, hx, hu⟩ := List.mem_flatMap.mp (mem_requests.mp e)
          exact (x.reducedConnectivity_diag _ hu).symm
      · exact fun e => .inl e.symm
    have : B.rows[i] = [i] := by
      rcases hl : B.rows[i] with _ | ⟨a, l⟩
      · have := (hs i).mpr rfl
        simp [hl] at this
      · rw [hl] at n hs
        obtain rfl := (hs a).mp List.mem_cons_self
        rcases l with _ | ⟨b, l⟩
        · rfl
        · have := (hs b).mp (by simp)
          simp [this] at n
    rw [this]
    rfl
  exact ⟨h1, by rw [← B.length_coo, h1]; simp⟩

/-- The updates of a thread that all have an entry. -/
theorem strip (us : List (Option (ℕ × ℕ) × K)) (h : ∀ u ∈ us, u.1 ≠ none) : ∃ vs : List ((ℕ × ℕ) × K), us = vs.map fun u => (some u.1, u.2) := by
  induction us with
  | nil => exact ⟨[], rfl⟩
  | cons u us ih =>
    obtain ⟨vs, rfl⟩ := ih fun u hu => h u (by simp [hu])
    obtain ⟨e, x⟩ := u
    cases e with
    | none => exact absurd rfl (h (none, x) (by simp))
    | some e => exact ⟨(e, x) :: vs, rfl⟩

theorem strip_all (us : List (List (Option (ℕ × ℕ) × K))) (h : ∀ t ∈ us, ∀ u ∈ t, u.1 ≠ none) : ∃ vs : List (List ((ℕ × ℕ) × K)), us = vs.map fun t => t.map fun u => (some u.1, u.2) := by
  induction us with
  | nil => exact ⟨[], rfl⟩
  | cons t us ih =>
    obtain ⟨vs, rfl⟩ := ih fun t ht => h t (by simp [ht])
    obtain ⟨v, rfl⟩ := strip t (h t (by simp))
    exact ⟨v :: vs, rfl⟩

theorem place_some (C : Crs) (vs : List ((ℕ × ℕ) × K)) : place C (vs.map fun u => (some u.1, u.2)) = Pattern.place C vs := by
  rw [place, Pattern.place, List.mapM_map]
  rfl

theorem place_all_some (C : Crs) (vs : List (List ((ℕ × ℕ) × K))) : (vs.map fun t => t.map fun u => (some u.1, u.2)).mapM (place C) = vs.mapM (Pattern.place C) := by
  rw [List.mapM_map]
  congr 1
  funext t
  exact place_some C t

/-- Without the option the set up and the evaluation are those of C90. -/
theorem full_threads (M : Network d K) (C : Crs) (c : ℕ → K) (depth spacing : K) : requests false M.rxns = Pattern.requests M.rxns ∧ (threads false M c depth spacing).mapM (place C) = (M.partialThreads c depth spacing).mapM (Pattern.place C) :=
  ⟨rfl, place_all_some C _⟩

theorem netOf_flatten {ι : Type*} [DecidableEq ι] (ls : List (List (ι × K))) (n : ι) : netOf ls.flatten n = (ls.map fun l => netOf l n).sum := by
  induction ls with
  | nil => rfl
  | cons l ls ih => rw [List.flatten_cons, netOf_append, ih, List.map_cons, List.sum_cons]

/-- **C98** One evaluation with the reduced derivatives, for a network `M` with the pattern of `M₀` (other rates): every position exists, no access leaves the array, the array is clean again, every entry off the
diagonal is zero, and every entry on the diagonal is that of the full Jacobian less what the dissociations leave out. -/
theorem matrix_reduced (M₀ M : Network d K) (hw : ∀ r ∈ M₀.rxns, r.Within D) (hs : M.rxns.map Rxn.reducedConnectivity = M₀.rxns.map Rxn.reducedConnectivity) (B : Build D (requests true M₀.rxns))
    (hn : ∀ r ∈ M.rxns, r.Numbered) (hm : ∀ r ∈ M.rxns, r.Mapped) (m : Mem K) (hc : Clean B m) (c : ℕ → K) (depth spacing : K) :
    ∃ ps, (threads true M c depth spacing).mapM (place B.crs) = some ps ∧ ∀ l, Interleaves ps l → ∃ m', rhsJacobian B.coo m l = some m' ∧ Clean B m' ∧
      ∀ r k, m'.J r k = if r = k then netOf (M.partialThreads c depth spacing).flatten (r, r) - (M.rxns.map (Rxn.missing r)).sum else 0 := by
  have hset : ∀ t ∈ threads true M c depth spacing, ∀ u ∈ t, u.1 ≠ none := by
    intro t ht u hu
    obtain ⟨r, hr, rfl⟩ := List.mem_map.mp ht
    have := hm r hr
    cases r with
    | diss r => exact (r.mapped_iff.mp this) u hu
    | resol r => exact (r.mapped_iff.mp this) u hu
    | _ =>
      obtain ⟨v, -, rfl⟩ := List.mem_map.mp hu
      simp
  obtain ⟨vs, hv⟩ := strip_all _ hset
  have hreq : ∀ u ∈ vs.flatten, (some u.1.1, some u.1.2) ∈ (requests true M₀.rxns).flatten := by
    intro u hu
    obtain ⟨t, ht, hu⟩ := List.mem_flatten.mp hu
    have h1 : (t.map fun u => (some u.1, u.2)) ∈ threads true M c depth spacing := by rw [hv]; exact List.mem_map.mpr ⟨t, ht, rfl⟩
    obtain ⟨r, hr, e⟩ := List.mem_map.mp h1
    have h2 : (some u.1, u.2) ∈ r.reducedPartials (M.preProcess c depth spacing) c := by rw [e]; exact List.mem_map.mpr ⟨u, hu, rfl⟩
    refine mem_requests.mpr ?_
    rw [List.flatMap_def, ← hs, ← List.flatMap_def]
    exact List.mem_flatMap.mpr ⟨r, hr, Rxn.reduced_covers _ c _ h2 _ rfl⟩
  have hrow := within_rows hw
  obtain ⟨ps, e, H⟩ := evaluation B hrow m hc vs fun u hu => ⟨hrow _ _ (hreq u hu), hreq u hu⟩
  refine ⟨ps, by rw [hv, place_all_some]; exact e, fun l hl => ?_⟩
  obtain ⟨m', e', hc', hJ⟩ := H l hl
  refine ⟨m', e', hc', fun r k => ?_⟩
  rw [hJ]
  by_cases hrk : r = k
  · subst hrk
    rw [if_pos rfl, netOf_flatten, netOf_flatten, eq_sub_iff_add_eq]
    have h1 : (vs.map fun l => netOf l (r, r)) = M.rxns.map fun x => netOf (x.reducedPartials (M.preProcess c depth spacing) c) (some (r, r)) := by
      have := congrArg (List.map fun t => netOf t (some (r, r))) hv
      rw [List.map_map] at this
      simp only [threads, if_true, List.map_map] at this
      rw [show (vs.map fun l => netOf l (r, r)) = vs.map ((fun t => netOf t (some (r, r))) ∘ fun t => t.map fun u => (some u.1, u.2)) from
        List.map_congr_left fun t _ => (netOf_some t (r, r)).symm, ← this]
      rfl
    rw [h1, Network.partialThreads, List.map_map, ← List.sum_map_add]
    congr 1
    exact List.map_congr_left fun x hx => (Rxn.reduced_net (hn x hx) _ c r).symm
  · rw [if_neg hrk]
    refine netOf_eq_zero fun u hu e => hrk ?_
    obtain ⟨x, hx, h⟩ := List.mem_flatMap.mp (mem_requests.mp (hreq u hu))
    have := x.reducedConnectivity_diag _ h
    rw [e] at this
    exact this

theorem mapM_none {α β : Type _} (f : α → Option β) (l : List α) (x : α) (hx : x ∈ l) (hf : f x = none) : l.mapM f = none := by
  induction l with
  | nil => simp at hx
  | cons y l ih =>
    rw [List.mapM_cons]
    rcases List.mem_cons.mp hx with rfl | hx
    · simp [hf]
    · cases f y with
      | none => rfl
      | some z => simp [ih hx]

/-- **C98** An update through an element that was never set makes the evaluation undefined. -/
theorem unset_undefined (M : Network d K) (C : Crs) (c : ℕ → K) (depth spacing : K) (h : ∃ t ∈ threads true M c depth spacing, ∃ u ∈ t, u.1 = none) : (threads true M c depth spacing).mapM (place C) = none := by
  obtain ⟨t, ht, u, hu, e⟩ := h
  exact mapM_none _ _ t ht (mapM_none _ _ u hu (by simp [e]))

/-- **C98** The evaluation is defined if and only if every reaction is mapped. -/
theorem defined_iff (M₀ M : Network d K) (hw : ∀ r ∈ M₀.rxns, r.Within D) (hs : M.rxns.map Rxn.reducedConnectivity = M₀.rxns.map Rxn.reducedConnectivity) (B : Build D (requests true M₀.rxns))
    (hn : ∀ r ∈ M.rxns, r.Numbered) (c : ℕ → K) (depth spacing : K) : ((threads true M c depth spacing).mapM (place B.crs)).isSome ↔ ∀ r ∈ M.rxns, r.Mapped := by
  constructor
  · intro h
    by_contra h'
    push Not at h'
    obtain ⟨r, hr, h'⟩ := h'
    rw [unset_undefined M B.crs c depth spacing] at h
    · simp at h
    · refine ⟨_, List.mem_map.mpr ⟨r, hr, rfl⟩, ?_⟩
      cases r with
      | diss r =>
        by_contra h2
        push Not at h2
        exact h' (r.mapped_iff.mpr h2)
      | resol r =>
        by_contra h2
        push Not at h2
        exact h' (r.mapped_iff.mpr h2)
      | _ => exact absurd trivial h'
  · intro h
    obtain ⟨ps, e, -⟩ := matrix_reduced M₀ M hw hs B hn h (start B.nPartials fun _ _ => 0) rfl c depth spacing
    simp [e]

end Reduced

namespace Reduced

open Xolotl.Network.Conn Xolotl.Network.Pattern Xolotl.Network.Dispatch

/-- What an evaluation with the reduced derivatives should deliver in the rows `ok`: the positions of the updates exist and, from a clean array on, every order of them leaves a clean array, zeros off the diagonal,
and on the diagonal in the rows with `ok r` the derivative of the `r`-th component of the right-hand side with respect to the `r`-th concentration. -/
def Delivers {D : ℕ} {ts : List (List (Option ℕ × Option ℕ))} (B : Build D ts) (fl : (ℕ → ℝ) → List (List (ℕ × ℝ))) (us : List (List (Option (ℕ × ℕ) × ℝ))) (c : ℕ → ℝ) (ok : ℕ → Prop) : Prop :=
  ∃ ps, us.mapM (place B.crs) = some ps ∧ ∀ m, Clean B m → ∀ l, Interleaves ps l →
    ∃ m', rhsJacobian B.coo m l = some m' ∧ Clean B m' ∧ (∀ r k, r ≠ k → m'.J r k = 0) ∧
      ∀ (src : ℕ → ℝ) r (F : ℝ → List (ℕ × ℝ)), ok r → (∀ x, Interleaves (fl (Function.update c r x)) (F x)) → HasDerivAt (fun x => applyUpdates src (F x) r) (m'.J r r) (c r)

/-- **C98** The matrix is the diagonal of the Jacobian, for every network whose dissociations set all their entries and leave nothing out; with modified trap mutation in all rows but those of the desorbing cluster's
mutations. -/
theorem matrix_diagonal {d D : ℕ} (M₀ M : Network d ℝ) (hw : ∀ r ∈ M₀.rxns, r.Within D) (hs : M.rxns.map Rxn.reducedConnectivity = M₀.rxns.map Rxn.reducedConnectivity) (B : Build D (requests true M₀.rxns))
    (hn : ∀ r ∈ M.rxns, r.Numbered) (hm : ∀ r ∈ M.rxns, r.Mapped) (hg : ∀ r ∈ M.rxns, r.Whole) (c : ℕ → ℝ) (hM : Smooth M c) (depth spacing : ℝ) :
    Delivers B (fun c => M.fluxThreads c depth spacing) (threads true M c depth spacing) c (Quiet M) := by
  obtain ⟨ps, e, -⟩ := matrix_reduced M₀ M hw hs B hn hm (start B.nPartials fun _ _ => 0) rfl c depth spacing
  refine ⟨ps, e, fun m hc l hl => ?_⟩
  obtain ⟨ps', e', h⟩ := matrix_reduced M₀ M hw hs B hn hm m hc c depth spacing
  obtain rfl := Option.some.inj (e.symm.trans e')
  obtain ⟨m', e1, hc', hJ⟩ := h l hl
  refine ⟨m', e1, hc', fun r k hrk => by rw [hJ, if_neg hrk], fun src r F hq hF => ?_⟩
  have := M.network_jacobian_rows hM.prod c hM.nuc depth spacing r r hq F hF _ (Interleaves.sequential _)
  rw [hJ r r, if_pos rfl, List.sum_eq_zero, sub_zero]
  · simp only [applyUpdates_eq]
    exact this.const_add _
  · intro x hx
    obtain ⟨y, hy, rfl⟩ := List.mem_map.mp hx
    exact Rxn.missing_zero (hg y hy) r

theorem Delivers.weaken {D : ℕ} {ts : List (List (Option ℕ × Option ℕ))} {B : Build D ts} {fl : (ℕ → ℝ) → List (List (ℕ × ℝ))} {us : List (List (Option (ℕ × ℕ) × ℝ))} {c : ℕ → ℝ} {ok ok' : ℕ → Prop}
    (h : Delivers B fl us c ok) (hi : ∀ r, ok' r → ok r) : Delivers B fl us c ok' := by
  obtain ⟨ps, e, H⟩ := h
  refine ⟨ps, e, fun m hm l hl => ?_⟩
  obtain ⟨m', e1, hc, h0, hJ⟩ := H m hm l hl
  exact ⟨m', e1, hc, h0, fun src r F hr => hJ src r F (hi r hr)⟩

/-! ### Networks built from their clusters -/

/-- What a dissociation of `k` into `i` and `j`, in this order, has to meet: where `i` is grouped and `j` is not, `k` is grouped on all axes; and if `j` is `k` itself, `i` is grouped wherever `k` is. -/
def Tidy {a : ℕ} (mom : ℕ → Fin a → Option ℕ) (k i j : ℕ) : Prop :=
  (∀ x, (mom i x).isSome → mom j x = none → ∀ y, mom k y ≠ none) ∧ (j = k → ∀ x, (mom k x).isSome → (mom i x).isSome)

section
variable {σ : Type} [DecidableEq σ] {sp : List σ} {N : Net σ sp}

theorem ids_inj (h : Laid N) (w : Bool) {k k' : ℕ} {j j' : Fin (sp.length + 1)} {m : ℕ} (e : N.momentIds w k j = some m) (e' : N.momentIds w k' j' = some m) : k = k' ∧ j = j' := by
  obtain ⟨a, b⟩ := (Numbering.dof_bijection _ (h.ok w)).2.1 k k' j j' m e e'
  exact ⟨a, Fin.ext b⟩

theorem ids_ge (h : Laid N) (w : Bool) {k : ℕ} {j : Fin (sp.length + 1)} {m : ℕ} (e : N.momentIds w k j = some m) : N.n ≤ m := by
  have := ((Numbering.dof_bijection _ (h.ok w)).1 k j m e).1
  rwa [allAxes_length] at this

/-- **C98** For the ids that the numbering gives, `Tidy` is what the two conditions on a dissociation come to. -/
theorem tidy_iff (h : Laid N) (w : Bool) (x : K) (k i j : ℕ) :
    (N.mkDiss (N.momentIds w) x k i j).Mapped ∧ (N.mkDiss (N.momentIds w) x k i j).GuardOK ↔ Tidy (N.momentIds w) k i j := by
  refine and_congr Iff.rfl ?_
  constructor
  · rintro hg rfl x hx
    obtain ⟨m, hm⟩ := Option.isSome_iff_exists.mp hx
    exact hg x m hm ⟨x, hm⟩
  · rintro ht y m e ⟨z, e'⟩
    obtain ⟨rfl, rfl⟩ := ids_inj h w (show N.momentIds w j y = some m from e) (show N.momentIds w k z = some m from e')
    exact ht rfl y (by rw [show N.momentIds w j y = some m from e]; rfl)

/-- The ids of the network are below the number of clusters. -/
structure Known (N : Net σ sp) (pair : ℕ → ℕ → Out) (reso : ℕ → ℕ → List ℕ) : Prop where
  prods : ∀ i < N.n, ∀ j < N.n, ∀ q ∈ (pair i j).prods, (∀ k, q.1 = some k → k < N.n) ∧ ∀ k, q.2 = some k → k < N.n
  diss : ∀ i < N.n, ∀ j < N.n, ∀ k ∈ (pair i j).diss, k < N.n
  reso : ∀ i < N.n, ∀ j < N.n, ∀ k ∈ reso i j, k < N.n

theorem rxns_numbered (h : Laid N) (w : Bool) (R : Rates K) {pair : ℕ → ℕ → Out} {reso : ℕ → ℕ → List ℕ} (sinks : ℕ → ℕ) (hk : Known N pair reso) :
    ∀ r ∈ N.rxns (N.momentIds w) R pair reso sinks, r.Numbered := by
  have dis : ∀ (x : K) (k a b : ℕ), k < N.n → a < N.n → b < N.n → (N.mkDiss (N.momentIds w) x k a b).DMomInj ∧ (N.mkDiss (N.momentIds w) x k a b).DMomDisj := by
    intro x k a b hk ha hb
    refine ⟨fun y z m e e' => (ids_inj h w (show N.momentIds w k y = some m from e) e').2, fun q q' y m e e' => ?_⟩
    have h1 : N.n ≤ m := by cases q <;> exact ids_ge h w e
    have h2 : m < N.n := by rw [← e']; cases q' <;> assumption
    omega
  intro r hr'
  simp only [Net.rxns, List.mem_flatMap, List.mem_range, List.mem_filter, List.mem_append, List.mem_map] at hr'
  obtain ⟨i, hi, j, ⟨hj, _⟩, ((hr' | ⟨k, hk', rfl⟩) | ⟨q, hq, rfl⟩) | ⟨k, hk', rfl⟩⟩ := hr'
  · split at hr'
    · obtain rfl := List.eq_of_mem_replicate hr'
      trivial
    · simp at hr'
  · exact dis _ _ _ _ (hk.reso i hi j hj k hk') hi hj
  · obtain ⟨h1, h2⟩ := hk.prods i hi j hj q hq
    have hge : ∀ s a m, (N.mkProd (N.momentIds w) (R.prod i j q) i j q).mom s a = some m → ∃ k, N.momentIds w k a = some m ∧ (s = .r1 → k = i) ∧ (s = .r2 → k = j) ∧ (s = .p1 → q.1 = some k) ∧ (s = .p2 → q.2 = some k) := by
      intro s a m e
      cases s
      · exact ⟨i, e, by simp⟩
      · exact ⟨j, e, by simp⟩
      · obtain ⟨k, ek, e⟩ := Option.bind_eq_some_iff.mp e
        exact ⟨k, e, by simp [ek]⟩
      · obtain ⟨k, ek, e⟩ := Option.bind_eq_some_iff.mp e
        exact ⟨k, e, by simp [ek]⟩
    refine ⟨fun s a b m e e' => ?_, fun s s' a m e e' => ?_⟩
    · obtain ⟨k, e, -⟩ := hge s a m e
      obtain ⟨k', e', -⟩ := hge s b m e'
      exact (ids_inj h w e e').2
    · obtain ⟨k, e, -⟩ := hge s a m e
      have h3 := ids_ge h w e
      have h4 : m < N.n := by
        cases s'
        · exact (Option.some.inj e') ▸ hi
        · exact (Option.some.inj e') ▸ hj
        · exact h1 m e'
        · exact h2 m e'
      omega
  · exact dis _ _ _ _ (hk.diss i hi j hj k hk') hi hj

theorem rxns_tidy (h : Laid N) (w : Bool) (R : Rates K) {pair : ℕ → ℕ → Out} {reso : ℕ → ℕ → List ℕ} (sinks : ℕ → ℕ)
    (ht : ∀ i j, i ≤ j → j < N.n → ∀ k, k ∈ (pair i j).diss ∨ k ∈ reso i j → Tidy (N.momentIds w) k i j) :
    ∀ r ∈ N.rxns (N.momentIds w) R pair reso sinks, r.Mapped ∧ r.Whole := by
  intro r hr'
  simp only [Net.rxns, List.mem_flatMap, List.mem_range, List.mem_filter, List.mem_append, List.mem_map, decide_eq_true_eq] at hr'
  obtain ⟨i, hi, j, ⟨hj, hij⟩, ((hr' | ⟨k, hk', rfl⟩) | ⟨q, hq, rfl⟩) | ⟨k, hk', rfl⟩⟩ := hr'
  · split at hr'
    · obtain rfl := List.eq_of_mem_replicate hr'
      exact ⟨trivial, trivial⟩
    · simp at hr'
  · exact (tidy_iff h w _ k i j).mpr (ht i j hij hj k (.inr hk'))
  · exact ⟨trivial, trivial⟩
  · exact (tidy_iff h w _ k i j).mpr (ht i j hij hj k (.inl hk'))

theorem net_rates (N : Net σ sp) (mom : ℕ → Fin (sp.length + 1) → Option ℕ) (R R' : Rates K) (pair : ℕ → ℕ → Out) (reso : ℕ → ℕ → List ℕ) (sinks : ℕ → ℕ) :
    (N.rxns mom R pair reso sinks).map Rxn.reducedConnectivity = (N.rxns mom R' pair reso sinks).map Rxn.reducedConnectivity := by
  simp only [Net.rxns, List.map_flatMap, List.map_append, List.map_map]
  refine List.flatMap_congr fun i _ => List.flatMap_congr fun j _ => ?_
  congr 1
  congr 1
  congr 1
  split
  · simp only [List.map_replicate]
    rfl
  · rfl

/-- Without groups every dissociation is tidy. -/
theorem singles_tidy (h : Laid N) (w : Bool) (hs : ∀ k < N.n, simplex sp (N.cl k)) {k i j : ℕ} (hk : k < N.n) (hi : i < N.n) : Tidy (N.momentIds w) k i j := by
  have h0 : ∀ k < N.n, ∀ x, N.momentIds w k x = none := fun k hk => (ready_ids h w).momNone hk (hs k hk)
  exact ⟨fun x hx => by simp [h0 i hi x] at hx, fun _ x hx => by simp [h0 k hk x] at hx⟩

/-- A group that comes apart into itself and a cluster that is not grouped on one of its axes is untidy if that cluster comes first. -/
theorem untidy_before {a : ℕ} (mom : ℕ → Fin a → Option ℕ) (k i : ℕ) (x : Fin a) (hk : (mom k x).isSome) (hi : mom i x = none) : ¬ Tidy mom k i k := fun h => by
  have := h.2 rfl x hk
  simp [hi] at this

/-- If a single cluster comes second, it is tidy only when the group is grouped on all axes. -/
theorem tidy_after {a : ℕ} (mom : ℕ → Fin a → Option ℕ) (k j : ℕ) (hjk : j ≠ k) (x : Fin a) (hk : (mom k x).isSome) (hj : ∀ y, mom j y = none) : Tidy mom k k j ↔ ∀ y, mom k y ≠ none :=
  ⟨fun h => h.1 x hk (hj x), fun h => ⟨fun _ _ _ => h, fun e => absurd e hjk⟩⟩

end

/-- **C98** A network built from its clusters. -/
theorem net_diagonal {σ : Type} [DecidableEq σ] {sp : List σ} (N : Net σ sp) (h : Laid N) (w : Bool) (R₀ R : Rates ℝ) (pair : ℕ → ℕ → Out) (reso : ℕ → ℕ → List ℕ) (sinks : ℕ → ℕ) (hk : Known N pair reso)
    (hp : ∀ i j, ∀ q ∈ (pair i j).prods, q.1 = none → q.2 = none) (ht : ∀ i j, i ≤ j → j < N.n → ∀ k, k ∈ (pair i j).diss ∨ k ∈ reso i j → Tidy (N.momentIds w) k i j)
    (B : Build (N.dofs w) (requests true (N.rxns (N.momentIds w) R₀ pair reso sinks))) (M : Network (sp.length + 1) ℝ) (hM : M.rxns = N.rxns (N.momentIds w) R pair reso sinks) (c : ℕ → ℝ) (depth spacing : ℝ) :
    Delivers B (fun c => M.fluxThreads c depth spacing) (threads true M c depth spacing) c (fun _ => True) := by
  have ht' := rxns_tidy h w R sinks ht
  refine (matrix_diagonal ⟨_, false, M.tmData⟩ M (rxns_within h w R₀ pair reso sinks hk.prods hk.diss hk.reso) (by rw [hM]; exact net_rates N _ R R₀ _ _ _) B (by rw [hM]; exact rxns_numbered h w R sinks hk)
    (by rw [hM]; exact fun r hr => (ht' r hr).1) (by rw [hM]; exact fun r hr => (ht' r hr).2) c (net_smooth N _ R _ _ _ hp M hM c) depth spacing).weaken fun _ _ => net_quiet N _ R _ _ _ M hM _

theorem fe_known (N : Net Unit [()]) (h : Laid N) (mob : ℕ → Bool) : Known N (fun i j => fePair N (mob i) (mob j) (N.cl i) (N.cl j)) fun _ _ => [] := by
  have hN : LayS N := ⟨h.lay, h.singleI, h.singleV⟩
  refine ⟨fun i hi j hj q hq => ?_, fun i hi j hj k hk => ?_, fun i hi j hj k hk => by simp at hk⟩
  · obtain ⟨_, h2⟩ := fe_shape hq
    obtain ⟨x, y⟩ := q
    simp only at h2
    subst h2
    exact ⟨fun k e => by simp only at e; subst e; exact (fe_reach hN hi hj hq).1, fun k e => by simp at e⟩
  · exact (fe_reach hN hi hj (mem_of_count hk (fe_diss N hN _ _ hi hj k))).1

/-- **C98** Iron: the matrix is the diagonal of the Jacobian, for every layout whose dissociations are tidy, every mobility, all rates and concentrations. -/
theorem fe_diagonal (N : Net Unit [()]) (h : Laid N) (R₀ R : Rates ℝ) (mob : ℕ → Bool) (ht : ∀ i j, i ≤ j → j < N.n → ∀ k ∈ (fePair N (mob i) (mob j) (N.cl i) (N.cl j)).diss, Tidy (N.momentIds true) k i j)
    (B : Build (N.dofs true) (requests true (feRxns N (N.momentIds true) R₀ mob))) (M : Network 2 ℝ) (hM : M.rxns = feRxns N (N.momentIds true) R mob) (c : ℕ → ℝ) (depth spacing : ℝ) :
    Delivers B (fun c => M.fluxThreads c depth spacing) (threads true M c depth spacing) c (fun _ => True) :=
  net_diagonal N h true R₀ R _ _ _ (fe_known N h mob) (fun _ _ _ hq _ => (fe_shape hq).2) (fun i j hij hj k hk => ht i j hij hj k (by simpa using hk)) B M hM c depth spacing

/-- **C98** Iron without groups: no condition is left. -/
theorem fe_singles (N : Net Unit [()]) (h : Laid N) (hs : ∀ k < N.n, simplex [()] (N.cl k)) (R₀ R : Rates ℝ) (mob : ℕ → Bool)
    (B : Build (N.dofs true) (requests true (feRxns N (N.momentIds true) R₀ mob))) (M : Network 2 ℝ) (hM : M.rxns = feRxns N (N.momentIds true) R mob) (c : ℕ → ℝ) (depth spacing : ℝ) :
    Delivers B (fun c => M.fluxThreads c depth spacing) (threads true M c depth spacing) c (fun _ => True) :=
  fe_diagonal N h R₀ R mob (fun i j hij hj k hk => singles_tidy h true hs ((fe_known N h mob).diss i (by omega) j hj k hk) (by omega)) B M hM c depth spacing

theorem ne_known (N : Net Unit [()]) (h : Laid N) (mob : ℕ → Bool) : Known N (fun i j => nePair N (mob i) (mob j) (N.cl i) (N.cl j)) fun i j => neReso N (N.cl i) (N.cl j) := by
  have hN : LayS N := ⟨h.lay, h.singleI, h.singleV⟩
  refine ⟨fun i hi j hj q hq => ?_, fun i hi j hj k hk => (ne_diss_sound N hN hi hj hk).1, fun i hi j hj k hk => (ne_reso_sound N hN hi hj hk).1⟩
  obtain ⟨_, h2⟩ := ne_shape hq
  obtain ⟨x, y⟩ := q
  simp only at h2
  subst h2
  exact ⟨fun k e => by simp only at e; subst e; exact (ne_reach hN hi hj hq).1, fun k e => by simp at e⟩

/-- **C98** Fuel, with the fluxes of the base classes; re-solution has to be tidy as well. -/
theorem ne_diagonal (N : Net Unit [()]) (h : Laid N) (R₀ R : Rates ℝ) (mob : ℕ → Bool)
    (ht : ∀ i j, i ≤ j → j < N.n → ∀ k, k ∈ (nePair N (mob i) (mob j) (N.cl i) (N.cl j)).diss ∨ k ∈ neReso N (N.cl i) (N.cl j) → Tidy (N.momentIds false) k i j)
    (B : Build (N.dofs false) (requests true (neRxns N (N.momentIds false) R₀ mob))) (M : Network 2 ℝ) (hM : M.rxns = neRxns N (N.momentIds false) R mob) (c : ℕ → ℝ) (depth spacing : ℝ) :
    Delivers B (fun c => M.fluxThreads c depth spacing) (threads true M c depth spacing) c (fun _ => True) :=
  net_diagonal N h false R₀ R _ _ _ (ne_known N h mob) (fun _ _ _ hq _ => (ne_shape hq).2) ht B M hM c depth spacing

/-- **C98** Fuel without groups. -/
theorem ne_singles (N : Net Unit [()]) (h : Laid N) (hs : ∀ k < N.n, simplex [()] (N.cl k)) (R₀ R : Rates ℝ) (mob : ℕ → Bool)
    (B : Build (N.dofs false) (requests true (neRxns N (N.momentIds false) R₀ mob))) (M : Network 2 ℝ) (hM : M.rxns = neRxns N (N.momentIds false) R mob) (c : ℕ → ℝ) (depth spacing : ℝ) :
    Delivers B (fun c => M.fluxThreads c depth spacing) (threads true M c depth spacing) c (fun _ => True) :=
  ne_diagonal N h R₀ R mob (fun i j hij hj k hk => singles_tidy h false hs (hk.elim ((ne_known N h mob).diss i (by omega) j hj k) ((ne_known N h mob).reso i (by omega) j hj k)) (by omega)) B M hM c depth spacing

/-- **C98** Fuel with its own sources and sinks. -/
theorem ne_own_diagonal (N : Net Unit [()]) (h : Laid N) (R₀ R : Rates ℝ) (mob : ℕ → Bool)
    (ht : ∀ i j, i ≤ j → j < N.n → ∀ k, k ∈ (nePair N (mob i) (mob j) (N.cl i) (N.cl j)).diss ∨ k ∈ neReso N (N.cl i) (N.cl j) → Tidy (N.momentIds false) k i j)
    (B : Build (N.dofs false) (requests true (neRxns N (N.momentIds false) R₀ mob))) (M : Network 2 ℝ) (hM : M.rxns = neRxns N (N.momentIds false) R mob) (E : Fuel.Extra ℝ) (c : ℕ → ℝ) (depth spacing : ℝ) :
    Delivers B (fun c => Fuel.threads M E c depth spacing) (threads true M c depth spacing) c (fun _ => True) := by
  obtain ⟨ps, e, H⟩ := ne_diagonal N h R₀ R mob ht B M hM c depth spacing
  refine ⟨ps, e, fun m hm l hl => ?_⟩
  obtain ⟨m', e1, hc, h0, hJ⟩ := H m hm l hl
  refine ⟨m', e1, hc, h0, fun src r F _ hF => ?_⟩
  have hb := hJ src r (fun x => (M.fluxThreads (Function.update c r x) depth spacing).flatten) trivial fun x => Interleaves.sequential _
  have key : ∀ x, applyUpdates src (F x) r = applyUpdates src (M.fluxThreads (Function.update c r x) depth spacing).flatten r +
      (netOf (Fuel.threads M E c depth spacing).flatten r - netOf (M.fluxThreads c depth spacing).flatten r) := fun x => by
    rw [applyUpdates_eq, applyUpdates_eq, netOf_perm (hF x).perm]
    have := Fuel.flux_difference M E (Function.update c r x) c depth spacing r
    linear_combination this
  simp only [key]
  exact hb.add_const _

theorem psi_known {σ : Type} [DecidableEq σ] {sp : List σ} (hsp : sp.Nodup) (he : σ) (N : Net σ sp) (h : Laid N) (mob : ℕ → Bool) : Known N (fun i j => psiPair he N (mob i) (mob j) (N.cl i) (N.cl j)) fun _ _ => [] := by
  refine ⟨fun i hi j hj q hq => ?_, fun i hi j hj k hk => ?_, fun i hi j hj k hk => by simp at hk⟩
  · rcases (psi_shape hq).2 with h2 | ⟨k, l, rfl⟩
    · obtain ⟨x, y⟩ := q
      simp only at h2
      subst h2
      exact ⟨fun k e => by simp only at e; subst e; exact (psi_reach h.lay hi hj hq).1, fun k e => by simp at e⟩
    · obtain ⟨_, _, _, _, _, hin⟩ := psi_second_conditions he N _ _ _ _ hq
      have hin : (∃ s', k ∈ N.goods (N.cl i) (N.cl j) s') ∧ ∃ n : ℕ, N.find (fun _ => 0) 0 n = some l := by
        unfold psiSecond at hin
        split at hin
        · simp at hin
        · split at hin
          · simp at hin
          · split at hin
            · simp at hin
            · exact tmSearch_mem _ _ _ _ _ hin
      obtain ⟨⟨_, hk⟩, ⟨_, hl⟩⟩ := hin
      exact ⟨fun k' e => by simp only [Option.some.injEq] at e; exact e ▸ goods_lt hk, fun k' e => by simp only [Option.some.injEq] at e; exact e ▸ (N.find_some.mp hl).1⟩
  · exact (psi_reach h.lay hi hj (mem_of_count hk (psi_diss hsp he N _ _ _ _ (h.lay i hi) (h.lay j hj) k))).1

/-- **C98** Tungsten, with any gases. -/
theorem psi_diagonal {σ : Type} [DecidableEq σ] {sp : List σ} (hsp : sp.Nodup) (he : σ) (N : Net σ sp) (h : Laid N) (R₀ R : Rates ℝ) (mob : ℕ → Bool)
    (ht : ∀ i j, i ≤ j → j < N.n → ∀ k ∈ (psiPair he N (mob i) (mob j) (N.cl i) (N.cl j)).diss, Tidy (N.momentIds true) k i j) (B : Build (N.dofs true) (requests true (psiRxns he N (N.momentIds true) R₀ mob)))
    (M : Network (sp.length + 1) ℝ) (hM : M.rxns = psiRxns he N (N.momentIds true) R mob) (c : ℕ → ℝ) (depth spacing : ℝ) :
    Delivers B (fun c => M.fluxThreads c depth spacing) (threads true M c depth spacing) c (fun _ => True) :=
  net_diagonal N h true R₀ R _ _ _ (psi_known hsp he N h mob) (psi_prods he N mob) (fun i j hij hj k hk => ht i j hij hj k (by simpa using hk)) B M hM c depth spacing

/-- **C98** Tungsten without groups. -/
theorem psi_singles {σ : Type} [DecidableEq σ] {sp : List σ} (hsp : sp.Nodup) (he : σ) (N : Net σ sp) (h : Laid N) (hs : ∀ k < N.n, simplex sp (N.cl k)) (R₀ R : Rates ℝ) (mob : ℕ → Bool)
    (B : Build (N.dofs true) (requests true (psiRxns he N (N.momentIds true) R₀ mob))) (M : Network (sp.length + 1) ℝ) (hM : M.rxns = psiRxns he N (N.momentIds true) R mob) (c : ℕ → ℝ) (depth spacing : ℝ) :
    Delivers B (fun c => M.fluxThreads c depth spacing) (threads true M c depth spacing) c (fun _ => True) :=
  psi_diagonal hsp he N h R₀ R mob (fun i j hij hj k hk => singles_tidy h true hs ((psi_known hsp he N h mob).diss i (by omega) j hj k hk) (by omega)) B M hM c depth spacing

theorem mut_rates {σ : Type} [DecidableEq σ] {sp : List σ} (he : σ) (vs : ℤ → List ℤ) (N : Net σ sp) (rate rate' : ℕ → ℕ → ℕ → ℝ) (mob : ℕ → Bool) {l l' : List (Rxn (sp.length + 1) ℝ)}
    (h : mutRxns he vs N rate mob = some l) (h' : mutRxns he vs N rate' mob = some l') : l.map Rxn.reducedConnectivity = l'.map Rxn.reducedConnectivity := by
  unfold mutRxns at h h'
  generalize mutations he vs N mob = us at h h'
  induction us generalizing l l' with
  | nil =>
    simp at h h'
    rw [h, h']
  | cons u us ih =>
    simp only [List.mapM_cons, Option.bind_eq_bind, Option.bind_eq_some_iff, Option.pure_def, Option.some.injEq] at h h'
    obtain ⟨a, ha, b, hb, rfl⟩ := h
    obtain ⟨a', ha', b', hb', rfl⟩ := h'
    simp only [mkMut, Option.map_eq_some_iff] at ha ha'
    obtain ⟨k, hk, rfl⟩ := ha
    obtain ⟨k', hk', rfl⟩ := ha'
    obtain rfl := Option.some.inj (hk.symm.trans hk')
    simp only [List.map_cons, ih hb hb']
    rfl

/-- **C98 (partial)** Tungsten with the tables of modified trap mutation: the diagonal of the Jacobian in all rows but those that a mutation of the desorbing cluster changes, where the code leaves out the derivative of the left
side rate (C90, `desorption_missing`). -/
theorem psi_all_diagonal_partial {σ : Type} [DecidableEq σ] {sp : List σ} (hsp : sp.Nodup) (he : σ) (hhe : he ∈ sp) (mat : TmMaterial) (N : Net σ sp) (h : Laid N) (R₀ R : Rates ℝ)
    (rate₀ rate : ℕ → ℕ → ℕ → ℝ) (mob : ℕ → Bool) (ht : ∀ i j, i ≤ j → j < N.n → ∀ k ∈ (psiPair he N (mob i) (mob j) (N.cl i) (N.cl j)).diss, Tidy (N.momentIds true) k i j)
    (l₀ : List (Rxn (sp.length + 1) ℝ)) (hl₀ : psiAll he (tmSizes mat) N (N.momentIds true) R₀ rate₀ mob = some l₀) (B : Build (N.dofs true) (requests true l₀))
    (M : Network (sp.length + 1) ℝ) (hM : psiAll he (tmSizes mat) N (N.momentIds true) R rate mob = some M.rxns) (c : ℕ → ℝ) (depth spacing : ℝ) :
    Delivers B (fun c => M.fluxThreads c depth spacing) (threads true M c depth spacing) c fun n => ∀ r, Rxn.tm r ∈ M.rxns → some r.he = M.tmData.desorpId → r.he ≠ n ∧ r.heV ≠ n ∧ r.i ≠ n := by
  have hvs : ∀ n, ∀ s ∈ tmSizes mat n, 0 ≤ s := fun n s hs => by have := (tmSizes_mem mat n s hs).1; omega
  have hw := psi_all_within hsp he hhe (tmSizes mat) hvs N h R₀ rate₀ mob hl₀
  simp only [psiAll, Option.map_eq_some_iff] at hl₀ hM
  obtain ⟨t₀, ht₀, rfl⟩ := hl₀
  obtain ⟨t, htt, hrx⟩ := hM
  have hno : ∀ r ∈ t, ∃ x : TmRxn ℝ, r = Rxn.tm x ∧ x.heV ≠ x.he ∧ x.i ≠ x.he := fun r hr => by
    obtain ⟨x, rfl, n, s, hs, h1, h2, h3, ⟨ha, hb, hc, hd⟩, ⟨ha', hb', hc', hd'⟩, hmem, -⟩ := mutRxns_mem hhe hvs htt hr
    have hs1 := (tmSizes_mem mat n s hs).1
    refine ⟨x, rfl, fun e => ?_, fun e => ?_⟩
    · rw [e, hc] at hc'
      omega
    · rw [e] at hmem
      have := hmem.2.2
      rw [mem_pts, ha.2.1, hd] at this
      omega
  have hk := psi_known hsp he N h mob
  have ht' := rxns_tidy h true R (reso := fun _ _ => []) (fun i => psiSinks (sp := sp) (mob i) (N.cl i)) fun i j hij hj k hk => ht i j hij hj k (by simpa using hk)
  have hmem : ∀ r ∈ M.rxns, r ∈ psiRxns he N (N.momentIds true) R mob ∨ r ∈ t := fun r hr => by rwa [← hrx, List.mem_append] at hr
  refine (matrix_diagonal ⟨_, false, M.tmData⟩ M hw ?_ B (fun r hr => ?_) (fun r hr => ?_) (fun r hr => ?_) c ?_ depth spacing).weaken fun n hn _ => hn
  · rw [← hrx]
    simp only [List.map_append]
    rw [mut_rates he _ N rate rate₀ mob htt ht₀]
    congr 1
    exact net_rates N _ R R₀ _ _ _
  · rcases hmem r hr with hr | hr
    · exact rxns_numbered h true R _ hk r hr
    · obtain ⟨x, rfl, hx⟩ := hno r hr
      exact hx
  · rcases hmem r hr with hr | hr
    · exact (ht' r hr).1
    · obtain ⟨x, rfl, hx⟩ := hno r hr
      trivial
  · rcases hmem r hr with hr | hr
    · exact (ht' r hr).2
    · obtain ⟨x, rfl, hx⟩ := hno r hr
      trivial
  · have hs := net_smooth N _ R _ _ _ (psi_prods he N mob) ⟨psiRxns he N (N.momentIds true) R mob, false, M.tmData⟩ rfl c
    refine ⟨fun r hr => ?_, fun r hr => ?_⟩ <;> rcases hmem _ hr with hr | hr
    · exact hs.prod r hr
    · obtain ⟨x, e, -⟩ := hno _ hr
      simp at e
    · exact hs.nuc r hr
    · obtain ⟨x, e, -⟩ := hno _ hr
      simp at e

/-! ### Zirconium and alloys -/

section
open Xolotl.Network.Pairs

variable {κ : Type} [DecidableEq κ] {W : World κ}

theorem world_inj {ks : List κ} (hnd : ks.Nodup) {k k' m : ℕ} (e : W.momentIds ks k = some m) (e' : W.momentIds ks k' = some m) : k = k' :=
  ((Numbering.dof_bijection _ (Pairs.allAxes_ok hnd)).2.1 k k' 0 0 m e e').1

theorem world_ge {ks : List κ} (hnd : ks.Nodup) {k m : ℕ} (e : W.momentIds ks k = some m) : W.n ≤ m := by
  have := ((Numbering.dof_bijection _ (Pairs.allAxes_ok hnd)).1 k 0 m e).1
  rwa [Pairs.allAxes_length] at this

/-- With one axis: where `i` is grouped and `j` is not, `k` is grouped; if `j` is `k` itself and grouped, so is `i`. -/
def Tidy1 (mom : ℕ → Option ℕ) (k i j : ℕ) : Prop := ((mom i).isSome → mom j = none → mom k ≠ none) ∧ (j = k → (mom k).isSome → (mom i).isSome)

theorem world_tidy_iff {ks : List κ} (hnd : ks.Nodup) (ρ : Rules κ K) (x : K) (k i j : ℕ) :
    (W.mkDiss ρ (W.momentIds ks) x k i j).Mapped ∧ (W.mkDiss ρ (W.momentIds ks) x k i j).GuardOK ↔ Tidy1 (W.momentIds ks) k i j := by
  refine and_congr ⟨fun h h1 h2 => h 0 h1 h2 0, fun h a h1 h2 b => h h1 h2⟩ ?_
  constructor
  · rintro hg rfl hx
    obtain ⟨m, hm⟩ := Option.isSome_iff_exists.mp hx
    exact hg 0 m hm ⟨0, hm⟩
  · rintro ht y m e ⟨z, e'⟩
    have e : W.momentIds ks j = some m := e
    obtain rfl := world_inj hnd e (show W.momentIds ks k = some m from e')
    exact ht rfl (Option.isSome_iff_exists.mpr ⟨m, by assumption⟩)

theorem world_rxns {ks : List κ} (hnd : ks.Nodup) (ρ : Rules κ K) (R : Pairs.Rates K) (pair : ℕ → ℕ → Pairs.Out) (sinks : ℕ → ℕ)
    (hp : ∀ i < W.n, ∀ j < W.n, ∀ k, some k ∈ (pair i j).prods → k < W.n) (hd : ∀ i < W.n, ∀ j < W.n, ∀ k ∈ (pair i j).diss, k < W.n)
    (ht : ∀ i j, i ≤ j → j < W.n → ∀ k ∈ (pair i j).diss, Tidy1 (W.momentIds ks) k i j) : ∀ r ∈ W.rxns ρ (W.momentIds ks) R pair sinks, r.Numbered ∧ r.Mapped ∧ r.Whole := by
  intro r hr'
  simp only [World.rxns, List.mem_flatMap, List.mem_range, List.mem_filter, List.mem_append, List.mem_map, decide_eq_true_eq] at hr'
  obtain ⟨i, hi, j, ⟨hj, hij⟩, (hr' | ⟨q, hq, rfl⟩) | ⟨k, hk, rfl⟩⟩ := hr'
  · split at hr'
    · obtain rfl := List.eq_of_mem_replicate hr'
      exact ⟨trivial, trivial, trivial⟩
    · simp at hr'
  · refine ⟨⟨fun s a b m _ _ => Subsingleton.elim _ _, fun s s' a m e e' => ?_⟩, trivial, trivial⟩
    have h1 : W.n ≤ m := by
      cases s
      · exact world_ge hnd e
      · exact world_ge hnd e
      · obtain ⟨_, _, e⟩ := Option.bind_eq_some_iff.mp e
        exact world_ge hnd e
      · simp [World.mkProd] at e
    have h2 : m < W.n := by
      cases s'
      · exact (Option.some.inj e') ▸ hi
      · exact (Option.some.inj e') ▸ hj
      · have e' : q = some m := e'
        exact hp i hi j hj m (e' ▸ hq)
      · simp [ProdRxn.id, World.mkProd] at e'
    omega
  · have hk' := hd i hi j hj k hk
    refine ⟨⟨fun a b m _ _ => Subsingleton.elim _ _, fun q q' a m e e' => ?_⟩, (world_tidy_iff hnd ρ _ k i j).mpr (ht i j hij hj k hk)⟩
    have h1 : W.n ≤ m := by cases q <;> exact world_ge hnd e
    have h2 : m < W.n := by rw [← e']; cases q' <;> assumption
    omega

theorem world_rates (W : World κ) (ρ : Rules κ K) (mom : ℕ → Option ℕ) (R R' : Pairs.Rates K) (pair : ℕ → ℕ → Pairs.Out) (sinks : ℕ → ℕ) :
    (W.rxns ρ mom R pair sinks).map Rxn.reducedConnectivity = (W.rxns ρ mom R' pair sinks).map Rxn.reducedConnectivity := by
  simp only [World.rxns, List.map_flatMap, List.map_append, List.map_map]
  refine List.flatMap_congr fun i _ => List.flatMap_congr fun j _ => ?_
  congr 1
  congr 1
  split
  · simp only [List.map_replicate]
    rfl
  · rfl

theorem singles_tidy1 {ks : List κ} (hnd : ks.Nodup) (hall : ∀ s, s ∈ ks) (hpos : ∀ k < W.n, 0 < (W.cl k).reg.b ∧ (W.cl k).reg.b < (W.cl k).reg.e) (hs : ∀ k < W.n, (W.cl k).reg.e = (W.cl k).reg.b + 1) {k i j : ℕ} (hk : k < W.n)
    (hi : i < W.n) : Tidy1 (W.momentIds ks) k i j := by
  have h0 : ∀ k < W.n, W.momentIds ks k = none := fun k hk => ((ready_ids hnd hall hpos).alone k hk).mpr (hs k hk)
  exact ⟨fun h => by simp [h0 i hi] at h, fun _ h => by simp [h0 k hk] at h⟩

/-- **C98** Zirconium. -/
theorem zr_diagonal (W : World ZK) (hpos : ∀ k < W.n, 0 < (W.cl k).reg.b ∧ (W.cl k).reg.b < (W.cl k).reg.e) (R₀ R : Pairs.Rates ℝ) (mob : ℕ → Bool)
    (ht : ∀ i j, i ≤ j → j < W.n → ∀ k ∈ (zrPair W.net (mob i) (mob j) (W.cl i) (W.cl j)).diss, Tidy1 (W.momentIds zrKinds) k i j)
    (B : Build (W.dofs zrKinds) (requests true (zrRxns W (W.momentIds zrKinds) R₀ mob))) (M : Network 1 ℝ) (hM : M.rxns = zrRxns W (W.momentIds zrKinds) R mob) (c : ℕ → ℝ) (depth spacing : ℝ) :
    Delivers B (fun c => M.fluxThreads c depth spacing) (threads true M c depth spacing) c (fun _ => True) := by
  have hr := ready_ids zrKinds_all.1 zrKinds_all.2 hpos
  have H := world_rxns zrKinds_all.1 zrRules R _ (fun i => zrSinks (mob i) (W.cl i)) (fun _ hi _ hj _ hk => (zr_sound hr mob hi hj hk).1) (fun _ hi _ hj _ hk => (zr_soundD hr mob hi hj hk).1) ht
  have hs := world_smooth W _ _ R _ _ M hM c
  exact (matrix_diagonal ⟨_, false, M.tmData⟩ M (zr_within W hpos R₀ mob) (by rw [hM]; exact world_rates W _ _ R R₀ _ _) B (by rw [hM]; exact fun r hr => (H r hr).1) (by rw [hM]; exact fun r hr => (H r hr).2.1)
    (by rw [hM]; exact fun r hr => (H r hr).2.2) c hs.1 depth spacing).weaken fun n _ => hs.2 n

/-- **C98** Zirconium without groups. -/
theorem zr_singles (W : World ZK) (hpos : ∀ k < W.n, 0 < (W.cl k).reg.b ∧ (W.cl k).reg.b < (W.cl k).reg.e) (hs : ∀ k < W.n, (W.cl k).reg.e = (W.cl k).reg.b + 1) (R₀ R : Pairs.Rates ℝ) (mob : ℕ → Bool)
    (B : Build (W.dofs zrKinds) (requests true (zrRxns W (W.momentIds zrKinds) R₀ mob))) (M : Network 1 ℝ) (hM : M.rxns = zrRxns W (W.momentIds zrKinds) R mob) (c : ℕ → ℝ) (depth spacing : ℝ) :
    Delivers B (fun c => M.fluxThreads c depth spacing) (threads true M c depth spacing) c (fun _ => True) :=
  zr_diagonal W hpos R₀ R mob (fun _ _ hij hj _ hk => singles_tidy1 zrKinds_all.1 zrKinds_all.2 hpos hs
    (zr_soundD (ready_ids zrKinds_all.1 zrKinds_all.2 hpos) mob (lt_of_le_of_lt hij hj) hj hk).1 (lt_of_le_of_lt hij hj)) B M hM c depth spacing

/-- **C98** Alloys. -/
theorem alloy_diagonal (W : World AK) (h : AlloyReady W (W.momentIds alloyKinds)) (R₀ R : Pairs.Rates ℝ) (mob : ℕ → Bool)
    (ht : ∀ i j, i ≤ j → j < W.n → ∀ k ∈ (alloyPair W.net (mob i) (mob j) (W.cl i) (W.cl j)).diss, Tidy1 (W.momentIds alloyKinds) k i j)
    (B : Build (W.dofs alloyKinds) (requests true (alloyRxns W (W.momentIds alloyKinds) R₀ mob))) (M : Network 1 ℝ) (hM : M.rxns = alloyRxns W (W.momentIds alloyKinds) R mob) (c : ℕ → ℝ) (depth spacing : ℝ) :
    Delivers B (fun c => M.fluxThreads c depth spacing) (threads true M c depth spacing) c (fun _ => True) := by
  have H := world_rxns alloyKinds_all.1 alloyRules R _ (fun i => alloySinks (mob i) (W.cl i)) (fun _ hi _ hj _ hk => (alloy_sound h mob hi hj hk).1) (fun _ hi _ hj _ hk => (alloy_soundD h mob hi hj hk).1) ht
  have hs := world_smooth W _ _ R _ _ M hM c
  exact (matrix_diagonal ⟨_, false, M.tmData⟩ M (alloy_within W h R₀ mob) (by rw [hM]; exact world_rates W _ _ R R₀ _ _) B (by rw [hM]; exact fun r hr => (H r hr).1) (by rw [hM]; exact fun r hr => (H r hr).2.1)
    (by rw [hM]; exact fun r hr => (H r hr).2.2) c hs.1 depth spacing).weaken fun n _ => hs.2 n

/-- **C98** Alloys without groups. -/
theorem alloy_singles (W : World AK) (h : AlloyReady W (W.momentIds alloyKinds)) (hs : ∀ k < W.n, (W.cl k).reg.e = (W.cl k).reg.b + 1) (R₀ R : Pairs.Rates ℝ) (mob : ℕ → Bool)
    (B : Build (W.dofs alloyKinds) (requests true (alloyRxns W (W.momentIds alloyKinds) R₀ mob))) (M : Network 1 ℝ) (hM : M.rxns = alloyRxns W (W.momentIds alloyKinds) R mob) (c : ℕ → ℝ) (depth spacing : ℝ) :
    Delivers B (fun c => M.fluxThreads c depth spacing) (threads true M c depth spacing) c (fun _ => True) :=
  alloy_diagonal W h R₀ R mob (fun _ _ hij hj _ hk => singles_tidy1 alloyKinds_all.1 alloyKinds_all.2 h.pos hs (alloy_soundD h mob (lt_of_le_of_lt hij hj) hj hk).1 (lt_of_le_of_lt hij hj)) B M hM c depth spacing

end

/-! ### Where the matrix is not the diagonal -/

/-- V_1 (0) and He_1V_[2,4) (1, moment 2). -/
def rNet : Net Unit [()] where
  n := 2
  cl k := if k = 0 then cl1 (0, 1) (1, 2) (0, 1) else cl1 (1, 2) (2, 4) (0, 1)
  nonneg := by decide
  disj := by
    intro k hk k' hk' x v i h h'
    have e3 := h.2.1
    have e4 := h'.2.1
    simp only [mem_pts] at e3 e4
    interval_cases k <;> interval_cases k' <;> first | rfl | (simp only [cl1] at e3 e4; simp at e3 e4; omega)

/-- The same clusters in the other order: He_1V_[2,4) (0, moment 2) and V_1 (1). -/
def rNet' : Net Unit [()] where
  n := 2
  cl k := if k = 0 then cl1 (1, 2) (2, 4) (0, 1) else cl1 (0, 1) (1, 2) (0, 1)
  nonneg := by decide
  disj := by
    intro k hk k' hk' x v i h h'
    have e3 := h.2.1
    have e4 := h'.2.1
    simp only [mem_pts] at e3 e4
    interval_cases k <;> interval_cases k' <;> first | rfl | (simp only [cl1] at e3 e4; simp at e3 e4; omega)

theorem rNet_laid : Laid rNet where
  lay := by
    intro k hk
    have : k < 2 := hk
    interval_cases k <;> refine ⟨by simp [Products.Small, rNet, cl1], by simp [Products.Small, rNet, cl1], by simp [Products.Small, rNet, cl1], by simp [rNet, cl1]⟩
  singleI := by
    intro k hk
    have : k < 2 := hk
    interval_cases k <;> decide
  singleV := by
    intro k hk
    have : k < 2 := hk
    interval_cases k <;> decide

theorem rNet'_laid : Laid rNet' where
  lay := by
    intro k hk
    have : k < 2 := hk
    interval_cases k <;> refine ⟨by simp [Products.Small, rNet', cl1], by simp [Products.Small, rNet', cl1], by simp [Products.Small, rNet', cl1], by simp [rNet', cl1]⟩
  singleI := by
    intro k hk
    have : k < 2 := hk
    interval_cases k <;> decide
  singleV := by
    intro k hk
    have : k < 2 := hk
    interval_cases k <;> decide

/-- The network of either, every rate one. -/
def rM (N : Net Unit [()]) : Network 2 ℚ :=
  ⟨feRxns N (N.momentIds true) ⟨fun _ _ _ => 1, fun _ _ _ => 1, fun _ _ _ => 1, fun _ => 1⟩ fun _ => true, false, ⟨none, 0, 0, 0, fun _ => 0, fun _ => 0, fun _ => false⟩⟩

theorem rM_numbered (N : Net Unit [()]) (h : Laid N) : ∀ r ∈ (rM N).rxns, r.Numbered := rxns_numbered h true _ _ (fe_known N h _)

theorem rM_within (N : Net Unit [()]) (h : Laid N) : ∀ r ∈ (rM N).rxns, r.Within (N.dofs true) := fe_within N h _ _

instance (r : DissRxn d K) : Decidable r.Mapped := inferInstanceAs (Decidable (∀ _, _))

instance (r : Rxn d K) : Decidable r.Mapped := by
  cases r with
  | diss r => exact inferInstanceAs (Decidable r.Mapped)
  | resol r => exact inferInstanceAs (Decidable r.Mapped)
  | _ => exact isTrue trivial

/-- No update goes through an element that was never set. -/
theorem rM_mapped : ∀ r ∈ (rM rNet).rxns, r.Mapped := by decide +kernel

/-- **C98** The unconditional statement fails: He_1V_[2,4) coming apart into V_1 and itself loses the derivative of its moment by its moment, `-1/2` for a rate of one, at every concentration and in every execution. -/
theorem diagonal_lost (B : Build 3 (requests true (rM rNet).rxns)) (m : Mem ℚ) (hc : Clean B m) (c : ℕ → ℚ) (depth spacing : ℚ) :
    ∃ ps, (threads true (rM rNet) c depth spacing).mapM (place B.crs) = some ps ∧ ∀ l, Interleaves ps l → ∃ m', rhsJacobian B.coo m l = some m' ∧
      m'.J 2 2 = netOf ((rM rNet).partialThreads c depth spacing).flatten (2, 2) + 1 / 2 := by
  obtain ⟨ps, e, H⟩ := matrix_reduced (rM rNet) (rM rNet) (rM_within rNet rNet_laid) rfl B (rM_numbered rNet rNet_laid) rM_mapped m hc c depth spacing
  refine ⟨ps, e, fun l hl => ?_⟩
  obtain ⟨m', e', -, hJ⟩ := H l hl
  refine ⟨m', e', ?_⟩
  have h2 : ((rM rNet).rxns.map (Rxn.missing 2)).sum = -1 / 2 := by decide +kernel
  rw [hJ, if_pos rfl, h2]
  norm_num

/-- **C98** With the same two clusters in the other order, every evaluation is undefined: the group comes apart into itself, listed first, and V_1. -/
theorem order_undefined (B : Build 3 (requests true (rM rNet').rxns)) (c : ℕ → ℚ) (depth spacing : ℚ) : (threads true (rM rNet') c depth spacing).mapM (place B.crs) = none := by
  have : ¬ ∀ r ∈ (rM rNet').rxns, r.Mapped := by decide +kernel
  rw [← defined_iff (rM rNet') (rM rNet') (rM_within rNet' rNet'_laid) rfl B (rM_numbered rNet' rNet'_laid) c depth spacing] at this
  exact Option.not_isSome_iff_eq_none.mp this

/-- **C98** The value that follows the option does not matter: the derivatives are reduced with `-snes_mf_operator false` too. The option without the suffix does not reduce them. -/
theorem value_ignored : chosen "-ts_dt 1.0e-12 -snes_mf_operator false".toList = true ∧ chosen "-ts_dt 1.0e-12 -snes_mf".toList = false := by decide +kernel

/-! ### Concrete cases -/

/-- V_1 (0), V_2 (1) and He_1V_1 (2): no groups. -/
def rSingle : Net Unit [()] where
  n := 3
  cl k := if k = 0 then cl1 (0, 1) (1, 2) (0, 1) else if k = 1 then cl1 (0, 1) (2, 3) (0, 1) else cl1 (1, 2) (1, 2) (0, 1)
  nonneg := by decide
  disj := by
    intro k hk k' hk' x v i h h'
    have e1 := h.1 () (by simp)
    have e2 := h'.1 () (by simp)
    have e3 := h.2.1
    have e4 := h'.2.1
    simp only [mem_pts] at e1 e2 e3 e4
    interval_cases k <;> interval_cases k' <;> first | rfl | (simp only [cl1] at e1 e2 e3 e4; simp at e1 e2 e3 e4; omega)

theorem rSingle_laid : Laid rSingle where
  lay := by
    intro k hk
    have : k < 3 := hk
    interval_cases k <;> refine ⟨by simp [Products.Small, rSingle, cl1], by simp [Products.Small, rSingle, cl1], by simp [Products.Small, rSingle, cl1], by simp [rSingle, cl1]⟩
  singleI := by
    intro k hk
    have : k < 3 := hk
    interval_cases k <;> decide
  singleV := by
    intro k hk
    have : k < 3 := hk
    interval_cases k <;> decide

/-- Iron with these clusters: complete executions exist, the array starts clean, and the theorem applies. -/
example (R₀ R : Rates ℝ) (c : ℕ → ℝ) (depth spacing : ℝ) (t : TmData ℝ) : ∃ B : Build (rSingle.dofs true) (requests true (feRxns rSingle (rSingle.momentIds true) R₀ fun _ => true)),
    Clean B (start B.nPartials fun _ _ => (0 : ℝ)) ∧ B.coo = [(0, 0), (1, 1), (2, 2), (3, 3)] ∧ Delivers B (fun c => (⟨feRxns rSingle (rSingle.momentIds true) R fun _ => true, false, t⟩ : Network 2 ℝ).fluxThreads c depth spacing)
      (threads true (⟨feRxns rSingle (rSingle.momentIds true) R fun _ => true, false, t⟩ : Network 2 ℝ) c depth spacing) c fun _ => True := by
  have hw := fe_within rSingle rSingle_laid R₀ fun _ => true
  obtain ⟨B⟩ := build_exists (rSingle.dofs true) (requests true (feRxns rSingle (rSingle.momentIds true) R₀ fun _ => true)) (within_rows hw)
  refine ⟨B, rfl, ?_, fe_singles rSingle rSingle_laid ?_ R₀ R _ B _ rfl c depth spacing⟩
  · rw [(coo_diagonal hw B).1]
    decide +kernel
  · intro k hk
    have : k < 3 := hk
    interval_cases k <;> decide

/-- The networks of the two orders have complete executions, three reactions each, and the entry that is lost. -/
example : Nonempty (Build 3 (requests true (rM rNet).rxns)) ∧ Nonempty (Build 3 (requests true (rM rNet').rxns)) ∧ (rM rNet).rxns.length = 3 ∧ (rM rNet').rxns.length = 3 ∧
    netOf ((rM rNet).partialThreads (fun _ => 1) 0 0).flatten (2, 2) = -2 :=
  ⟨build_exists _ _ (within_rows (rM_within rNet rNet_laid)), build_exists _ _ (within_rows (rM_within rNet' rNet'_laid)), by decide +kernel, by decide +kernel, by decide +kernel⟩

/-- With the single cluster first, one entry of the diagonal is lost and no other. -/
example : ((rM rNet).rxns.map (Rxn.missing 0)).sum = 0 ∧ ((rM rNet).rxns.map (Rxn.missing 1)).sum = 0 ∧ ((rM rNet).rxns.map (Rxn.missing 2)).sum = -1 / 2 := by decide +kernel

/-- The option among others. -/
example : chosen "-fieldsplit_0_pc_type redundant -snes_mf_operator -ts_dt 1.0e-12".toList = true := by decide +kernel

end Reduced

end Xolotl.Network
