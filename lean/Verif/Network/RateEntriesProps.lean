import Verif.Network.RateEntries
import Verif.Network.ConstantProps
import Verif.Network.SubInstanceProps
import Mathlib.Tactic.Set

/-!
# The table of positions of the constant rates: C95
-/

set_option linter.unusedSectionVars false

namespace Xolotl.Network

namespace RateEnt

variable {d : ℕ} {K : Type*}

theorem fold_table (pos : ℕ × Option ℕ → Option ℕ) (g : RateEntry d → Option (ℕ × Option ℕ)) (e : RateEntry d) :
    ∀ (L : List (RateEntry d × (ℕ × Option ℕ))) (t : RateEntry d → Option ℕ), (∀ a ∈ L, g a.1 = some a.2) →
      ((∃ p, (e, p) ∈ L) → L.foldl (fun t a => Function.update t a.1 (pos a.2)) t e = (g e).bind pos) ∧
      ((¬∃ p, (e, p) ∈ L) → L.foldl (fun t a => Function.update t a.1 (pos a.2)) t e = t e) := by
  intro L
  induction L with
  | nil => intro t _; simp
  | cons a L ih =>
    intro t h
    obtain ⟨i1, i2⟩ := ih (Function.update t a.1 (pos a.2)) fun b hb => h b (List.mem_cons_of_mem _ hb)
    rw [List.foldl_cons]
    constructor
    · rintro ⟨p, hp⟩
      by_cases hL : ∃ p, (e, p) ∈ L
      · exact i1 hL
      · rw [i2 hL]
        rcases List.mem_cons.1 hp with hp | hp
        · have := h a List.mem_cons_self
          rw [← hp] at this ⊢
          simp [this]
        · exact absurd ⟨p, hp⟩ hL
    · intro hn
      rw [i2 fun ⟨p, hp⟩ => hn ⟨p, List.mem_cons_of_mem _ hp⟩]
      exact Function.update_of_ne (fun h' => hn ⟨a.2, by rw [h']; exact List.mem_cons_self⟩) _ _

/-- The table: the position of the pair that was assigned, and 0 for the entries that were never set. -/
theorem table_eq (pos : ℕ × Option ℕ → Option ℕ) (L : List (RateEntry d × (ℕ × Option ℕ))) (g : RateEntry d → Option (ℕ × Option ℕ))
    (h : ∀ e p, (e, p) ∈ L ↔ g e = some p) (e : RateEntry d) : table pos L e = (g e).elim (some 0) pos := by
  obtain ⟨h1, h2⟩ := fold_table pos g e L (fun _ => some 0) fun a ha => (h a.1 a.2).1 ha
  unfold table
  cases hg : g e with
  | none => rw [h2 fun ⟨p, hp⟩ => by simp [(h e p).1 hp] at hg]; rfl
  | some p => rw [h1 ⟨p, (h e p).2 hg⟩, hg]; rfl

theorem mem_assign (e e' : RateEntry d) (p : Option (ℕ × Option ℕ)) (q : ℕ × Option ℕ) : (e', q) ∈ assign e p ↔ e' = e ∧ p = some q := by
  cases p with
  | none => simp [assign]
  | some p => simp [assign, eq_comm]

theorem rateCol_isSome (a b : Option ℕ) : (rateCol a b).isSome = (a.isSome && b.isSome) := by
  cases a <;> cases b <;> rfl

theorem rateConst_isSome (a : Option ℕ) : (rateConst a).isSome = a.isSome := by
  cases a <;> rfl

/-- One access, when the table has what the entry stands for. -/
theorem map_access (pos : ℕ × Option ℕ → Option ℕ) (t : RateEntry d → Option ℕ) (b : Bool) (e : RateEntry d) (v : K) (p : Option (ℕ × Option ℕ)) (hb : b = p.isSome)
    (ht : t e = p.elim (some 0) pos) : (access b e v).map (fun u => (t u.1, u.2)) = (emit p v).map fun u => (pos u.1, u.2) := by
  subst hb
  cases p with
  | none => rfl
  | some p => simp [access, emit, ht]

/-- The positions of one sub-network do not depend on the other sub-networks. -/
theorem tables_eq (L : List ((ℕ × Option ℕ → Option ℕ) × List (RateEntry d × (ℕ × Option ℕ)))) (i : ℕ) (l : (ℕ × Option ℕ → Option ℕ) × List (RateEntry d × (ℕ × Option ℕ)))
    (h : L[i]? = some l) : tables L i = table l.1 l.2 := by
  have key : ∀ (L : List ((ℕ × Option ℕ → Option ℕ) × List (RateEntry d × (ℕ × Option ℕ)))) (k : ℕ) (t : ℕ → RateEntry d → Option ℕ),
      (∀ j, k ≤ j → t j = fun _ => some 0) →
      (∀ j l, L[j]? = some l → (L.zipIdx k).foldl (fun t l => Function.update t l.2 (l.1.2.foldl (fun t a => Function.update t a.1 (l.1.1 a.2)) (t l.2))) t (k + j) = table l.1 l.2) ∧
      ∀ j, j < k → (L.zipIdx k).foldl (fun t l => Function.update t l.2 (l.1.2.foldl (fun t a => Function.update t a.1 (l.1.1 a.2)) (t l.2))) t j = t j := by
    intro L
    induction L with
    | nil => intro k t _; simp
    | cons a L ih =>
      intro k t ht
      rw [List.zipIdx_cons, List.foldl_cons]
      obtain ⟨i1, i2⟩ := ih (k + 1) (Function.update t k (a.2.foldl (fun t b => Function.update t b.1 (a.1 b.2)) (t k)))
        fun j hj => by rw [Function.update_of_ne (by omega)]; exact ht j (by omega)
      constructor
      · intro j l hl
        cases j with
        | zero =>
          simp only [List.getElem?_cons_zero, Option.some.injEq] at hl
          subst hl
          refine (i2 k (by omega)).trans ?_
          rw [Function.update_self, ht k le_rfl]
          rfl
        | succ j =>
          rw [show k + (j + 1) = k + 1 + j by omega]
          exact i1 j l (by simpa using hl)
      · intro j hj
        exact (i2 j (by omega)).trans (Function.update_of_ne (by omega) _ _)
  have := (key L 0 (fun _ _ => some 0) fun _ _ => rfl).1 i l h
  rw [Nat.zero_add] at this
  exact this

end RateEnt

open RateEnt

namespace ProdRxn

variable {d : ℕ} {K : Type*} [Field K] (r : ProdRxn d K) (inS : ℕ → Bool)

/-- The row that an entry stands for if the reactant `x` is in. -/
def entryRow (x : Slot) : Fin 3 → Option (Fin d) → Option ℕ
  | 0, none => r.id x
  | 0, some k => r.mom x k
  | 1, γ => r.subRow inS .p1 γ
  | 2, γ => r.subRow inS .p2 γ

theorem mem_mapIn (x : Slot) (col : Option (Fin d) → Option ℕ) (e : RateEntry d) (p : ℕ × Option ℕ) :
    (e, p) ∈ r.mapIn inS x col ↔ rateCol (r.entryRow inS x e.1 e.2.1) (col e.2.2) = some p := by
  obtain ⟨n, γ, α⟩ := e
  simp only [mapIn, mapZero, mapMoment, List.mem_append, List.mem_flatMap, List.mem_finRange, true_and, mem_assign, Prod.mk.injEq]
  fin_cases n <;> rcases γ with _ | γ <;> rcases α with _ | α <;> simp [entryRow]

/-- The pair that an entry stands for if both reactants are out. -/
def entryOut : RateEntry d → Option (ℕ × Option ℕ)
  | (1, none, none) => match r.prod1, r.prod2 with
    | some a, _ => if inS a then some (a, none) else none
    | none, some b => if inS b then some (b, none) else none
    | none, none => none
  | (2, none, none) => match r.prod1, r.prod2 with
    | some _, some b => if inS b then some (b, none) else none
    | _, _ => none
  | (1, some k, none) => rateConst (r.subRow inS .p1 (some k))
  | (2, some k, none) => rateConst (r.subRow inS .p2 (some k))
  | _ => none

theorem mem_mapOut (e : RateEntry d) (p : ℕ × Option ℕ) : (e, p) ∈ r.mapOut inS ↔ r.entryOut inS e = some p := by
  obtain ⟨n, γ, α⟩ := e
  unfold mapOut
  rcases h1 : r.prod1 with _ | a <;> rcases h2 : r.prod2 with _ | b <;>
  simp only [List.mem_append, List.mem_flatMap, List.mem_finRange, true_and, mem_assign, Prod.mk.injEq, List.not_mem_nil, false_or] <;>
  fin_cases n <;> rcases γ with _ | γ <;> rcases α with _ | α <;> simp [entryOut, h1, h2]

theorem map_zero (pos : ℕ × Option ℕ → Option ℕ) (t : RateEntry d → Option ℕ) (x : Slot) (hx : (r.id x).isSome) (col : Option (Fin d) → Option ℕ)
    (ht : ∀ e, t e = (rateCol (r.entryRow inS x e.1 e.2.1) (col e.2.2)).elim (some 0) pos) (α : Option (Fin d)) (f : K) (b : Bool) (hb : b = (col α).isSome) :
    (r.accessZero inS x α b f).map (fun u => (t u.1, u.2)) = (r.constZero inS x (col α) f).map fun u => (pos u.1, u.2) := by
  simp only [accessZero, constZero, List.map_append]
  congr 1
  · congr 1
    · exact map_access pos t _ _ _ _ (by rw [rateCol_isSome, hx, hb, Bool.true_and]) (ht _)
    · exact map_access pos t _ _ _ _ (by rw [rateCol_isSome, hb, Bool.and_comm]) (ht _)
  · exact map_access pos t _ _ _ _ (by rw [rateCol_isSome, hb, Bool.and_comm]) (ht _)

theorem map_moment (pos : ℕ × Option ℕ → Option ℕ) (t : RateEntry d → Option ℕ) (n : Fin 3) (k : Fin d) (row : Option ℕ) (col : Option (Fin d) → Option ℕ) (hc : (col none).isSome)
    (ht : ∀ α, t (n, some k, α) = (rateCol row (col α)).elim (some 0) pos) (f : Option (Fin d) → K) :
    (accessMoment n k row.isSome col f).map (fun u => (t u.1, u.2)) = (constMoment row col f).map fun u => (pos u.1, u.2) := by
  simp only [accessMoment, constMoment, List.map_append, List.map_flatMap]
  congr 1
  · exact map_access pos t _ _ _ _ (by rw [rateCol_isSome, hc, Bool.and_true]) (ht _)
  · exact List.flatMap_congr fun i _ => map_access pos t _ _ _ _ (by rw [rateCol_isSome]) (ht _)

/-- **C95, production.** Through its table, a production reaction adds every rate at the position of the pair of degrees of freedom it belongs to: no entry is read that was not set for it. -/
theorem entries_rates (pos : ℕ × Option ℕ → Option ℕ) (c : ℕ → K) :
    (r.accesses inS c).map (fun u => (table pos (r.mapRateEntries inS) u.1, u.2)) = (r.computeConstantRates inS c).map fun u => (pos u.1, u.2) := by
  unfold accesses mapRateEntries computeConstantRates
  rcases h1 : inS r.r1 with _ | _ <;> rcases h2 : inS r.r2 with _ | _
  · simp only
    split
    · have ht := table_eq pos (r.mapOut inS) (r.entryOut inS) (r.mem_mapOut inS)
      unfold accessOut constBothOut
      simp only [List.map_append, List.map_flatMap]
      congr 1
      · rcases e1 : r.prod1 with _ | a <;> rcases e2 : r.prod2 with _ | b <;> simp only [List.map_append, List.map_nil]
        · refine map_access pos _ _ _ _ (if inS b then some (b, none) else none) ?_ ?_ |>.trans ?_
          · cases inS b <;> rfl
          · rw [ht]; simp [entryOut, e1, e2]
          · cases inS b <;> rfl
        · refine map_access pos _ _ _ _ (if inS a then some (a, none) else none) ?_ ?_ |>.trans ?_
          · cases inS a <;> rfl
          · rw [ht]; simp [entryOut, e1, e2]
          · cases inS a <;> rfl
        · congr 1
          · refine map_access pos _ _ _ _ (if inS a then some (a, none) else none) ?_ ?_ |>.trans ?_
            · cases inS a <;> rfl
            · rw [ht]; simp [entryOut, e1]
            · cases inS a <;> rfl
          · refine map_access pos _ _ _ _ (if inS b then some (b, none) else none) ?_ ?_ |>.trans ?_
            · cases inS b <;> rfl
            · rw [ht]; simp [entryOut, e1, e2]
            · cases inS b <;> rfl
      · refine List.flatMap_congr fun k _ => ?_
        congr 1
        · exact map_access pos _ _ _ _ _ (rateConst_isSome _).symm (ht _)
        · exact map_access pos _ _ _ _ _ (rateConst_isSome _).symm (ht _)
    · rfl
  · have ht := table_eq pos (r.mapIn inS .r2 r.colB) _ (r.mem_mapIn inS .r2 r.colB)
    simp only [accessSecond, constSecondIn, List.map_append, List.map_flatMap]
    congr 1
    · congr 1
      · exact r.map_zero inS pos _ .r2 rfl r.colB ht none _ _ rfl
      · exact List.flatMap_congr fun i _ => r.map_zero inS pos _ .r2 rfl r.colB ht (some i) _ _ rfl
    · refine List.flatMap_congr fun k _ => ?_
      congr 1
      · congr 1
        · exact map_moment pos _ 0 k _ r.colB rfl (fun α => ht _) _
        · exact map_moment pos _ 1 k _ r.colB rfl (fun α => ht _) _
      · exact map_moment pos _ 2 k _ r.colB rfl (fun α => ht _) _
  · have ht := table_eq pos (r.mapIn inS .r1 r.colA) _ (r.mem_mapIn inS .r1 r.colA)
    simp only [accessFirst, constFirstIn, List.map_append, List.map_flatMap]
    congr 1
    · congr 1
      · exact r.map_zero inS pos _ .r1 rfl r.colA ht none _ _ rfl
      · exact List.flatMap_congr fun i _ => r.map_zero inS pos _ .r1 rfl r.colA ht (some i) _ _ rfl
    · refine List.flatMap_congr fun k _ => ?_
      congr 1
      · congr 1
        · exact map_moment pos _ 0 k _ r.colA rfl (fun α => ht _) _
        · exact map_moment pos _ 1 k _ r.colA rfl (fun α => ht _) _
      · exact map_moment pos _ 2 k _ r.colA rfl (fun α => ht _) _
  · rfl

/-- **C95, the entries that are set, production.** Every entry is set to the position of a pair that was marked, so it is one of the array of rates. -/
theorem set_marked (e : RateEntry d) (p : ℕ × Option ℕ) (h : (e, p) ∈ r.mapRateEntries inS) : p ∈ r.constConnectivities inS := by
  rw [constant_connectivities]
  unfold ConstPos
  unfold mapRateEntries at h
  rcases h1 : inS r.r1 with _ | _ <;> rcases h2 : inS r.r2 with _ | _ <;> simp only [h1, h2] at h
  · refine .inl ⟨rfl, rfl, ?_⟩
    split at h
    · rw [mem_mapOut] at h
      have key : ∀ q a, r.id q = some a → (if inS a then some (a, (none : Option ℕ)) else none) = some p → p.2 = none ∧ r.subRow inS q none = some p.1 := by
        intro q a hq hp
        split at hp
        · rename_i ha
          cases hp
          exact ⟨rfl, by simp [subRow, rowId, hq, ha]⟩
        · cases hp
      obtain ⟨n, γ, α⟩ := e
      unfold entryOut at h
      split at h
      · split at h
        · rename_i _ a e1
          obtain ⟨a1, a2⟩ := key .p1 a e1 h
          exact ⟨a1, _, _, .inl rfl, a2⟩
        · rename_i b e1 e2
          obtain ⟨a1, a2⟩ := key .p2 b e2 h
          exact ⟨a1, _, _, .inr rfl, a2⟩
        · cases h
      · split at h
        · rename_i a b e1 e2
          obtain ⟨a1, a2⟩ := key .p2 b e2 h
          exact ⟨a1, _, _, .inr rfl, a2⟩
        · cases h
      · rw [rateConst_eq] at h
        exact ⟨h.2, _, _, .inl rfl, h.1⟩
      · rw [rateConst_eq] at h
        exact ⟨h.2, _, _, .inr rfl, h.1⟩
      · cases h
    · cases h
  · refine .inr (.inr ⟨rfl, rfl, ?_⟩)
    rw [mem_mapIn, rateCol_eq] at h
    obtain ⟨n, γ, α⟩ := e
    fin_cases n
    · refine ⟨.r2, γ, .inl rfl, ?_, α, h.2⟩
      rw [← h.1]; cases γ <;> simp [entryRow, subRow, rowId, h2, id]
    · exact ⟨.p1, γ, .inr (.inl rfl), h.1, α, h.2⟩
    · exact ⟨.p2, γ, .inr (.inr rfl), h.1, α, h.2⟩
  · refine .inr (.inl ⟨rfl, rfl, ?_⟩)
    rw [mem_mapIn, rateCol_eq] at h
    obtain ⟨n, γ, α⟩ := e
    fin_cases n
    · refine ⟨.r1, γ, .inl rfl, ?_, α, h.2⟩
      rw [← h.1]; cases γ <;> simp [entryRow, subRow, rowId, h1, id]
    · exact ⟨.p1, γ, .inr (.inl rfl), h.1, α, h.2⟩
    · exact ⟨.p2, γ, .inr (.inr rfl), h.1, α, h.2⟩
  · cases h

end ProdRxn

namespace DissRxn

variable {d : ℕ} {K : Type*} [Field K] (r : DissRxn d K) (inS : ℕ → Bool)

/-- The row that an entry stands for if the reactant is in. -/
def entryRow : Fin 3 → Option (Fin d) → Option ℕ
  | 0, γ => r.dofOf .r γ
  | 1, γ => r.subRow inS .p1 γ
  | 2, γ => r.subRow inS .p2 γ

theorem mem_mapIn (e : RateEntry d) (p : ℕ × Option ℕ) :
    (e, p) ∈ r.mapIn inS ↔ rateCol (r.entryRow inS e.1 e.2.1) (r.dofOf .r e.2.2) = some p := by
  obtain ⟨n, γ, α⟩ := e
  simp only [mapIn, mapZero, ProdRxn.mapMoment, List.mem_append, List.mem_flatMap, List.mem_finRange, true_and, mem_assign, Prod.mk.injEq]
  fin_cases n <;> rcases γ with _ | γ <;> rcases α with _ | α <;> simp [entryRow, dofOf]

/-- The pair that an entry stands for if the reactant is out. -/
def entryOut : RateEntry d → Option (ℕ × Option ℕ)
  | (1, γ, none) => rateConst (r.subRow inS .p1 γ)
  | (2, γ, none) => rateConst (r.subRow inS .p2 γ)
  | _ => none

theorem mem_mapOut (e : RateEntry d) (p : ℕ × Option ℕ) : (e, p) ∈ r.mapOut inS ↔ r.entryOut inS e = some p := by
  obtain ⟨n, γ, α⟩ := e
  simp only [mapOut, List.mem_append, List.mem_flatMap, List.mem_finRange, true_and, mem_assign, Prod.mk.injEq]
  fin_cases n <;> rcases γ with _ | γ <;> rcases α with _ | α <;> simp [entryOut]

theorem map_zero (pos : ℕ × Option ℕ → Option ℕ) (t : RateEntry d → Option ℕ)
    (ht : ∀ e, t e = (rateCol (r.entryRow inS e.1 e.2.1) (r.dofOf .r e.2.2)).elim (some 0) pos) (α : Option (Fin d)) (f : K) :
    (r.accessZero inS α f).map (fun u => (t u.1, u.2)) = (r.constZero inS (r.dofOf .r α) f).map fun u => (pos u.1, u.2) := by
  simp only [accessZero, constZero, List.map_append]
  congr 1
  · congr 1
    · exact map_access pos t _ _ _ _ (by rw [rateCol_isSome]; rfl) (ht _)
    · exact map_access pos t _ _ _ _ (by rw [rateCol_isSome, Bool.and_comm]) (ht _)
  · exact map_access pos t _ _ _ _ (by rw [rateCol_isSome, Bool.and_comm]) (ht _)

/-- **C95, dissociation.** The same, except that the moment columns of the first product go through the entries of the reactant; if the reactant has no such moment, the entry was never set and
stands for position 0. -/
theorem entries_rates (pos : ℕ × Option ℕ → Option ℕ) (unset : ℕ × Option ℕ) (h0 : inS (r.id .r) = true → r.allIn inS = false → pos unset = some 0) (c : ℕ → K) :
    (r.accesses inS c).map (fun u => (table pos (r.mapRateEntries inS) u.1, u.2)) = (r.computeConstantRates inS unset c).map fun u => (pos u.1, u.2) := by
  unfold accesses mapRateEntries computeConstantRates
  by_cases ho : (!inS (r.id .r) && !inS (r.id .p1) && !inS (r.id .p2)) = true
  · simp only [if_pos ho, ite_self, List.map_nil]
  · simp only [if_neg ho]
    by_cases ha : r.allIn inS = true
    · simp only [if_pos ha, List.map_nil]
    · simp only [if_neg ha]
      by_cases hr : inS (r.id .r) = true
      · simp only [if_pos hr]
        have ht := table_eq pos (r.mapIn inS) _ (r.mem_mapIn inS)
        unfold accessIn constIn
        simp only [List.map_append, List.map_flatMap]
        congr 1
        · congr 1
          · exact r.map_zero inS pos _ ht none _
          · exact List.flatMap_congr fun i _ => r.map_zero inS pos _ ht (some i) _
        · refine List.flatMap_congr fun k _ => ?_
          congr 1
          · congr 1
            · congr 1
              · exact map_access pos _ _ _ _ _ (by rw [rateCol_isSome]; simp [dofOf]) (ht _)
              · exact List.flatMap_congr fun i _ => map_access pos _ _ _ _ _ (by rw [rateCol_isSome]) (ht _)
            · congr 1
              · exact map_access pos _ _ _ _ _ (by rw [rateCol_isSome]; simp [dofOf]) (ht _)
              · refine List.flatMap_congr fun i _ => ?_
                have e : table pos (r.mapIn inS) (0, some k, some i) = pos ((rateCol (r.mom .r k) (r.mom .r i)).getD unset) := by
                  rw [ht]
                  simp only [entryRow, dofOf]
                  cases rateCol (r.mom .r k) (r.mom .r i) with
                  | none => exact (h0 hr (by simpa using ha)).symm
                  | some p => rfl
                unfold access emitIf
                split
                · simp [emit, e]
                · rfl
          · congr 1
            · exact map_access pos _ _ _ _ _ (by rw [rateCol_isSome]; simp [dofOf]) (ht _)
            · exact List.flatMap_congr fun i _ => map_access pos _ _ _ _ _ (by rw [rateCol_isSome]) (ht _)
      · simp only [if_neg hr]
        have ht := table_eq pos (r.mapOut inS) _ (r.mem_mapOut inS)
        unfold accessOut constOut
        simp only [List.map_append, List.map_flatMap]
        congr 1
        · congr 1
          · exact map_access pos _ _ _ _ _ (rateConst_isSome _).symm (by rw [ht]; rfl)
          · exact map_access pos _ _ _ _ _ (rateConst_isSome _).symm (by rw [ht]; rfl)
        · refine List.flatMap_congr fun k _ => ?_
          congr 1
          · exact map_access pos _ _ _ _ _ (rateConst_isSome _).symm (by rw [ht]; rfl)
          · exact map_access pos _ _ _ _ _ (rateConst_isSome _).symm (by rw [ht]; rfl)

/-- **C95, the entries that are set, dissociation.** Every entry is set to the position of a pair that was marked; a dissociation wholly inside or wholly outside sets none. -/
theorem set_marked (e : RateEntry d) (p : ℕ × Option ℕ) (h : (e, p) ∈ r.mapRateEntries inS) : p ∈ r.constConnectivities inS := by
  rw [constant_connectivities]
  unfold ConstPos
  unfold mapRateEntries at h
  split at h
  · cases h
  split at h
  · cases h
  rename_i ha
  refine ⟨by simpa using ha, ?_⟩
  split at h
  · rename_i hr
    refine .inr ⟨hr, ?_⟩
    rw [mem_mapIn, ProdRxn.rateCol_eq] at h
    obtain ⟨n, γ, α⟩ := e
    refine ⟨?_, α, h.2⟩
    fin_cases n
    · refine ⟨.r, γ, ?_⟩
      rw [← h.1]; simp [entryRow, subRow, hr]
    · exact ⟨.p1, γ, h.1⟩
    · exact ⟨.p2, γ, h.1⟩
  · rename_i hr
    refine .inl ⟨by simpa using hr, ?_⟩
    rw [mem_mapOut] at h
    obtain ⟨n, γ, α⟩ := e
    unfold entryOut at h
    split at h
    · rw [ProdRxn.rateConst_eq] at h
      exact ⟨h.2, _, _, h.1⟩
    · rw [ProdRxn.rateConst_eq] at h
      exact ⟨h.2, _, _, h.1⟩
    · cases h

/-- Every pair a dissociation uses is marked, except possibly the one that an entry that was never set stands for. -/
theorem covered_or_unset (unset : ℕ × Option ℕ) (c : ℕ → K) (u : (ℕ × Option ℕ) × K) (hu : u ∈ r.computeConstantRates inS unset c) :
    u.1 ∈ r.constConnectivities inS ∨ (u.1 = unset ∧ inS (r.id .r) = true ∧ r.allIn inS = false) := by
  rw [constant_connectivities]
  unfold ConstPos
  unfold computeConstantRates at hu
  split at hu
  · cases hu
  rename_i ha
  have ha' : r.allIn inS = false := by simpa using ha
  split at hu
  · cases hu
  split at hu
  · rename_i hr
    have e : ∀ γ, r.dofOf .r γ = r.subRow inS .r γ := fun γ => by simp [subRow, hr]
    have key : ∀ q γ α (v : K), u ∈ emit (rateCol (r.subRow inS q γ) (r.dofOf .r α)) v →
        (∃ q γ, r.subRow inS q γ = some u.1.1) ∧ ∃ α b, r.dofOf .r α = some b ∧ u.1.2 = some b :=
      fun q γ α v h => by
        obtain ⟨a, b⟩ := mem_emitCol h
        exact ⟨⟨q, γ, a⟩, α, b⟩
    have fin := fun h : (∃ q γ, r.subRow inS q γ = some u.1.1) ∧ ∃ α b, r.dofOf .r α = some b ∧ u.1.2 = some b =>
      (Or.inl ⟨ha', Or.inr ⟨hr, h⟩⟩ : (r.allIn inS = false ∧ (inS (r.id .r) = false ∧ u.1.2 = none ∧ (∃ q γ, r.subRow inS q γ = some u.1.1) ∨
        inS (r.id .r) = true ∧ (∃ q γ, r.subRow inS q γ = some u.1.1) ∧ ∃ α b, r.dofOf .r α = some b ∧ u.1.2 = some b)) ∨
        (u.1 = unset ∧ inS (r.id .r) = true ∧ r.allIn inS = false))
    simp only [constIn, constZero, List.mem_append, List.mem_flatMap, List.mem_finRange, true_and] at hu
    rcases hu with (((hu | hu) | hu) | ⟨i, (hu | hu) | hu⟩) |
      ⟨k, ((hu | ⟨i, hu⟩) | hu | ⟨i, hu⟩) | hu | ⟨i, hu⟩⟩
    · exact fin (key .r none none _ (by rw [← e]; exact hu))
    · exact fin (key _ _ _ _ hu)
    · exact fin (key _ _ _ _ hu)
    · exact fin (key .r none (some i) _ (by rw [← e]; exact hu))
    · exact fin (key _ _ _ _ hu)
    · exact fin (key _ _ _ _ hu)
    · exact fin (key .r (some k) none _ (by rw [← e]; exact hu))
    · exact fin (key .r (some k) (some i) _ (by rw [← e]; exact hu))
    · exact fin (key _ _ _ _ hu)
    · unfold emitIf at hu
      split at hu
      · simp only [emit, List.mem_singleton] at hu
        cases hc : rateCol (r.mom .r k) (r.mom .r i) with
        | none =>
          refine Or.inr ⟨?_, hr, ha'⟩
          rw [hu, hc]
          rfl
        | some p =>
          refine fin (key .r (some k) (some i) u.2 ?_)
          rw [← e]
          show u ∈ emit (rateCol (r.mom .r k) (r.mom .r i)) u.2
          rw [hc] at hu ⊢
          rw [hu]
          exact List.mem_singleton.2 rfl
      · cases hu
    · exact fin (key _ _ _ _ hu)
    · exact fin (key .p2 (some k) (some i) _ hu)
  · rename_i hr
    left
    refine ⟨ha', Or.inl ⟨by simpa using hr, ?_⟩⟩
    have key : ∀ q γ (v : K), u ∈ emit (rateConst (r.subRow inS q γ)) v →
        u.1.2 = none ∧ ∃ q γ, r.subRow inS q γ = some u.1.1 := fun q γ v h => by
      obtain ⟨a, b⟩ := (ProdRxn.rateConst_eq _ _).mp (ProdRxn.mem_emit h)
      exact ⟨b, q, γ, a⟩
    simp only [constOut, List.mem_append, List.mem_flatMap, List.mem_finRange, true_and] at hu
    rcases hu with (hu | hu) | ⟨k, hu | hu⟩ <;> exact key _ _ _ hu

/-- The reactant in a sub-network without all products marks its own pair. -/
theorem reactant_marked (hr : inS (r.id .r) = true) (ha : r.allIn inS = false) : (r.id .r, some (r.id .r)) ∈ r.constConnectivities inS := by
  rw [constant_connectivities]
  exact ⟨ha, Or.inr ⟨hr, ⟨.r, none, by simp [subRow, hr, dofOf]⟩, none, r.id .r, rfl, rfl⟩⟩

end DissRxn

namespace RateEnt

variable {d : ℕ} {K : Type*} [Field K]

theorem marked_iff (n : ℕ) (back : ℕ → ℕ) (conns : List (ℕ × Option ℕ)) (i j : ℕ) :
    marked n back conns i j = true ↔ ∃ p ∈ conns, back p.1 = i ∧ (p.2.map back).getD n = j := by
  simp [marked]

theorem add_eq (size : ℕ) (t : RateEntry d → Option ℕ) (pos : ℕ × Option ℕ → Option ℕ) : ∀ (L : List (RateEntry d × K)) (C : List ((ℕ × Option ℕ) × K)),
    L.map (fun u => (t u.1, u.2)) = C.map (fun u => (pos u.1, u.2)) → (∀ u ∈ C, ∃ q, pos u.1 = some q ∧ q < size) →
    add size t L = some (C.flatMap fun u => emit (pos u.1) u.2) := by
  intro L
  induction L with
  | nil =>
    intro C h _
    cases C with
    | nil => rfl
    | cons _ _ => simp at h
  | cons a L ih =>
    intro C h hC
    cases C with
    | nil => simp at h
    | cons u C =>
      simp only [List.map_cons, List.cons.injEq, Prod.mk.injEq] at h
      obtain ⟨q, hq, hs⟩ := hC u List.mem_cons_self
      have := ih C h.2 fun w hw => hC w (List.mem_cons_of_mem _ hw)
      unfold add at this ⊢
      rw [List.mapM_cons, this, h.1.1, hq]
      simp [hs, h.1.2, List.flatMap_cons, hq, show emit (some q) u.2 = [(q, u.2)] from rfl]

theorem mapM_flat {A B : Type*} (f : A → Option (List B)) (g : A → List B) (l : List A) (h : ∀ a ∈ l, f a = some (g a)) :
    (l.mapM f).map List.flatten = some (l.flatMap g) := by
  induction l with
  | nil => rfl
  | cons a l ih =>
    have := ih fun b hb => h b (List.mem_cons_of_mem _ hb)
    rw [List.mapM_cons, h a List.mem_cons_self]
    cases hl : l.mapM f with
    | none => rw [hl] at this; cases this
    | some x =>
      rw [hl] at this
      simp only [Option.map_some, Option.some.injEq] at this
      simp [this]

/-- **C95, the array of a sub-network.** Whatever the full network and the sub-network: no access is outside the array, and at the position of every pair (row, column) of the sub-network the array has the
sum of the rates that all reactions have for it. -/
theorem array_rates (P : List (ProdRxn d K)) (D : List (DissRxn d K)) (inS : ℕ → Bool) (n : ℕ) (back : ℕ → ℕ) (c : ℕ → K)
    (hb : ∀ p ∈ Const.allConns P D inS, back p.1 < n ∧ ∀ m, p.2 = some m → back m < n) :
    ∃ (A : List K) (unset : ℕ × Option ℕ), array P D inS n back c = some A ∧ A.length = size n (marked n back (Const.allConns P D inS)) ∧
      (Const.allConns P D inS ≠ [] → unset ∈ Const.allConns P D inS ∧ position n back (marked n back (Const.allConns P D inS)) unset = some 0) ∧
      ∀ p q, p.1 < n → (∀ m, p.2 = some m → m < n) → Sub.place n (marked n back (Const.allConns P D inS)) p = some q →
        A[q]? = some (netOf (Const.subRates back (Const.allRates P D inS unset c)) p) := by
  set conns := Const.allConns P D inS with hconns
  set M := marked n back conns with hM
  have col : ∀ p ∈ conns, (p.2.map back).getD n < n + 1 := fun p hp => by
    cases hp2 : p.2 with
    | none => simp
    | some m =>
      have := (hb p hp).2 m hp2
      simp
      omega
  have pos : ∀ p ∈ conns, ∃ q, position n back M p = some q ∧ q < size n M := fun p hp => by
    obtain ⟨q, hq⟩ := Option.isSome_iff_exists.mp (((Sub.getPosition_marked n (n + 1) M (hb p hp).1 ((p.2.map back).getD n)).1).mpr
      ⟨col p hp, (marked_iff _ _ _ _ _).2 ⟨p, hp, rfl, rfl⟩⟩)
    exact ⟨q, hq, (Sub.getPosition_marked n (n + 1) M (hb p hp).1 _).2 q hq⟩
  have hun : ∃ unset : ℕ × Option ℕ, conns ≠ [] → unset ∈ conns ∧ position n back M unset = some 0 := by
    by_cases hc : conns = []
    · exact ⟨(0, none), fun h => absurd hc h⟩
    · obtain ⟨p, hp⟩ := List.exists_mem_of_ne_nil _ hc
      obtain ⟨q, _, hq⟩ := pos p hp
      obtain ⟨i, j, hi, hj, hm, h0⟩ := Sub.getPosition_surj n (n + 1) M (show 0 < (Sub.csr n (n + 1) M).2.length from Nat.zero_lt_of_lt hq)
      obtain ⟨p', hp', rfl, rfl⟩ := (marked_iff _ _ _ _ _).1 hm
      exact ⟨p', fun _ => ⟨hp', h0⟩⟩
  obtain ⟨unset, hun⟩ := hun
  have covP : ∀ r ∈ P, ∀ u ∈ r.computeConstantRates inS c, u.1 ∈ conns := fun r hr u hu =>
    List.mem_append_left _ (List.mem_flatMap.2 ⟨r, hr, r.constant_rates_covered inS c u hu⟩)
  have inD : ∀ r ∈ D, ∀ p ∈ r.constConnectivities inS, p ∈ conns := fun r hr p hp => List.mem_append_right _ (List.mem_flatMap.2 ⟨r, hr, hp⟩)
  have un : ∀ r ∈ D, inS (r.id .r) = true → r.allIn inS = false → unset ∈ conns ∧ position n back M unset = some 0 := fun r hr h1 h2 =>
    hun (List.ne_nil_of_mem (inD r hr _ (r.reactant_marked inS h1 h2)))
  have covD : ∀ r ∈ D, ∀ u ∈ r.computeConstantRates inS unset c, u.1 ∈ conns := fun r hr u hu => by
    rcases r.covered_or_unset inS unset c u hu with h | ⟨h, h1, h2⟩
    · exact inD r hr _ h
    · rw [h]; exact (un r hr h1 h2).1
  have eP := mapM_flat (fun r => add (size n M) (table (position n back M) (r.mapRateEntries inS)) (r.accesses inS c))
    (fun r : ProdRxn d K => (r.computeConstantRates inS c).flatMap fun u => emit (position n back M u.1) u.2) P
    fun r hr => add_eq _ _ _ _ _ (r.entries_rates inS _ c) fun u hu => pos _ (covP r hr u hu)
  have eD := mapM_flat (fun r => add (size n M) (table (position n back M) (r.mapRateEntries inS)) (r.accesses inS c))
    (fun r : DissRxn d K => (r.computeConstantRates inS unset c).flatMap fun u => emit (position n back M u.1) u.2) D
    fun r hr => add_eq _ _ _ _ _ (r.entries_rates inS _ unset (fun h1 h2 => (un r hr h1 h2).2) c) fun u hu => pos _ (covD r hr u hu)
  have hall : addAll P D inS (size n M) (position n back M) c = some ((Const.allRates P D inS unset c).flatMap fun u => emit (position n back M u.1) u.2) := by
    unfold addAll
    cases hp : P.mapM fun r => add (size n M) (table (position n back M) (r.mapRateEntries inS)) (r.accesses inS c) with
    | none => rw [hp] at eP; cases eP
    | some a =>
      cases hd : D.mapM fun r => add (size n M) (table (position n back M) (r.mapRateEntries inS)) (r.accesses inS c) with
      | none => rw [hd] at eD; cases eD
      | some b =>
        rw [hp] at eP
        rw [hd] at eD
        simp only [Option.map_some, Option.some.injEq] at eP eD
        simp only [Option.bind_eq_bind, Option.bind_some, Option.pure_def, eP, eD, Const.allRates, List.flatMap_append, List.flatMap_assoc]
  refine ⟨_, unset, (congrArg (Option.map fun A => (List.range (size n M)).map (netOf A)) hall).trans rfl, by simp [hM], hun, fun p q h1 h2 hq => ?_⟩
  have hlt : q < size n M := (Sub.getPosition_marked n (n + 1) M h1 _).2 q hq
  rw [List.getElem?_map, List.getElem?_range hlt, Option.map_some]
  congr 1
  have := Sub.rate_array n M (Const.subRates back (Const.allRates P D inS unset c)) (fun u hu => ?_) p h1 h2 hq
  · rw [← this]
    congr 1
    simp only [Const.subRates, List.flatMap_map]
    rfl
  · obtain ⟨w, hw, rfl⟩ := List.mem_map.1 hu
    have hc : w.1 ∈ conns := by
      rcases List.mem_append.1 hw with hw | hw
      · obtain ⟨r, hr, hw⟩ := List.mem_flatMap.1 hw
        exact covP r hr w hw
      · obtain ⟨r, hr, hw⟩ := List.mem_flatMap.1 hw
        exact covD r hr w hw
    refine ⟨(hb _ hc).1, fun m hm => ?_, (marked_iff _ _ _ _ _).2 ⟨w.1, hc, rfl, rfl⟩⟩
    obtain ⟨m', h', rfl⟩ := Option.map_eq_some_iff.1 hm
    exact (hb _ hc).2 m' h'

section
open Const
variable {inS : ℕ → Bool} {NF : ℕ} {momF momS : ℕ → Fin d → Option ℕ} {N : ℕ} {back : ℕ → ℕ}

/-- A production reaction that marks a pair of clusters marks all pairs of their degrees of freedom. -/
theorem prod_closed (hF : Distinct NF momF) (hfull : ∀ a, inS a = true → a < NF) (r : ProdRxn d K)
    (hmom : ∀ q cl, r.id q = some cl → ∀ k, r.mom q k = momF cl k) {a : ℕ} (ha : inS a = true) {α : Option (Fin d)} {x : ℕ} (hx : dof momF a α = some x) :
    ((a, none) ∈ r.constConnectivities inS → (x, none) ∈ r.constConnectivities inS) ∧
    ∀ b β y, inS b = true → dof momF b β = some y → (a, some b) ∈ r.constConnectivities inS → (x, some y) ∈ r.constConnectivities inS := by
  have row : ∀ q γ, r.subRow inS q γ = some a → r.subRow inS q α = some x := fun q γ h => by
    obtain ⟨cl, h1, h2, h3⟩ := prod_own r hmom q γ h
    obtain ⟨rfl, rfl⟩ := hF _ _ _ _ _ (hfull _ h2) (hfull _ ha) h3 (show dof momF a none = some a from rfl)
    rw [r.subRow_in inS h1 h2]
    cases α with
    | none => rw [← hx]; exact h1
    | some k => rw [← hx, ProdRxn.rowId, h1, Option.bind_some, hmom q _ h1]; rfl
  have colA : ∀ γ b β y, inS r.r1 = true → inS b = true → dof momF b β = some y → r.colA γ = some b → r.colA β = some y := fun γ b β y h1 h2 h3 h4 => by
    have e : ∀ γ, r.colA γ = dof momF r.r1 γ := fun γ => by cases γ <;> [rfl; exact hmom .r1 _ rfl _]
    rw [e] at h4 ⊢
    obtain ⟨rfl, rfl⟩ := hF _ _ _ _ _ (hfull _ h1) (hfull _ h2) h4 (show dof momF b none = some b from rfl)
    exact h3
  have colB : ∀ γ b β y, inS r.r2 = true → inS b = true → dof momF b β = some y → r.colB γ = some b → r.colB β = some y := fun γ b β y h1 h2 h3 h4 => by
    have e : ∀ γ, r.colB γ = dof momF r.r2 γ := fun γ => by cases γ <;> [rfl; exact hmom .r2 _ rfl _]
    rw [e] at h4 ⊢
    obtain ⟨rfl, rfl⟩ := hF _ _ _ _ _ (hfull _ h1) (hfull _ h2) h4 (show dof momF b none = some b from rfl)
    exact h3
  simp only [r.constant_connectivities]
  unfold ProdRxn.ConstPos
  constructor
  · rintro (⟨i1, i2, hp, q, γ, hq, h⟩ | ⟨i1, i2, q, γ, hq, h, γ', b, hc, hp⟩ | ⟨i1, i2, q, γ, hq, h, γ', b, hc, hp⟩)
    · exact .inl ⟨i1, i2, rfl, q, α, hq, row q γ h⟩
    · cases hp
    · cases hp
  · rintro b β y hb hy (⟨i1, i2, hp, q, γ, hq, h⟩ | ⟨i1, i2, q, γ, hq, h, γ', b', hc, hp⟩ | ⟨i1, i2, q, γ, hq, h, γ', b', hc, hp⟩)
    · cases hp
    · cases hp
      exact .inr (.inl ⟨i1, i2, q, α, hq, row q γ h, β, y, colA γ' b β y i1 hb hy hc, rfl⟩)
    · cases hp
      exact .inr (.inr ⟨i1, i2, q, α, hq, row q γ h, β, y, colB γ' b β y i2 hb hy hc, rfl⟩)

/-- The same for a dissociation. -/
theorem diss_closed (hF : Distinct NF momF) (hfull : ∀ a, inS a = true → a < NF) (r : DissRxn d K)
    (hmom : ∀ q k, r.mom q k = momF (r.id q) k) {a : ℕ} (ha : inS a = true) {α : Option (Fin d)} {x : ℕ} (hx : dof momF a α = some x) :
    ((a, none) ∈ r.constConnectivities inS → (x, none) ∈ r.constConnectivities inS) ∧
    ∀ b β y, inS b = true → dof momF b β = some y → (a, some b) ∈ r.constConnectivities inS → (x, some y) ∈ r.constConnectivities inS := by
  have e : ∀ q γ, r.dofOf q γ = dof momF (r.id q) γ := fun q γ => by cases γ <;> [rfl; exact hmom q _]
  have row : ∀ q γ, r.subRow inS q γ = some a → r.subRow inS q α = some x := fun q γ h => by
    obtain ⟨h1, h2, _⟩ := diss_own r hmom q γ h
    obtain ⟨h3, rfl⟩ := hF _ _ _ _ _ (hfull _ h1) (hfull _ ha) h2 (show dof momF a none = some a from rfl)
    rw [DissRxn.subRow, if_pos h1, e, h3]
    exact hx
  have col : ∀ γ b β y, inS (r.id .r) = true → inS b = true → dof momF b β = some y → r.dofOf .r γ = some b → r.dofOf .r β = some y := fun γ b β y h1 h2 h3 h4 => by
    rw [e] at h4 ⊢
    obtain ⟨h5, rfl⟩ := hF _ _ _ _ _ (hfull _ h1) (hfull _ h2) h4 (show dof momF b none = some b from rfl)
    rw [h5]
    exact h3
  simp only [r.constant_connectivities]
  unfold DissRxn.ConstPos
  constructor
  · rintro ⟨hall, ⟨hr, hp, q, γ, h⟩ | ⟨hr, ⟨q, γ, h⟩, γ', b, hb, hp⟩⟩
    · exact ⟨hall, .inl ⟨hr, rfl, q, α, row q γ h⟩⟩
    · cases hp
  · rintro b β y hb hy ⟨hall, ⟨hr, hp, q, γ, h⟩ | ⟨hr, ⟨q, γ, h⟩, γ', b', hb', hp⟩⟩
    · cases hp
    · cases hp
      exact ⟨hall, .inr ⟨hr, ⟨q, α, row q γ h⟩, β, y, col γ' b β y hr hb hy hb', rfl⟩⟩

/-- What is needed of the full network, of the sub-network and of the map between them. -/
structure Joined (P : List (ProdRxn d K)) (D : List (DissRxn d K)) (inS : ℕ → Bool) (NF : ℕ) (momF momS : ℕ → Fin d → Option ℕ) (N : ℕ) (back : ℕ → ℕ) (n : ℕ) : Prop where
  full : Distinct NF momF
  sub : Distinct N momS
  map : SubMap inS NF momF momS N back
  prod : ∀ r ∈ P, ∀ q cl, r.id q = some cl → ∀ k, r.mom q k = momF cl k
  diss : ∀ r ∈ D, ∀ q k, r.mom q k = momF (r.id q) k
  dofs : ∀ a < N, ∀ α m, dof momS a α = some m → m < n

variable {P : List (ProdRxn d K)} {D : List (DissRxn d K)} {n : ℕ}

theorem all_closed (J : Joined P D inS NF momF momS N back n) {a : ℕ} (ha : inS a = true) {α : Option (Fin d)} {x : ℕ} (hx : dof momF a α = some x) :
    ((a, none) ∈ allConns P D inS → (x, none) ∈ allConns P D inS) ∧
    ∀ b β y, inS b = true → dof momF b β = some y → (a, some b) ∈ allConns P D inS → (x, some y) ∈ allConns P D inS := by
  simp only [allConns, List.mem_append, List.mem_flatMap]
  constructor
  · rintro (⟨r, hr, h⟩ | ⟨r, hr, h⟩)
    · exact .inl ⟨r, hr, (prod_closed J.full J.map.full r (J.prod r hr) ha hx).1 h⟩
    · exact .inr ⟨r, hr, (diss_closed J.full J.map.full r (J.diss r hr) ha hx).1 h⟩
  · rintro b β y hb hy (⟨r, hr, h⟩ | ⟨r, hr, h⟩)
    · exact .inl ⟨r, hr, (prod_closed J.full J.map.full r (J.prod r hr) ha hx).2 b β y hb hy h⟩
    · exact .inr ⟨r, hr, (diss_closed J.full J.map.full r (J.diss r hr) ha hx).2 b β y hb hy h⟩

theorem all_own (J : Joined P D inS NF momF momS N back n) {p : ℕ × Option ℕ} (hp : p ∈ allConns P D inS) : OwnPos inS momF p := by
  simp only [allConns, List.mem_append, List.mem_flatMap] at hp
  rcases hp with ⟨r, hr, h⟩ | ⟨r, hr, h⟩
  · obtain ⟨a, α, h1, h2, _, h3⟩ := prod_pos r (J.prod r hr) h
    refine ⟨⟨a, α, h1, h2⟩, fun m hm => ?_⟩
    obtain ⟨b, β, h4, h5, _⟩ := h3 m hm
    exact ⟨b, β, h4, h5⟩
  · obtain ⟨a, α, h1, h2, _, h3⟩ := diss_pos r (J.diss r hr) h
    refine ⟨⟨a, α, h1, h2⟩, fun m hm => ?_⟩
    obtain ⟨b, β, h4, h5, _⟩ := h3 m hm
    exact ⟨b, β, h4, h5⟩

theorem own_lt (J : Joined P D inS NF momF momS N back n) {a : ℕ} {α : Option (Fin d)} {x : ℕ} (ha : inS a = true) (hx : dof momF a α = some x) : back x < n := by
  refine J.dofs (back a) (J.map.lt a ha) α (back x) ?_
  rw [← J.map.dofs a α ha, hx]
  rfl

theorem conns_lt (J : Joined P D inS NF momF momS N back n) : ∀ p ∈ allConns P D inS, back p.1 < n ∧ ∀ m, p.2 = some m → back m < n := fun p hp => by
  obtain ⟨⟨a, α, h1, h2⟩, h3⟩ := all_own J hp
  refine ⟨own_lt J h1 h2, fun m hm => ?_⟩
  obtain ⟨b, β, h4, h5⟩ := h3 m hm
  exact own_lt J h4 h5

/-- The cluster of the full network whose number in the sub-network is a cluster's. -/
theorem own_cluster (J : Joined P D inS NF momF momS N back n) {a : ℕ} {α : Option (Fin d)} {x : ℕ} (ha : inS a = true) (hx : dof momF a α = some x) (hN : back x < N) :
    x = a ∧ α = none := by
  have e : dof momS (back a) α = some (back x) := by rw [← J.map.dofs a α ha, hx]; rfl
  obtain ⟨h1, rfl⟩ := J.sub _ _ _ _ _ (J.map.lt a ha) hN e (show dof momS (back x) none = some (back x) from rfl)
  cases hx
  exact ⟨rfl, rfl⟩

/-- In the numbers of the sub-network: a marked pair of clusters has all pairs of its degrees of freedom marked. -/
theorem sub_closed (J : Joined P D inS NF momF momS N back n) {i : ℕ} (hi : i < N) {α : Option (Fin d)} {x : ℕ} (hx : dof momS i α = some x) :
    ((i, none) ∈ (allConns P D inS).map (renamePos back) → (x, none) ∈ (allConns P D inS).map (renamePos back)) ∧
    ∀ j β y, j < N → dof momS j β = some y → (i, some j) ∈ (allConns P D inS).map (renamePos back) → (x, some y) ∈ (allConns P D inS).map (renamePos back) := by
  have up : ∀ {a : ℕ} {α : Option (Fin d)} {x : ℕ}, inS a = true → dof momS (back a) α = some x → ∃ x', dof momF a α = some x' ∧ back x' = x := fun {a α x} ha h => by
    rw [← J.map.dofs a α ha] at h
    exact Option.map_eq_some_iff.1 h
  constructor
  · intro h
    obtain ⟨p, hp, e⟩ := List.mem_map.1 h
    obtain ⟨⟨a, γ, h1, h2⟩, _⟩ := all_own J hp
    simp only [renamePos, Prod.mk.injEq, Option.map_eq_none_iff] at e
    obtain ⟨e1, -⟩ := own_cluster J h1 h2 (by rw [e.1]; exact hi)
    rw [e1] at e
    obtain ⟨x', hx', rfl⟩ := up h1 (by rw [e.1]; exact hx)
    refine List.mem_map.2 ⟨_, (all_closed J h1 hx').1 ?_, rfl⟩
    rw [← e1, ← e.2]
    exact hp
  · intro j β y hj hy h
    obtain ⟨p, hp, e⟩ := List.mem_map.1 h
    obtain ⟨⟨a, γ, h1, h2⟩, h3⟩ := all_own J hp
    simp only [renamePos, Prod.mk.injEq, Option.map_eq_some_iff] at e
    obtain ⟨e2, m, hm, e3⟩ := e
    obtain ⟨b, γ', h4, h5⟩ := h3 m hm
    obtain ⟨e1, -⟩ := own_cluster J h1 h2 (by rw [e2]; exact hi)
    obtain ⟨e4, -⟩ := own_cluster J h4 h5 (by rw [e3]; exact hj)
    rw [e1] at e2
    rw [e4] at e3
    obtain ⟨x', hx', rfl⟩ := up h1 (by rw [e2]; exact hx)
    obtain ⟨y', hy', rfl⟩ := up h4 (by rw [e3]; exact hy)
    refine List.mem_map.2 ⟨_, (all_closed J h1 hx').2 b β y' h4 hy' ?_, rfl⟩
    rw [← e1, ← e4, ← hm]
    exact hp

/-- A constant reaction comes from a mark. -/
theorem mem_constantReactions (conns : ℕ × Option ℕ → Bool) (r : ConstRxn d) (h : r ∈ constantReactions N momS conns) :
    (∃ i < N, conns (i, none) = true ∧ r = ⟨i, none, momS i, fun _ => none⟩) ∨ ∃ i < N, ∃ j < N, conns (i, some j) = true ∧ r = ⟨i, some j, momS i, momS j⟩ := by
  simp only [constantReactions, List.mem_flatMap, List.mem_range] at h
  obtain ⟨i, hi, j, hj, h⟩ := h
  split at h
  · simp only [List.mem_append] at h
    rcases h with (h | h) | h <;> split at h
    · rename_i hc
      exact .inl ⟨i, hi, hc.2, by simpa using h⟩
    · cases h
    · rename_i hc
      exact .inr ⟨i, hi, j, hj, hc, by simpa using h⟩
    · cases h
    · rename_i hc
      exact .inr ⟨j, hj, i, hi, hc.2, by simpa using h⟩
    · cases h
  · cases h

theorem marked_rename (n : ℕ) (conns : List (ℕ × Option ℕ)) (hb : ∀ p ∈ conns, back p.1 < n ∧ ∀ m, p.2 = some m → back m < n) (p : ℕ × Option ℕ)
    (hp : ∀ m, p.2 = some m → m < n) : marked n back conns p.1 (p.2.getD n) = true ↔ p ∈ conns.map (renamePos back) := by
  rw [marked_iff, List.mem_map]
  refine exists_congr fun q => and_congr_right fun hq => ?_
  have hm := (hb q hq).2
  rcases q with ⟨q1, q2⟩
  rcases p with ⟨p1, p2⟩
  simp only [renamePos, Prod.mk.injEq]
  refine and_congr_right fun _ => ?_
  cases q2 with
  | none =>
    cases p2 with
    | none => simp
    | some m => have := hp m rfl; simp; omega
  | some k =>
    cases p2 with
    | none => have := hm k rfl; simp; omega
    | some m => simp

/-- **C95, the reads of the constant reactions.** Every rate that a constant reaction of the sub-network reads is inside the array and is the sum of the rates that all reactions of the full network have for
its row and its column. -/
theorem const_reads (J : Joined P D inS NF momF momS N back n) (c : ℕ → K) :
    ∃ (A : List K) (unset : ℕ × Option ℕ), array P D inS n back c = some A ∧
      (Const.allConns P D inS ≠ [] → unset ∈ Const.allConns P D inS ∧ position n back (marked n back (allConns P D inS)) unset = some 0) ∧
      ∀ r ∈ constantReactions N momS fun p => decide (p ∈ (allConns P D inS).map (renamePos back)), ∀ α β p, constPair r α β = some p →
        setRate A (Sub.place n (marked n back (allConns P D inS))) r α β = some (netOf (subRates back (allRates P D inS unset c)) p) := by
  obtain ⟨A, unset, hA, -, hun, h⟩ := array_rates P D inS n back c (conns_lt J)
  refine ⟨A, unset, hA, hun, fun r hr α β p hp => ?_⟩
  have key : p ∈ (allConns P D inS).map (renamePos back) → p.1 < n → (∀ m, p.2 = some m → m < n) → setRate A (Sub.place n (marked n back (allConns P D inS))) r α β = some (netOf (subRates back (allRates P D inS unset c)) p) := fun hm h1 h2 => by
    have hc : p.2.getD n < n + 1 := by
      cases e : p.2 with
      | none => simp
      | some m => have := h2 m e; simp; omega
    obtain ⟨q, hq⟩ := Option.isSome_iff_exists.mp (((Sub.getPosition_marked n (n + 1) _ h1 (p.2.getD n)).1).mpr ⟨hc, (marked_rename n _ (conns_lt J) p h2).2 hm⟩)
    rw [setRate, constTable, hp, Option.bind_some, show Sub.place n (marked n back (allConns P D inS)) p = some q from hq, Option.bind_some]
    exact h p q h1 h2 hq
  have rowOf : ∀ i α x y, (⟨i, x, momS i, y⟩ : ConstRxn d).row α = dof momS i α := fun i α x y => by cases α <;> rfl
  rcases mem_constantReactions _ r hr with ⟨i, hi, hm, rfl⟩ | ⟨i, hi, j, hj, hm, rfl⟩
  · simp only [constPair] at hp
    split at hp
    · rw [ProdRxn.rateConst_eq, rowOf] at hp
      obtain ⟨p1, p2⟩ := p
      obtain ⟨h1, rfl⟩ : _ ∧ p2 = none := hp
      exact key ((sub_closed J hi h1).1 (of_decide_eq_true hm)) (J.dofs i hi α p1 h1) (fun m h => by cases h)
    · cases hp
  · have colOf : (⟨i, some j, momS i, momS j⟩ : ConstRxn d).col β = dof momS j β := by cases β <;> rfl
    simp only [constPair] at hp
    rw [ProdRxn.rateCol_eq, rowOf, colOf] at hp
    obtain ⟨p1, p2⟩ := p
    obtain ⟨h1, y, hy, rfl⟩ : _ ∧ ∃ b, _ ∧ p2 = some b := hp
    exact key ((sub_closed J hi h1).2 j β y hj hy (of_decide_eq_true hm)) (J.dofs i hi α p1 h1) (fun m h => by cases h; exact J.dofs j hj β y hy)

/-- The rate that `computeFlux` of a constant reaction uses, read from the array; 0 if it was never read. -/
def stored (A : List K) (n : ℕ) (M : ℕ → ℕ → Bool) (p : ℕ × Option ℕ) : K := ((Sub.place n M p).bind (A[·]?)).getD 0

/-- **C95, the coupled flux through the arrays** (C19 with the tables of positions): the constant reactions of the sub-network, with the rates read from the array that the reactions of the full network filled through their tables,
give at every cluster and moment of the sub-network the flux of the reactions that are not inside it.  Restrictions as in `Const.sub_network_flux_partial`. -/
theorem array_flux_partial (J : Joined P D inS NF momF momS N back n)
    (hPN : ∀ r ∈ P, ∀ q cl, r.id q = some cl → cl < NF) (hDN : ∀ r ∈ D, ∀ q, r.id q < NF)
    (hp : ∀ r ∈ P, r.prod1 = none → r.prod2 = none)
    (hB5 : ∀ r ∈ P, inS r.r1 = true → inS r.r2 = true → prodInside inS r = true)
    (hB2 : ∀ r ∈ P, inS r.r1 = false → inS r.r2 = true → d ≤ 1 ∨ ∀ i, r.mom .r2 i = none)
    (hB4 : ∀ r ∈ D, r.allIn inS = false → inS (r.id .r) = true → inS (r.id .p1) = true → (∀ k, r.mom .p1 k = none) ∨ ∀ i, r.mom .r i = none)
    (c cs c' : ℕ → K) (hin : ∀ b β m, inS b = true → dof momF b β = some m → c' m = cs (back m))
    (hout : ∀ b β m, b < NF → inS b = false → dof momF b β = some m → c' m = c m) :
    ∃ A, array P D inS n back c = some A ∧ ∀ a α m, inS a = true → dof momF a α = some m →
      ((constantReactions N momS fun p => decide (p ∈ (allConns P D inS).map (renamePos back))).map fun r =>
        netOf (r.computeFlux (stored A n (marked n back (allConns P D inS))) cs) (back m)).sum =
      ((P.filter fun r => !prodInside inS r).map fun r => netOf (r.computeFlux c') m).sum +
      ((D.filter fun r => !r.allIn inS).map fun r => netOf (r.computeFlux c') m).sum := by
  obtain ⟨A, unset, hA, -, h⟩ := const_reads J c
  refine ⟨A, hA, fun a α m ha hm => ?_⟩
  rw [← sub_network_flux_partial P D unset J.full J.sub J.map hPN hDN J.prod J.diss hp hB5 hB2 hB4 c cs c' hin hout ha hm]
  refine congrArg List.sum (List.map_congr_left fun r hr => ?_)
  have st : ∀ α β p, constPair r α β = some p → stored A n (marked n back (allConns P D inS)) p = netOf (subRates back (allRates P D inS unset c)) p := fun α β p hp => by
    have := h r hr α β p hp
    rw [setRate, constTable, hp, Option.bind_some] at this
    rw [stored, this]
    rfl
  rw [constRxn_flux, constRxn_flux]
  refine Finset.sum_congr rfl fun γ _ => ?_
  split
  · rename_i hrow
    rcases e : r.r2 with _ | b
    · exact st γ none _ (by simp only [constPair, e, if_true, ProdRxn.rateConst_eq]; exact ⟨hrow, trivial⟩)
    · refine Finset.sum_congr rfl fun β _ => ?_
      cases hc : r.col β with
      | none => rfl
      | some y =>
        simp only [Option.elim_some]
        rw [st γ β (back m, some y) (by simp only [constPair, e, ProdRxn.rateCol_eq]; exact ⟨hrow, y, hc, rfl⟩)]
  · rfl

end

/-! ### A case that meets the hypotheses: two clusters inside with one grouped, two outside -/

theorem exJoined : Joined [Const.exProd] [Const.exDiss] Const.exIn 4 Const.exMomF Const.exMomS 2 Const.exBack 3 where
  full := Const.exHyps.1
  sub := Const.exHyps.2.1
  map := Const.exHyps.2.2
  prod := by
    intro r hr q cl h k
    rw [List.mem_singleton.mp hr] at h ⊢
    cases q <;> simp [ProdRxn.id, Const.exProd] at h ⊢ <;> rw [h]
  diss := by
    intro r hr q k
    rw [List.mem_singleton.mp hr]
    cases q <;> rfl
  dofs := by
    intro a ha α m h
    interval_cases a <;> rcases α with _ | i <;> simp [Const.dof, Const.exMomS] at h <;> omega

/-- Two axes: the reactant is grouped along the first, the first product along the second; the second product is outside. -/
def witUnset : DissRxn 2 ℚ := ⟨fun q => match q with | .r => 0 | .p1 => 1 | .p2 => 2,
  fun q k => match q with | .r => if k = 0 then some 3 else none | .p1 => if k = 1 then some 4 else none | .p2 => none, fun _ => 1, 1, fun _ _ _ => 1⟩

/-- **C95 fails** for a dissociation with grouped reactant and grouped first product inside: the rate of the moment column is added through an entry that was never set, so to the first number of the array, the
loss of the reactant, and the pair that it belongs to gets nothing. -/
theorem first_wrong : ∃ A : List ℚ, array [] [witUnset] (fun a => decide (a ≤ 1)) 4 (fun m => if 3 ≤ m then m - 1 else m) (fun _ => 1) = some A ∧
    (let pos := position 4 (fun m => if 3 ≤ m then m - 1 else m) (marked 4 (fun m => if 3 ≤ m then m - 1 else m) (Const.allConns [] [witUnset] fun a => decide (a ≤ 1)))
     (pos (0, some 0)).bind (A[·]?) = some 0 ∧ netOf (witUnset.accessZero (fun a => decide (a ≤ 1)) none 1) (0, none, none) = -1 ∧
     (pos (4, some 3)).bind (A[·]?) = some 0 ∧ witUnset.coefs (some 0) .p1 (some 1) * witUnset.rate / witUnset.vol .p1 = 1) := ⟨_, rfl, by decide +kernel⟩

/-- The array of the case: rows 1 and 2 (the moment), columns 1, 2 and the constant column; the table of the production has four entries. -/
example : array [Const.exProd] [Const.exDiss] Const.exIn 3 Const.exBack (fun n => (n : ℚ) + 1) = some [-3, -3, 10, -3, -3, 10] ∧
    (Const.exProd.mapRateEntries Const.exIn).map Prod.fst = [(0, none, none), (0, none, some 0), (0, some 0, none), (0, some 0, some 0)] := by decide +kernel

/-- The constant reaction of the grouped cluster reads its moment row from the place 3. -/
example : ∃ A, array [Const.exProd] [Const.exDiss] Const.exIn 3 Const.exBack (fun n => (n : ℚ) + 1) = some A ∧
    setRate A (Sub.place 3 (marked 3 Const.exBack (Const.allConns [Const.exProd] [Const.exDiss] Const.exIn)))
      (⟨1, none, Const.exMomS 1, fun _ => none⟩ : ConstRxn 1) (some 0) none = some 10 := ⟨_, rfl, by decide +kernel⟩

/-- A table with every entry at its own position. -/
example : (Const.exProd.accesses Const.exIn fun n => (n : ℚ) + 1).map (fun u => (table (fun p => some (p.1 + 10 * p.2.getD 9)) (Const.exProd.mapRateEntries Const.exIn) u.1, u.2)) =
    (Const.exProd.computeConstantRates Const.exIn fun n => (n : ℚ) + 1).map (fun u => (some (u.1.1 + 10 * u.1.2.getD 9), u.2)) := Const.exProd.entries_rates Const.exIn _ _

end RateEnt

end Xolotl.Network
