import Verif.Network.Generator
import Verif.Network.ConnectivityProps

/-!
# C12: two-pass generation loses and duplicates nothing
-/

namespace Xolotl.Network.Gen

open Conn (startOf startOf_mono startOf_disjoint)

namespace Pass

variable {m : ℕ} (P : Pass m)

structure Counted (n : ℕ) : Prop where
  start_eq : P.start = startOf fun r => (Finset.univ.filter fun i => P.row i = r).card
  size_eq : P.size = P.start n
  row_lt : ∀ i, P.row i < n
  row_eq : ∀ i, P.req i P.fld = some (P.row i)

/-- Invariant, with the ghost map from slots to the tasks that own them. -/
structure Inv (s : St m) (own : ℕ → Option (Fin m)) : Prop where
  free : ∀ p, own p = none ↔ s.slot p P.fld = none
  range : ∀ p i, own p = some i → P.start (P.row i) ≤ p ∧ p < P.start (P.row i + 1)
  inj : ∀ p q i, own p = some i → own q = some i → p = q
  nclaim : ∀ p q i, own p = some i → s.pc i ≠ .claim q
  claim : ∀ i p, s.pc i = .claim p → P.start (P.row i) ≤ p ∧
    ∀ q, P.start (P.row i) ≤ q → q < p → q < P.start (P.row i + 1) ∧ own q ≠ none
  write : ∀ i p j, s.pc i = .write p j → own p = some i ∧ j ≤ 4 ∧
    ∀ k : Fin 4, k.val < j → s.slot p k = P.req i k
  done : ∀ i, s.pc i = .done → ∃ p, own p = some i ∧ s.slot p = P.req i

variable {P}

theorem inv_init : P.Inv P.init fun _ => none where
  free := by simp [init]
  range := by simp
  inj := by simp
  nclaim := by simp
  claim := by
    intro i p h
    simp only [init, Pc.claim.injEq] at h
    subst h
    exact ⟨le_rfl, fun q h1 h2 => by omega⟩
  write := by intro i p j h; simp [init] at h
  done := by intro i h; simp [init] at h

theorem Counted.width {n : ℕ} (hc : P.Counted n) (r : ℕ) :
    P.start (r + 1) = P.start r + (Finset.univ.filter fun j => P.row j = r).card := by
  rw [hc.start_eq]; rfl

theorem Counted.disjoint {n : ℕ} (hc : P.Counted n) {r s p : ℕ} (h1 : P.start r ≤ p)
    (h2 : p < P.start (r + 1)) (h3 : P.start s ≤ p) (h4 : p < P.start (s + 1)) : r = s := by
  rw [hc.start_eq] at *
  exact startOf_disjoint _ h1 h2 h3 h4

theorem Counted.lt_size {n : ℕ} (hc : P.Counted n) (i : Fin m) {p : ℕ}
    (h : p < P.start (P.row i + 1)) : p < P.size := by
  rw [hc.size_eq]
  have : P.start (P.row i + 1) ≤ P.start n := by
    rw [hc.start_eq]; exact startOf_mono _ (hc.row_lt i)
  omega

/-- A task looking for a slot never leaves its row. -/
theorem Inv.inBounds {n : ℕ} (hc : P.Counted n) {s : St m} {own} (h : P.Inv s own) {i : Fin m}
    {p : ℕ} (hp : s.pc i = .claim p) : p < P.start (P.row i + 1) := by
  classical
  obtain ⟨h1, h2⟩ := h.claim i p hp
  by_contra hlt
  push Not at hlt
  set r := P.row i with hr
  have hw := hc.width r
  let f : ℕ → Fin m := fun q => (own q).getD i
  have hown : ∀ q ∈ Finset.Ico (P.start r) p, ∃ j, own q = some j ∧ P.row j = r ∧ j ≠ i := by
    intro q hq
    obtain ⟨ha, hb⟩ := Finset.mem_Ico.mp hq
    obtain ⟨hc1, hc2⟩ := h2 q ha hb
    obtain ⟨j, hj⟩ := Option.ne_none_iff_exists'.mp hc2
    obtain ⟨b1, b2⟩ := h.range q j hj
    refine ⟨j, hj, hc.disjoint b1 b2 ha hc1, ?_⟩
    rintro rfl
    exact h.nclaim q p j hj hp
  have hmaps : ∀ q ∈ Finset.Ico (P.start r) p,
      f q ∈ (Finset.univ.filter fun j => P.row j = r).erase i := by
    intro q hq
    obtain ⟨j, hj, hr', hne⟩ := hown q hq
    simp [f, hj, hr', hne]
  have hinj : Set.InjOn f (Finset.Ico (P.start r) p : Finset ℕ) := by
    intro q hq q' hq' he
    obtain ⟨j, hj, -, -⟩ := hown q hq
    obtain ⟨j', hj', -, -⟩ := hown q' hq'
    simp only [f, hj, hj', Option.getD_some] at he
    subst he
    exact h.inj q q' j hj hj'
  have hcard := Finset.card_le_card_of_injOn f hmaps hinj
  have hmem : i ∈ Finset.univ.filter fun j => P.row j = r := by simp [hr]
  rw [Nat.card_Ico, Finset.card_erase_of_mem hmem] at hcard
  have h4 := Finset.card_pos.mpr ⟨i, hmem⟩
  omega

theorem inv_step {n : ℕ} (hc : P.Counted n) {s : St m} {own} (h : P.Inv s own) (i : Fin m) :
    ∃ s' own', P.step s i = some s' ∧ P.Inv s' own' := by
  unfold step
  cases hp : s.pc i with
  | done => exact ⟨s, own, rfl, h⟩
  | claim p =>
    have hb := h.inBounds hc hp
    obtain ⟨h1, h2⟩ := h.claim i p hp
    simp only [hc.lt_size i hb, if_true]
    cases he : s.slot p P.fld with
    | some c =>
      have ho : own p ≠ none := fun e => by rw [(h.free p).mp e] at he; simp at he
      refine ⟨{ s with pc := Function.update s.pc i (.claim (p + 1)) }, own, rfl,
        ⟨h.free, h.range, h.inj, ?_, ?_, ?_, ?_⟩⟩
      · intro q q' j hj
        rcases eq_or_ne j i with rfl | hne
        · exact absurd hp (h.nclaim q p j hj)
        · simpa [hne] using h.nclaim q q' j hj
      · intro j q hj
        rcases eq_or_ne j i with rfl | hne
        · simp only [Function.update_self, Pc.claim.injEq] at hj
          subst hj
          refine ⟨by omega, fun q hq1 hq2 => ?_⟩
          rcases Nat.lt_succ_iff_lt_or_eq.mp hq2 with hlt | rfl
          · exact h2 q hq1 hlt
          · exact ⟨hb, ho⟩
        · exact h.claim j q (by simpa [hne] using hj)
      · intro j q k hj
        rcases eq_or_ne j i with rfl | hne
        · simp at hj
        · exact h.write j q k (by simpa [hne] using hj)
      · intro j hj
        rcases eq_or_ne j i with rfl | hne
        · simp at hj
        · exact h.done j (by simpa [hne] using hj)
    | none =>
      have ho : own p = none := (h.free p).mpr he
      have hnot : ∀ q, own q ≠ some i := fun q e => h.nclaim q p i e hp
      have hpne : ∀ q j, own q = some j → q ≠ p := by
        rintro q j e rfl; simp [ho] at e
      refine ⟨_, Function.update own p (some i), rfl, ⟨?_, ?_, ?_, ?_, ?_, ?_, ?_⟩⟩
      · intro q
        rcases eq_or_ne q p with rfl | hne
        · simp
        · simpa [hne] using h.free q
      · intro q j hj
        rcases eq_or_ne q p with rfl | hne
        · simp only [Function.update_self, Option.some.injEq] at hj
          subst hj
          exact ⟨h1, hb⟩
        · exact h.range q j (by simpa [hne] using hj)
      · intro q q' j hj hj'
        by_cases hne : q = p <;> by_cases hne' : q' = p
        · rw [hne, hne']
        · subst hne
          simp only [Function.update_self, Option.some.injEq] at hj
          subst hj
          rw [Function.update_of_ne hne'] at hj'
          exact absurd hj' (hnot q')
        · subst hne'
          simp only [Function.update_self, Option.some.injEq] at hj'
          subst hj'
          rw [Function.update_of_ne hne] at hj
          exact absurd hj (hnot q)
        · exact h.inj q q' j (by simpa [hne] using hj) (by simpa [hne'] using hj')
      · intro q q' j hj
        rcases eq_or_ne j i with rfl | hne
        · simp
        · rcases eq_or_ne q p with rfl | hne'
          · simp only [Function.update_self, Option.some.injEq] at hj
            exact absurd hj.symm hne
          · simpa [hne] using h.nclaim q q' j (by simpa [hne'] using hj)
      · intro j q hj
        rcases eq_or_ne j i with rfl | hne
        · simp at hj
        · obtain ⟨b1, b2⟩ := h.claim j q (by simpa [hne] using hj)
          refine ⟨b1, fun q' hq1 hq2 => ?_⟩
          obtain ⟨b3, b4⟩ := b2 q' hq1 hq2
          refine ⟨b3, ?_⟩
          rcases eq_or_ne q' p with rfl | hne'
          · simp
          · simpa [hne'] using b4
      · intro j q k hj
        rcases eq_or_ne j i with rfl | hne
        · simp only [Function.update_self, Pc.write.injEq] at hj
          obtain ⟨rfl, rfl⟩ := hj
          exact ⟨by simp, by omega, fun k hk => absurd hk (by omega)⟩
        · obtain ⟨b1, b0, b2⟩ := h.write j q k (by simpa [hne] using hj)
          have := hpne q j b1
          exact ⟨by simpa [this] using b1, b0, by simpa [this] using b2⟩
      · intro j hj
        rcases eq_or_ne j i with rfl | hne
        · simp at hj
        · obtain ⟨q, b1, b2⟩ := h.done j (by simpa [hne] using hj)
          have := hpne q j b1
          exact ⟨q, by simpa [this] using b1, by simpa [this] using b2⟩
  | write p j =>
    obtain ⟨h1, h4, h2⟩ := h.write i p j hp
    obtain ⟨hr1, hr2⟩ := h.range p i h1
    simp only [hc.lt_size i hr2, if_true]
    have hone : ∀ q k, own q = some k → k ≠ i → q ≠ p := by
      rintro q k e hne rfl
      rw [h1] at e
      exact hne (Option.some.inj e).symm
    by_cases hj : j < 4
    · simp only [hj, dif_pos]
      refine ⟨_, own, rfl, ⟨?_, h.range, h.inj, ?_, ?_, ?_, ?_⟩⟩
      · intro q
        rcases eq_or_ne q p with rfl | hne
        · simp only [Function.update_self, h1]
          by_cases hf : P.fld = ⟨j, hj⟩
          · rw [hf, Function.update_self, ← hf, hc.row_eq]; simp
          · rw [Function.update_of_ne hf, ← h.free q, h1]
        · simpa [hne] using h.free q
      · intro q q' k hk
        rcases eq_or_ne k i with rfl | hne
        · simp
        · simpa [hne] using h.nclaim q q' k hk
      · intro k q hk
        rcases eq_or_ne k i with rfl | hne
        · simp at hk
        · exact h.claim k q (by simpa [hne] using hk)
      · intro k q l hk
        rcases eq_or_ne k i with rfl | hne
        · simp only [Function.update_self, Pc.write.injEq] at hk
          obtain ⟨rfl, rfl⟩ := hk
          refine ⟨h1, by omega, fun l hl => ?_⟩
          simp only [Function.update_self]
          by_cases hlj : l = ⟨j, hj⟩
          · subst hlj; simp
          · rw [Function.update_of_ne hlj]
            refine h2 l ?_
            have : l.val ≠ j := fun e => hlj (Fin.ext e)
            omega
        · obtain ⟨b1, b0, b2⟩ := h.write k q l (by simpa [hne] using hk)
          have := hone q k b1 hne
          exact ⟨b1, b0, by simpa [this] using b2⟩
      · intro k hk
        rcases eq_or_ne k i with rfl | hne
        · simp at hk
        · obtain ⟨q, b1, b2⟩ := h.done k (by simpa [hne] using hk)
          have := hone q k b1 hne
          exact ⟨q, b1, by simpa [this] using b2⟩
    · simp only [hj, dif_neg, not_false_eq_true]
      refine ⟨{ s with pc := Function.update s.pc i .done }, own, rfl,
        ⟨h.free, h.range, h.inj, ?_, ?_, ?_, ?_⟩⟩
      · intro q q' k hk
        rcases eq_or_ne k i with rfl | hne
        · simp
        · simpa [hne] using h.nclaim q q' k hk
      · intro k q hk
        rcases eq_or_ne k i with rfl | hne
        · simp at hk
        · exact h.claim k q (by simpa [hne] using hk)
      · intro k q l hk
        rcases eq_or_ne k i with rfl | hne
        · simp at hk
        · exact h.write k q l (by simpa [hne] using hk)
      · intro k hk
        rcases eq_or_ne k i with rfl | hne
        · exact ⟨p, h1, funext fun l => h2 l (by omega)⟩
        · exact h.done k (by simpa [hne] using hk)

theorem inv_run {n : ℕ} (hc : P.Counted n) (sch : List (Fin m)) {s : St m} {own}
    (h : P.Inv s own) : ∃ s' own', P.run s sch = some s' ∧ P.Inv s' own' := by
  induction sch generalizing s own with
  | nil => exact ⟨s, own, rfl, h⟩
  | cons i is ih =>
    obtain ⟨s1, o1, e1, h1⟩ := inv_step hc h i
    obtain ⟨s2, o2, e2, h2⟩ := ih h1
    exact ⟨s2, o2, by simp [run, e1, e2], h2⟩

/-- **C12** Whatever the schedule, the construction pass never leaves the array, and once it is over each row holds
exactly the requested cluster sets of that row, with multiplicities, in the counted number of slots. -/
theorem construct_rows {n : ℕ} (hc : P.Counted n) (sch : List (Fin m)) :
    ∃ s, P.run P.init sch = some s ∧ ((∀ i, s.pc i = .done) → ∀ r,
      (Finset.Ico (P.start r) (P.start (r + 1))).val.map s.slot =
        (Finset.univ.filter fun i => P.row i = r).val.map P.req) := by
  classical
  obtain ⟨s, own, e, h⟩ := inv_run hc sch inv_init
  refine ⟨s, e, fun hd r => ?_⟩
  choose f hf1 hf2 using fun i => h.done i (hd i)
  have hinj : Function.Injective f := by
    intro i j hij
    have := hf1 i
    rw [hij, hf1 j] at this
    exact (Option.some.inj this).symm
  have himg : (Finset.univ.filter fun i => P.row i = r).image f =
      Finset.Ico (P.start r) (P.start (r + 1)) := by
    refine Finset.eq_of_subset_of_card_le ?_ ?_
    · intro p hp
      obtain ⟨i, hi, rfl⟩ := Finset.mem_image.mp hp
      simp only [Finset.mem_filter, Finset.mem_univ, true_and] at hi
      subst hi
      exact Finset.mem_Ico.mpr (h.range _ i (hf1 i))
    · rw [Finset.card_image_of_injective _ hinj, Nat.card_Ico, hc.width]
      omega
  rw [← himg, Finset.image_val_of_injOn hinj.injOn, Multiset.map_map]
  exact Multiset.map_congr rfl fun i _ => hf2 i

/-- Work left to a task. -/
def left (P : Pass m) (s : St m) (i : Fin m) : ℕ :=
  match s.pc i with
  | .done => 0
  | .claim p => 5 + (P.start (P.row i + 1) - p)
  | .write _ j => 5 - j

/-- **C12 (termination)** Every step of an unfinished task decreases the total work left. -/
theorem construct_progress {n : ℕ} (hc : P.Counted n) {s s' : St m} {own} (h : P.Inv s own)
    (i : Fin m) (hd : s.pc i ≠ .done) (hs : P.step s i = some s') : ∑ j, P.left s' j < ∑ j, P.left s j := by
  have key : ∀ (x : Pc), s'.pc = Function.update s.pc i x → P.left s' i < P.left s i →
      ∑ j, P.left s' j < ∑ j, P.left s j := by
    intro x hx hlt
    refine Finset.sum_lt_sum (fun j _ => ?_) ⟨i, Finset.mem_univ _, hlt⟩
    rcases eq_or_ne j i with rfl | hne
    · exact hlt.le
    · simp [left, hx, hne]
  unfold step at hs
  cases hp : s.pc i with
  | done => exact absurd hp hd
  | claim p =>
    have hb := h.inBounds hc hp
    simp only [hp, hc.lt_size i hb, if_true] at hs
    split at hs <;> simp only [Option.some.injEq] at hs <;> subst hs
    · refine key (.write p 0) rfl ?_
      simp only [left, Function.update_self, hp]
      omega
    · refine key (.claim (p + 1)) rfl ?_
      simp only [left, Function.update_self, hp]
      omega
  | write p j =>
    obtain ⟨h1, h4, h2⟩ := h.write i p j hp
    obtain ⟨hr1, hr2⟩ := h.range p i h1
    simp only [hp, hc.lt_size i hr2, if_true] at hs
    split at hs <;> simp only [Option.some.injEq] at hs <;> subst hs
    · refine key (.write p (j + 1)) rfl ?_
      simp only [left, Function.update_self, hp]
      omega
    · refine key .done rfl ?_
      simp only [left, Function.update_self, hp]
      omega

end Pass

theorem card_filter_row (fld : Fin 4) (reqs : List ClusterSet) (r : ℕ)
    (hv : ∀ cs ∈ reqs, cs fld ≠ none) :
    (Finset.univ.filter fun i : Fin reqs.length => (reqs.get i fld).getD 0 = r).card =
      netOf (countUpdates fld reqs) r := by
  induction reqs with
  | nil => simp [countUpdates, netOf]
  | cons t ts ih =>
    have := Fin.card_filter_univ_succ (n := ts.length)
      fun i => ((t :: ts).get i fld).getD 0 = r
    simp only [List.length_cons] at this ⊢
    rw [this]
    obtain ⟨x, hx⟩ := Option.ne_none_iff_exists'.mp (hv t (by simp))
    have ih := ih fun cs h => hv cs (by simp [h])
    have e : countUpdates fld (t :: ts) = (x, 1) :: countUpdates fld ts := by
      simp [countUpdates, hx]
    rw [e, netOf_cons, ← ih]
    have e0 : (((t :: ts).get 0 fld).getD 0 = r) = (x = r) := by
      show ((t fld).getD 0 = r) = _
      rw [hx]; rfl
    have e1 : ∀ i : Fin ts.length, (t :: ts).get i.succ = ts.get i := fun i => rfl
    simp only [e0, e1]
    by_cases ht : x = r
    · simp only [ht, if_true]; omega
    · simp only [ht, if_false, zero_add]

/-- **C12** Both passes together, for every list of requests of each thread (the same in both passes), every schedule of the counting pass
and every schedule of the construction pass. -/
theorem generation_correct (n : ℕ) (fld : Fin 4) (threads : List (List ClusterSet))
    (hv : ∀ cs ∈ threads.flatten, ∃ r < n, cs fld = some r) {l : List (ℕ × ℕ)}
    (hl : Interleaves (threads.map (countUpdates fld)) l) (sch : List (Fin threads.flatten.length)) :
    let P := passOf n fld threads.flatten (applyUpdates (fun _ => 0) l)
    P.size = threads.flatten.length ∧
    ∃ s, P.run P.init sch = some s ∧ ((∀ i, s.pc i = .done) →
      (∀ r, (Finset.Ico (P.start r) (P.start (r + 1))).val.map s.slot =
        ↑(threads.flatten.filter fun cs => cs fld = some r)) ∧
      ((List.range P.size).map s.slot).Perm threads.flatten) := by
  intro P
  have hflat : ∀ ts : List (List ClusterSet),
      (ts.map (countUpdates fld)).flatten = countUpdates fld ts.flatten := by
    intro ts
    induction ts with
    | nil => rfl
    | cons t ts ih =>
      rw [List.map_cons, List.flatten_cons, ih, List.flatten_cons]
      simp only [countUpdates, List.filterMap_append]
  have hc : P.Counted n := by
    refine ⟨?_, rfl, ?_, ?_⟩
    · simp only [P, passOf]
      congr 1
      funext r
      rw [applyUpdates_eq, zero_add, netOf_perm hl.perm, hflat]
      refine (card_filter_row fld threads.flatten r fun cs h => ?_).symm
      obtain ⟨x, -, hx⟩ := hv cs h
      simp [hx]
    · intro i
      obtain ⟨x, hx, e⟩ := hv _ (List.get_mem threads.flatten i)
      simp only [P, passOf, e, Option.getD_some]
      exact hx
    · intro i
      obtain ⟨x, hx, e⟩ := hv _ (List.get_mem threads.flatten i)
      simp only [P, passOf, e, Option.getD_some]
  have hrow : ∀ (i : Fin threads.flatten.length) (r : ℕ),
      P.row i = r ↔ threads.flatten.get i fld = some r := by
    intro i r
    have := hc.row_eq i
    change threads.flatten.get i fld = some (P.row i) at this
    rw [this, Option.some.injEq]
  have hsize : P.size = threads.flatten.length := by
    have h := hc.size_eq
    rw [h]
    have : ∀ k, P.start k = (Finset.univ.filter fun i => P.row i < k).card := by
      intro k
      induction k with
      | zero => rw [hc.start_eq]; simp [startOf]
      | succ k ih =>
        rw [hc.width, ih, ← Finset.card_union_of_disjoint]
        · congr 1
          ext i
          simp only [Finset.mem_union, Finset.mem_filter, Finset.mem_univ, true_and]
          omega
        · rw [Finset.disjoint_left]
          intro i h1 h2
          simp only [Finset.mem_filter, Finset.mem_univ, true_and] at h1 h2
          omega
    rw [this n, Finset.filter_true_of_mem fun i _ => hc.row_lt i]
    simp
  obtain ⟨s, hs, hfin⟩ := Pass.construct_rows hc sch
  refine ⟨hsize, s, hs, fun hd => ?_⟩
  have hall := hfin hd
  have huniv : (Finset.univ : Finset (Fin threads.flatten.length)).val.map threads.flatten.get =
      (↑threads.flatten : Multiset ClusterSet) := by
    rw [show (Finset.univ : Finset (Fin threads.flatten.length)).val =
      ↑(List.finRange threads.flatten.length) from rfl, Multiset.map_coe,
      ← List.ofFn_eq_map, List.ofFn_get]
  have hfilter : ∀ p : ClusterSet → Bool,
      (Finset.univ.filter fun i => p (threads.flatten.get i) = true).val.map
        threads.flatten.get = ↑(threads.flatten.filter p) := by
    intro p
    have := Multiset.filter_map (fun cs => p cs = true) threads.flatten.get
      (Finset.univ : Finset (Fin threads.flatten.length)).val
    rw [huniv, Multiset.filter_coe] at this
    refine Eq.trans this.symm ?_
    simp
  have hrows : ∀ r, (Finset.Ico (P.start r) (P.start (r + 1))).val.map s.slot =
      ↑(threads.flatten.filter fun cs => cs fld = some r) := by
    intro r
    rw [hall r, ← hfilter]
    have : (Finset.univ.filter fun i => P.row i = r) = Finset.univ.filter fun i =>
        decide (threads.flatten.get i fld = some r) = true := by
      ext i
      simp only [Finset.mem_filter, Finset.mem_univ, true_and, decide_eq_true_eq]
      exact hrow i r
    rw [this]
    rfl
  refine ⟨hrows, ?_⟩
  have hpre : ∀ k, (Finset.range (P.start k)).val.map s.slot =
      (Finset.univ.filter fun i => P.row i < k).val.map P.req := by
    intro k
    induction k with
    | zero => rw [hc.start_eq]; simp [startOf]
    | succ k ih =>
      have e1 : Finset.range (P.start (k + 1)) = (Finset.range (P.start k)).disjUnion
          (Finset.Ico (P.start k) (P.start (k + 1))) (by
            rw [Finset.disjoint_left]
            intro q h1 h2
            simp only [Finset.mem_range, Finset.mem_Ico] at h1 h2
            omega) := by
        have := hc.width k
        ext q
        simp only [Finset.mem_disjUnion, Finset.mem_range, Finset.mem_Ico]
        omega
      have e2 : (Finset.univ.filter fun i => P.row i < k + 1) =
          (Finset.univ.filter fun i => P.row i < k).disjUnion
          (Finset.univ.filter fun i => P.row i = k) (by
            rw [Finset.disjoint_left]
            intro q h1 h2
            simp only [Finset.mem_filter, Finset.mem_univ, true_and] at h1 h2
            omega) := by
        ext q
        simp only [Finset.mem_disjUnion, Finset.mem_filter, Finset.mem_univ, true_and]
        omega
      rw [e1, e2, Finset.disjUnion_val, Finset.disjUnion_val, Multiset.map_add, Multiset.map_add,
        ih, hall k]
  have hfull := hpre n
  rw [Finset.filter_true_of_mem fun i _ => hc.row_lt i, ← hc.size_eq] at hfull
  rw [← Multiset.coe_eq_coe, ← Multiset.map_coe]
  exact Eq.trans hfull huniv

/-- Non-vacuity: three requests, two of them equal and racing for the same row. -/
def exThreads : List (List ClusterSet) :=
  [[![some 0, some 1, some 2, none], ![some 0, some 0, none, none]],
   [![some 0, some 1, some 2, none]], [![some 1, some 1, some 2, none]]]

example : (∀ cs ∈ exThreads.flatten, ∃ r < 3, cs 0 = some r) ∧
    (let P := passOf 3 0 exThreads.flatten
      (applyUpdates (fun _ => 0) (exThreads.map (countUpdates 0)).flatten)
     ∃ s, P.run P.init (show List (Fin exThreads.flatten.length) from
        ([2, 0, 2, 0, 1, 1, 1, 0, 0, 0, 0, 0, 2, 2, 2, 2, 3, 3, 3, 3, 3, 3, 1, 1, 1, 1, 1] :
          List (Fin 4))) = some s ∧
      (∀ i, s.pc i = .done) ∧ (List.range 4).map (fun p => s.slot p 1) =
        [some 1, some 1, some 0, some 1]) := by
  refine ⟨by decide +kernel, ?_⟩
  refine ⟨_, rfl, ?_, ?_⟩ <;> decide +kernel

end Xolotl.Network.Gen
