import Verif.Network.Connectivity
import Verif.Network.WholeProps
import Mathlib.Data.Fintype.Card
import Mathlib.Data.Finset.Card
import Mathlib.Tactic.FinCases

/-!
# C11: the connectivity does not depend on the schedule
-/

namespace Xolotl.Network.Conn

theorem startOf_mono (counts : ℕ → ℕ) : Monotone (startOf counts) :=
  monotone_nat_of_le_succ fun n => by simp [startOf]

/-- Rows occupy disjoint ranges. -/
theorem startOf_disjoint (counts : ℕ → ℕ) {r s p : ℕ} (h1 : startOf counts r ≤ p)
    (h2 : p < startOf counts (r + 1)) (h3 : startOf counts s ≤ p)
    (h4 : p < startOf counts (s + 1)) : r = s := by
  rcases lt_trichotomy r s with h | h | h
  · have := startOf_mono counts (show r + 1 ≤ s from h); omega
  · exact h
  · have := startOf_mono counts (show s + 1 ≤ r from h); omega

namespace Fill

variable {m : ℕ} (P : Fill m)

/-- The filling pass follows counts of the same requests. -/
structure Counted (n : ℕ) : Prop where
  start_eq : P.start = startOf fun r => (Finset.univ.filter fun i => P.row i = r).card
  size_eq : P.size = P.start n
  row_lt : ∀ i, P.row i < n

/-- Invariant of all executions. -/
structure Inv (s : St m) : Prop where
  cols : ∀ r p c, P.start r ≤ p → p < P.start (r + 1) → s.ent p = some c →
    ∃ i, P.row i = r ∧ P.col i = c
  inj : ∀ r p q c, P.start r ≤ p → p < P.start (r + 1) → P.start r ≤ q → q < P.start (r + 1) →
    s.ent p = some c → s.ent q = some c → p = q
  pre : ∀ r p q, P.start r ≤ q → q < p → p < P.start (r + 1) → s.ent p ≠ none → s.ent q ≠ none
  cas : ∀ i p, s.pc i = .cas p → P.start (P.row i) ≤ p ∧
    ∀ q, P.start (P.row i) ≤ q → q < p → q < P.start (P.row i + 1) ∧
      ∃ c, s.ent q = some c ∧ c ≠ P.col i
  read : ∀ i p, s.pc i = .read p → P.start (P.row i) ≤ p ∧ s.ent p ≠ none ∧
    p < P.start (P.row i + 1) ∧
    ∀ q, P.start (P.row i) ≤ q → q < p → ∃ c, s.ent q = some c ∧ c ≠ P.col i
  done : ∀ i, s.pc i = .done → ∃ q, P.start (P.row i) ≤ q ∧ q < P.start (P.row i + 1) ∧
    s.ent q = some (P.col i)

variable {P}

theorem inv_init : P.Inv P.init where
  cols := by intro r p c _ _ h; simp [init] at h
  inj := by intro r p q c _ _ _ _ h; simp [init] at h
  pre := by intro r p q _ _ _ h; simp [init] at h
  cas := by
    intro i p h
    simp only [init, Pc.cas.injEq] at h
    subst h
    exact ⟨le_rfl, fun q h1 h2 => by omega⟩
  read := by intro i p h; simp [init] at h
  done := by intro i h; simp [init] at h

/-- A task never scans beyond the end of its row. -/
theorem Inv.inBounds {n : ℕ} (hc : P.Counted n) {s : St m} (h : P.Inv s) {i : Fin m} {p : ℕ}
    (hp : s.pc i = .cas p) : p < P.start (P.row i + 1) := by
  classical
  obtain ⟨h1, h2⟩ := h.cas i p hp
  by_contra hlt
  push Not at hlt
  set r := P.row i with hr
  have hwidth : P.start (r + 1) = P.start r + (Finset.univ.filter fun j => P.row j = r).card := by
    rw [hc.start_eq]; rfl
  -- the columns found so far are distinct columns of other tasks of the row
  let f : ℕ → ℕ := fun q => (s.ent q).getD 0
  have hmaps : ∀ q ∈ Finset.Ico (P.start r) p,
      f q ∈ (((Finset.univ.filter fun j => P.row j = r).image P.col).erase (P.col i)) := by
    intro q hq
    obtain ⟨ha, hb⟩ := Finset.mem_Ico.mp hq
    obtain ⟨hc1, c, hc2, hc3⟩ := h2 q ha hb
    obtain ⟨j, hj1, hj2⟩ := h.cols r q c ha hc1 hc2
    have : f q = c := by simp [f, hc2]
    rw [this, Finset.mem_erase]
    exact ⟨hc3, Finset.mem_image.mpr ⟨j, by simp [hj1], hj2⟩⟩
  have hinj : Set.InjOn f (Finset.Ico (P.start r) p : Finset ℕ) := by
    intro q hq q' hq' he
    have hq := Finset.mem_Ico.mp hq
    have hq' := Finset.mem_Ico.mp hq'
    obtain ⟨hc1, c, hc2, hc3⟩ := h2 q hq.1 hq.2
    obtain ⟨hd1, c', hd2, hd3⟩ := h2 q' hq'.1 hq'.2
    simp only [f, hc2, hd2, Option.getD_some] at he
    subst he
    exact h.inj r q q' c hq.1 hc1 hq'.1 hd1 hc2 hd2
  have hcard := Finset.card_le_card_of_injOn f hmaps hinj
  rw [Nat.card_Ico] at hcard
  have hmem : P.col i ∈ (Finset.univ.filter fun j => P.row j = r).image P.col :=
    Finset.mem_image.mpr ⟨i, by simp [hr], rfl⟩
  rw [Finset.card_erase_of_mem hmem] at hcard
  have h3 : ((Finset.univ.filter fun j => P.row j = r).image P.col).card ≤
    (Finset.univ.filter fun j => P.row j = r).card := Finset.card_image_le
  have h4 : 0 < ((Finset.univ.filter fun j => P.row j = r).image P.col).card :=
    Finset.card_pos.mpr ⟨_, hmem⟩
  omega

theorem Counted.lt_size {n : ℕ} (hc : P.Counted n) (i : Fin m) {p : ℕ}
    (h : p < P.start (P.row i + 1)) : p < P.size := by
  rw [hc.size_eq]
  have : P.start (P.row i + 1) ≤ P.start n := by
    rw [hc.start_eq]; exact startOf_mono _ (hc.row_lt i)
  omega

theorem Counted.disjoint {n : ℕ} (hc : P.Counted n) {r s p : ℕ} (h1 : P.start r ≤ p)
    (h2 : p < P.start (r + 1)) (h3 : P.start s ≤ p) (h4 : p < P.start (s + 1)) : r = s := by
  rw [hc.start_eq] at *
  exact startOf_disjoint _ h1 h2 h3 h4

/-- Every step stays within bounds and keeps the invariant. -/
theorem inv_step {n : ℕ} (hc : P.Counted n) {s : St m} (h : P.Inv s) (i : Fin m) :
    ∃ s', P.step s i = some s' ∧ P.Inv s' := by
  unfold step
  cases hp : s.pc i with
  | done => exact ⟨s, rfl, h⟩
  | read p =>
    obtain ⟨h1, h2, h3, h4⟩ := h.read i p hp
    simp only [hc.lt_size i h3, if_true]
    by_cases he : s.ent p = some (P.col i)
    · refine ⟨{ s with pc := Function.update s.pc i .done }, by rw [if_pos he], ⟨h.cols, h.inj, h.pre, ?_, ?_, ?_⟩⟩
      · intro j q hj
        rcases eq_or_ne j i with rfl | hne
        · simp at hj
        · exact h.cas j q (by simpa [hne] using hj)
      · intro j q hj
        rcases eq_or_ne j i with rfl | hne
        · simp at hj
        · exact h.read j q (by simpa [hne] using hj)
      · intro j hj
        rcases eq_or_ne j i with rfl | hne
        · exact ⟨p, h1, h3, he⟩
        · exact h.done j (by simpa [hne] using hj)
    · refine ⟨{ s with pc := Function.update s.pc i (.cas (p + 1)) }, by rw [if_neg he],
        ⟨h.cols, h.inj, h.pre, ?_, ?_, ?_⟩⟩
      · intro j q hj
        rcases eq_or_ne j i with rfl | hne
        · simp only [Function.update_self, Pc.cas.injEq] at hj
          subst hj
          refine ⟨by omega, fun q hq1 hq2 => ?_⟩
          rcases Nat.lt_succ_iff_lt_or_eq.mp hq2 with hlt | rfl
          · exact ⟨by omega, h4 q hq1 hlt⟩
          · refine ⟨h3, ?_⟩
            obtain ⟨c, hcq⟩ := Option.ne_none_iff_exists'.mp h2
            refine ⟨c, hcq, ?_⟩
            rintro rfl
            exact he hcq
        · exact h.cas j q (by simpa [hne] using hj)
      · intro j q hj
        rcases eq_or_ne j i with rfl | hne
        · simp at hj
        · exact h.read j q (by simpa [hne] using hj)
      · intro j hj
        rcases eq_or_ne j i with rfl | hne
        · simp at hj
        · exact h.done j (by simpa [hne] using hj)
  | cas p =>
    have hb := h.inBounds hc hp
    obtain ⟨h1, h2⟩ := h.cas i p hp
    simp only [hc.lt_size i hb, if_true]
    cases he : s.ent p with
    | some c =>
      refine ⟨_, rfl, ⟨h.cols, h.inj, h.pre, ?_, ?_, ?_⟩⟩
      · intro j q hj
        rcases eq_or_ne j i with rfl | hne
        · simp at hj
        · exact h.cas j q (by simpa [hne] using hj)
      · intro j q hj
        rcases eq_or_ne j i with rfl | hne
        · simp only [Function.update_self, Pc.read.injEq] at hj
          subst hj
          exact ⟨h1, by simp [he], hb, fun q hq1 hq2 => (h2 q hq1 hq2).2⟩
        · exact h.read j q (by simpa [hne] using hj)
      · intro j hj
        rcases eq_or_ne j i with rfl | hne
        · simp at hj
        · exact h.done j (by simpa [hne] using hj)
    | none =>
      have hkeep : ∀ q c, s.ent q = some c →
          Function.update s.ent p (some (P.col i)) q = some c := by
        intro q c hq
        have : q ≠ p := by rintro rfl; simp [he] at hq
        simpa [this] using hq
      have hset : ∀ q c, Function.update s.ent p (some (P.col i)) q = some c →
          (q = p ∧ c = P.col i) ∨ (q ≠ p ∧ s.ent q = some c) := by
        intro q c hq
        rcases eq_or_ne q p with rfl | hne
        · left; simpa [eq_comm] using hq
        · right; exact ⟨hne, by simpa [hne] using hq⟩
      have hother : ∀ r q, P.start r ≤ p → p < P.start (r + 1) → P.start r ≤ q →
          q < P.start (r + 1) → s.ent q ≠ some (P.col i) := by
        intro r q a1 a2 a3 a4 hq
        have hr := hc.disjoint a1 a2 h1 hb
        subst hr
        rcases lt_trichotomy q p with hlt | rfl | hgt
        · obtain ⟨_, c, hc2, hc3⟩ := h2 q a3 hlt
          rw [hq] at hc2
          exact hc3 (Option.some.inj hc2).symm
        · simp [he] at hq
        · exact h.pre _ q p a1 hgt a4 (by simp [hq]) he
      refine ⟨_, rfl, ⟨?_, ?_, ?_, ?_, ?_, ?_⟩⟩
      · intro r q c a1 a2 hq
        rcases hset q c hq with ⟨rfl, rfl⟩ | ⟨-, hq⟩
        · exact ⟨i, hc.disjoint h1 hb a1 a2, rfl⟩
        · exact h.cols r q c a1 a2 hq
      · intro r q q' c a1 a2 a3 a4 hq hq'
        rcases hset q c hq with ⟨rfl, h5⟩ | ⟨hn, hz⟩ <;>
          rcases hset q' _ hq' with ⟨rfl, h5⟩ | ⟨hn', hz'⟩
        · rfl
        · rw [h5] at hz'; exact absurd hz' (hother r q' a1 a2 a3 a4)
        · rw [h5] at hz; exact absurd hz (hother r q a3 a4 a1 a2)
        · exact h.inj r q q' c a1 a2 a3 a4 hz hz'
      · intro r q q' a1 a2 a3 hq
        dsimp only at hq ⊢
        obtain ⟨c, hq⟩ := Option.ne_none_iff_exists'.mp hq
        have hfilled : s.ent q' ≠ none ∨ q' = p := by
          rcases hset q c hq with ⟨rfl, rfl⟩ | ⟨hn, hq⟩
          · left
            have hr := hc.disjoint h1 hb (by omega : P.start r ≤ q) a3
            subst hr
            obtain ⟨_, c, hc2, -⟩ := h2 q' a1 a2
            simp [hc2]
          · left
            exact h.pre r q q' a1 a2 a3 (by simp [hq])
        rcases hfilled with hf | rfl
        · obtain ⟨c', hf⟩ := Option.ne_none_iff_exists'.mp hf
          rw [hkeep _ _ hf]; simp
        · simp
      · intro j q hj
        rcases eq_or_ne j i with rfl | hne
        · simp at hj
        · obtain ⟨b1, b2⟩ := h.cas j q (by simpa [hne] using hj)
          refine ⟨b1, fun q' hq1 hq2 => ?_⟩
          obtain ⟨b3, c, b4, b5⟩ := b2 q' hq1 hq2
          exact ⟨b3, c, hkeep _ _ b4, b5⟩
      · intro j q hj
        rcases eq_or_ne j i with rfl | hne
        · simp at hj
        · obtain ⟨b1, b2, b3, b4⟩ := h.read j q (by simpa [hne] using hj)
          refine ⟨b1, ?_, b3, fun q' hq1 hq2 => ?_⟩
          · obtain ⟨c, b2⟩ := Option.ne_none_iff_exists'.mp b2
            dsimp only
            rw [hkeep _ _ b2]; simp
          · obtain ⟨c, b5, b6⟩ := b4 q' hq1 hq2
            exact ⟨c, hkeep _ _ b5, b6⟩
      · intro j hj
        rcases eq_or_ne j i with rfl | hne
        · exact ⟨p, h1, hb, by simp⟩
        · obtain ⟨q, b1, b2, b3⟩ := h.done j (by simpa [hne] using hj)
          exact ⟨q, b1, b2, hkeep _ _ b3⟩

theorem inv_run {n : ℕ} (hc : P.Counted n) (sch : List (Fin m)) {s : St m} (h : P.Inv s) :
    ∃ s', P.run s sch = some s' ∧ P.Inv s' := by
  induction sch generalizing s with
  | nil => exact ⟨s, rfl, h⟩
  | cons i is ih =>
    obtain ⟨s1, e1, h1⟩ := inv_step hc h i
    obtain ⟨s2, e2, h2⟩ := ih h1
    exact ⟨s2, by simp [run, e1, e2], h2⟩

/-- **C11 (safety)** No execution of the filling pass accesses memory out of bounds. -/
theorem fill_no_error {n : ℕ} (hc : P.Counted n) (sch : List (Fin m)) :
    P.run P.init sch ≠ none := by
  obtain ⟨s, e, -⟩ := inv_run hc sch inv_init
  simp [e]

/-- Work left to a task. -/
def left (P : Fill m) (s : St m) (i : Fin m) : ℕ :=
  match s.pc i with
  | .done => 0
  | .cas p => 2 * (P.start (P.row i + 1) - p)
  | .read p => 2 * (P.start (P.row i + 1) - p) - 1

/-- **C11 (termination)** Every step of an unfinished task strictly decreases the total work left, which is bounded by
twice the sum of the row widths: no schedule runs for ever. -/
theorem fill_progress {n : ℕ} (hc : P.Counted n) {s s' : St m} (h : P.Inv s) (i : Fin m)
    (hd : s.pc i ≠ .done) (hs : P.step s i = some s') :
    ∑ j, P.left s' j < ∑ j, P.left s j := by
  have key : ∀ (x : Pc), s'.pc = Function.update s.pc i x → P.left s' i < P.left s i →
      ∑ j, P.left s' j < ∑ j, P.left s j := by
    intro x hx hlt
    refine Finset.sum_lt_sum (fun j _ => ?_) ⟨i, Finset.mem_univ _, hlt⟩
    rcases eq_or_ne j i with rfl | hne
    · exact hlt.le
    · simp [left, hx, hne]
  unfold step at hs
  cases hp : s.pc i with
  | done => exact absurd hp hd
  | cas p =>
    have hb := h.inBounds hc hp
    simp only [hp, hc.lt_size i hb, if_true] at hs
    cases he : s.ent p with
    | none =>
      simp only [he, Option.some.injEq] at hs
      subst hs
      refine key .done rfl ?_
      simp only [left, Function.update_self, hp]
      omega
    | some c =>
      simp only [he, Option.some.injEq] at hs
      subst hs
      refine key (.read p) rfl ?_
      simp only [left, Function.update_self, hp]
      omega
  | read p =>
    obtain ⟨h1, h2, h3, h4⟩ := h.read i p hp
    simp only [hp, hc.lt_size i h3, if_true] at hs
    split at hs
    · simp only [Option.some.injEq] at hs
      subst hs
      refine key .done rfl ?_
      simp only [left, Function.update_self, hp]
      omega
    · simp only [Option.some.injEq] at hs
      subst hs
      refine key (.cas (p + 1)) rfl ?_
      simp only [left, Function.update_self, hp]
      omega

end Fill

/-! ### Shrinking and looking up -/

theorem mem_shrinkGo {ent : ℕ → Option ℕ} {c : ℕ} (j len : ℕ) :
    c ∈ shrinkRow.go ent j len → ∃ p, j ≤ p ∧ p < j + len ∧ ent p = some c := by
  induction len generalizing j with
  | zero => simp [shrinkRow.go]
  | succ len ih =>
    unfold shrinkRow.go
    cases h : ent j with
    | none => simp
    | some c' =>
      simp only [List.mem_cons]
      rintro (rfl | h')
      · exact ⟨j, le_rfl, by omega, h⟩
      · obtain ⟨p, h1, h2, h3⟩ := ih (j + 1) h'
        exact ⟨p, by omega, by omega, h3⟩

theorem shrinkGo_mem {ent : ℕ → Option ℕ} {c p : ℕ} (j len : ℕ)
    (hpre : ∀ q, j ≤ q → q < p → ent q ≠ none) (h1 : j ≤ p) (h2 : p < j + len)
    (h3 : ent p = some c) : c ∈ shrinkRow.go ent j len := by
  induction len generalizing j with
  | zero => omega
  | succ len ih =>
    unfold shrinkRow.go
    rcases eq_or_lt_of_le h1 with rfl | hlt
    · simp [h3]
    · obtain ⟨c', hc'⟩ := Option.ne_none_iff_exists'.mp (hpre j le_rfl hlt)
      simp only [hc', List.mem_cons]
      right
      exact ih (j + 1) (fun q hq => hpre q (by omega)) hlt (by omega)

theorem nodup_shrinkGo {ent : ℕ → Option ℕ} (j len : ℕ)
    (hinj : ∀ p q c, j ≤ p → p < j + len → j ≤ q → q < j + len → ent p = some c →
      ent q = some c → p = q) : (shrinkRow.go ent j len).Nodup := by
  induction len generalizing j with
  | zero => simp [shrinkRow.go]
  | succ len ih =>
    unfold shrinkRow.go
    cases h : ent j with
    | none => simp
    | some c' =>
      rw [List.nodup_cons]
      refine ⟨fun hm => ?_, ih (j + 1) fun p q c a b e f => hinj p q c (by omega) (by omega)
        (by omega) (by omega)⟩
      obtain ⟨p, h1, h2, h3⟩ := mem_shrinkGo _ _ hm
      have := hinj j p c' le_rfl (by omega) (by omega) (by omega) h h3
      omega

theorem length_shrinkGo {ent : ℕ → Option ℕ} (j len : ℕ) :
    (shrinkRow.go ent j len).length ≤ len := by
  induction len generalizing j with
  | zero => simp [shrinkRow.go]
  | succ len ih =>
    unfold shrinkRow.go
    cases h : ent j with
    | none => simp
    | some c' => simpa using ih (j + 1)

/-- **C11** Whatever the schedule, once all tasks are done every row holds exactly the added columns, once each, in no
more slots than were counted. -/
theorem fill_rows {m n : ℕ} {P : Fill m} (hc : P.Counted n) (sch : List (Fin m)) {s : St m}
    (hrun : P.run P.init sch = some s) (hdone : ∀ i, s.pc i = .done) (r : ℕ) :
    (∀ c, c ∈ shrinkRow P.start s.ent r ↔ ∃ i, P.row i = r ∧ P.col i = c) ∧
    (shrinkRow P.start s.ent r).Nodup ∧
    (shrinkRow P.start s.ent r).length ≤ (Finset.univ.filter fun i => P.row i = r).card := by
  obtain ⟨s', e, h⟩ := Fill.inv_run hc sch Fill.inv_init
  rw [hrun] at e
  obtain rfl := Option.some.inj e
  have hw : P.start (r + 1) = P.start r + (Finset.univ.filter fun i => P.row i = r).card := by
    rw [hc.start_eq]; rfl
  refine ⟨fun c => ⟨fun hm => ?_, ?_⟩, ?_, ?_⟩
  · obtain ⟨p, h1, h2, h3⟩ := mem_shrinkGo _ _ hm
    exact h.cols r p c h1 (by omega) h3
  · rintro ⟨i, rfl, rfl⟩
    obtain ⟨q, h1, h2, h3⟩ := h.done i (hdone i)
    exact shrinkGo_mem _ _ (fun q' hq1 hq2 => h.pre _ q q' hq1 hq2 h2 (by simp [h3])) h1
      (by omega) h3
  · exact nodup_shrinkGo _ _ fun p q c a b a' b' => h.inj r p q c a (by omega) a' (by omega)
  · refine (length_shrinkGo _ _).trans ?_
    omega

/-- **C11 (schedule independence)** Two executions give the same set of columns in every row and the same row sizes, hence the same
row map. -/
theorem fill_schedule_independent {m n : ℕ} {P : Fill m} (hc : P.Counted n)
    (sch sch' : List (Fin m)) {s s' : St m} (h1 : P.run P.init sch = some s)
    (h2 : P.run P.init sch' = some s') (d1 : ∀ i, s.pc i = .done) (d2 : ∀ i, s'.pc i = .done)
    (r : ℕ) : (shrinkRow P.start s.ent r).Perm (shrinkRow P.start s'.ent r) := by
  obtain ⟨a1, a2, -⟩ := fill_rows hc sch h1 d1 r
  obtain ⟨b1, b2, -⟩ := fill_rows hc sch' h2 d2 r
  exact (List.perm_ext_iff_of_nodup a2 b2).mpr fun c => by rw [a1, b1]

theorem crsOf_rowMap_succ (rows : List (List ℕ)) {r : ℕ} (h : r < rows.length) :
    (crsOf rows).rowMap (r + 1) = (crsOf rows).rowMap r + (rows[r]).length := by
  simp only [crsOf, List.take_add_one, List.map_append, List.sum_append]
  simp [h]

theorem crsOf_entries (rows : List (List ℕ)) {r : ℕ} (h : r < rows.length) {j : ℕ}
    (hj : j < (rows[r]).length) :
    (crsOf rows).entries ((crsOf rows).rowMap r + j) = some ((rows[r])[j]) := by
  have e : rows.flatten = (rows.take r).flatten ++ (rows[r] ++ (rows.drop (r + 1)).flatten) := by
    rw [← List.flatten_cons, ← List.flatten_append, ← List.drop_eq_getElem_cons h,
      List.take_append_drop]
  have hl : ((rows.take r).map List.length).sum = (rows.take r).flatten.length := by
    rw [List.length_flatten]
  simp only [crsOf]
  rw [e, hl, List.getElem?_append_right (by omega), Nat.add_sub_cancel_left,
    List.getElem?_append_left hj, List.getElem?_eq_getElem hj]

/-- **C11 (lookup)** `operator()` finds every stored column, at its only position, and nothing else. -/
theorem getPosition_spec (rows : List (List ℕ)) {r : ℕ} (h : r < rows.length) (c : ℕ) :
    (c ∈ rows[r] → ∃ p, (crsOf rows).getPosition r c = some p ∧
      (crsOf rows).rowMap r ≤ p ∧ p < (crsOf rows).rowMap (r + 1) ∧
      (crsOf rows).entries p = some c) ∧
    (c ∉ rows[r] → (crsOf rows).getPosition r c = none) := by
  have hw := crsOf_rowMap_succ rows h
  constructor
  · intro hm
    have hex : ((crsOf rows).getPosition r c).isSome := by
      unfold Crs.getPosition
      rw [List.find?_isSome]
      obtain ⟨j, hj, e⟩ := List.mem_iff_getElem.mp hm
      refine ⟨(crsOf rows).rowMap r + j, ?_, ?_⟩
      · rw [List.mem_range'_1]; omega
      · rw [crsOf_entries rows h hj, e]; simp
    obtain ⟨p, hp⟩ := Option.isSome_iff_exists.mp hex
    refine ⟨p, hp, ?_⟩
    unfold Crs.getPosition at hp
    have h1 := List.find?_some hp
    have h2 := List.mem_of_find?_eq_some hp
    rw [List.mem_range'_1] at h2
    exact ⟨h2.1, by omega, by simpa using h1⟩
  · intro hm
    unfold Crs.getPosition
    rw [List.find?_eq_none]
    intro p hp
    rw [List.mem_range'_1] at hp
    obtain ⟨j, rfl⟩ : ∃ j, p = (crsOf rows).rowMap r + j := ⟨p - (crsOf rows).rowMap r, by omega⟩
    have hj : j < (rows[r]).length := by omega
    rw [crsOf_entries rows h hj]
    simp only [beq_iff_eq, Option.some.injEq]
    rintro rfl
    exact hm (List.getElem_mem hj)

/-- Different stored pairs have different positions: no two Jacobian entries share a slot. -/
theorem getPosition_inj (rows : List (List ℕ)) {r r' c c' p : ℕ} (h : r < rows.length)
    (h' : r' < rows.length)
    (e : (crsOf rows).getPosition r c = some p) (e' : (crsOf rows).getPosition r' c' = some p) :
    r = r' ∧ c = c' := by
  have hc : c ∈ rows[r] := by
    by_contra hm; rw [(getPosition_spec rows h c).2 hm] at e; simp at e
  have hc' : c' ∈ rows[r'] := by
    by_contra hm; rw [(getPosition_spec rows h' c').2 hm] at e'; simp at e'
  obtain ⟨q, q1, q2, q3, q4⟩ := (getPosition_spec rows h c).1 hc
  obtain ⟨q', q1', q2', q3', q4'⟩ := (getPosition_spec rows h' c').1 hc'
  rw [e] at q1; rw [e'] at q1'
  obtain rfl := Option.some.inj q1
  obtain rfl := Option.some.inj q1'
  rw [q4] at q4'
  refine ⟨?_, Option.some.inj q4'⟩
  have hmono : Monotone (crsOf rows).rowMap := by
    refine monotone_nat_of_le_succ fun k => ?_
    by_cases hk : k < rows.length
    · rw [crsOf_rowMap_succ rows hk]; omega
    · simp only [crsOf]
      rw [List.take_of_length_le (by omega), List.take_of_length_le (by omega)]
  rcases lt_trichotomy r r' with hlt | heq | hlt
  · have := hmono (show r + 1 ≤ r' from hlt); omega
  · exact heq
  · have := hmono (show r' + 1 ≤ r from hlt); omega

/-! ### Both passes together -/

theorem card_filter_get (tasks : List (ℕ × ℕ)) (r : ℕ) :
    (Finset.univ.filter fun i : Fin tasks.length => (tasks.get i).1 = r).card =
      tasks.countP fun t => t.1 = r := by
  induction tasks with
  | nil => simp
  | cons t ts ih =>
    rw [List.countP_cons, ← ih]
    have := Fin.card_filter_univ_succ (n := ts.length) fun i => ((t :: ts).get i).1 = r
    simp only [List.length_cons] at this ⊢
    rw [this]
    by_cases ht : t.1 = r <;> simp [ht, add_comm]

/-- The counts of the first pass, whatever its schedule, are the numbers of tasks of the second pass. -/
theorem counts_eq (n : ℕ) (threads : List (List (Option ℕ × Option ℕ))) {l : List (ℕ × ℕ)}
    (hl : Interleaves (threads.map countUpdates) l) (r : ℕ) :
    applyUpdates (initCounts n) l r = (tasksOf n threads.flatten).countP fun t => t.1 = r := by
  have hone : ((List.range n).map fun i => (i, i)).countP (fun t => decide (t.1 = r)) =
      initCounts n r := by
    rw [List.countP_map]
    have : (List.range n).countP ((fun t : ℕ × ℕ => decide (t.1 = r)) ∘ fun i => (i, i)) =
        (List.range n).count r := by
      rw [List.count]; congr 1
    rw [this, List.nodup_range.count]
    simp [initCounts]
  rw [applyUpdates_eq, tasksOf, List.countP_append, hone, netOf_perm hl.perm]
  congr 1
  have hflat : ∀ ts : List (List (Option ℕ × Option ℕ)),
      (ts.map countUpdates).flatten = countUpdates ts.flatten := by
    intro ts
    induction ts with
    | nil => rfl
    | cons t ts ih =>
      rw [List.map_cons, List.flatten_cons, ih, List.flatten_cons]
      simp only [countUpdates, List.filterMap_append, List.map_append]
  rw [hflat, countUpdates]
  induction threads.flatten.filterMap validReq with
  | nil => simp [netOf]
  | cons x xs ih =>
    simp only [List.map_cons, List.countP_cons, netOf_cons, ih]
    by_cases h : x.1 = r <;> simp [h, add_comm]

theorem counted_fillOf (n : ℕ) (threads : List (List (Option ℕ × Option ℕ))) {l : List (ℕ × ℕ)}
    (hl : Interleaves (threads.map countUpdates) l)
    (hrow : ∀ r c, (some r, some c) ∈ threads.flatten → r < n) :
    (fillOf n (tasksOf n threads.flatten) (applyUpdates (initCounts n) l)).Counted n where
  start_eq := by
    simp only [fillOf]
    congr 1
    funext r
    exact (counts_eq n threads hl r).trans (card_filter_get _ r).symm
  size_eq := rfl
  row_lt := by
    intro i
    have hm := List.get_mem (tasksOf n threads.flatten) i
    simp only [fillOf]
    generalize (tasksOf n threads.flatten).get i = t at hm
    simp only [tasksOf, List.mem_append, List.mem_map, List.mem_range, List.mem_filterMap] at hm
    rcases hm with ⟨a, ha, rfl⟩ | ⟨⟨x, y⟩, hq, he⟩
    · exact ha
    · rcases x with _ | x <;> rcases y with _ | y <;> simp [validReq] at he
      subst he
      exact hrow x y hq

theorem mem_tasksOf (n : ℕ) (reqs : List (Option ℕ × Option ℕ)) (r c : ℕ) :
    (r, c) ∈ tasksOf n reqs ↔ (r < n ∧ r = c) ∨ (some r, some c) ∈ reqs := by
  simp only [tasksOf, List.mem_append, List.mem_map, List.mem_range, List.mem_filterMap,
    Prod.mk.injEq]
  constructor
  · rintro (⟨a, ha, rfl, rfl⟩ | ⟨⟨x, y⟩, hq, he⟩)
    · exact Or.inl ⟨ha, rfl⟩
    · rcases x with _ | x <;> rcases y with _ | y <;> simp [validReq] at he
      obtain ⟨rfl, rfl⟩ := he
      exact Or.inr hq
  · rintro (⟨ha, rfl⟩ | h)
    · exact Or.inl ⟨r, ha, rfl, rfl⟩
    · exact Or.inr ⟨_, h, rfl⟩

/-- **C11** The whole construction, for every set of reactions, every schedule of the counting pass and every schedule of the filling pass: no access out of bounds;
when the pass is over, the rows of the connectivity are duplicate free and hold exactly the diagonal and the requested columns; the lookup of a pair succeeds
exactly if it was requested (or is diagonal) and then returns a position of that row holding that column. -/
theorem connectivity_correct (n : ℕ) (threads : List (List (Option ℕ × Option ℕ)))
    (hrow : ∀ r c, (some r, some c) ∈ threads.flatten → r < n) {l : List (ℕ × ℕ)}
    (hl : Interleaves (threads.map countUpdates) l)
    (sch : List (Fin (tasksOf n threads.flatten).length)) :
    let P := fillOf n (tasksOf n threads.flatten) (applyUpdates (initCounts n) l)
    ∃ s, P.run P.init sch = some s ∧ ((∀ i, s.pc i = .done) →
      let C := crsOf ((List.range n).map (shrinkRow P.start s.ent))
      ∀ r < n, (shrinkRow P.start s.ent r).Nodup ∧
        C.rowMap (r + 1) = C.rowMap r + (shrinkRow P.start s.ent r).length ∧
        ∀ c, (c ∈ shrinkRow P.start s.ent r ↔ r = c ∨ (some r, some c) ∈ threads.flatten) ∧
          ((r = c ∨ (some r, some c) ∈ threads.flatten) ↔ ∃ p, C.getPosition r c = some p) ∧
          ∀ p, C.getPosition r c = some p →
            C.rowMap r ≤ p ∧ p < C.rowMap (r + 1) ∧ C.entries p = some c) := by
  intro P
  have hc : P.Counted n := counted_fillOf n threads hl hrow
  obtain ⟨s, hs, -⟩ := Fill.inv_run hc sch Fill.inv_init
  refine ⟨s, hs, fun hd => ?_⟩
  intro C r hr
  obtain ⟨h1, h2, -⟩ := fill_rows hc sch hs hd r
  have hmem : ∀ c, c ∈ shrinkRow P.start s.ent r ↔ r = c ∨ (some r, some c) ∈ threads.flatten := by
    intro c
    rw [h1]
    constructor
    · rintro ⟨i, hi1, hi2⟩
      have hm := List.get_mem (tasksOf n threads.flatten) i
      have e : (tasksOf n threads.flatten).get i = (r, c) := Prod.ext hi1 hi2
      rw [e, mem_tasksOf] at hm
      exact hm.imp And.right id
    · intro h
      have hm : (r, c) ∈ tasksOf n threads.flatten := by
        rw [mem_tasksOf]
        exact h.imp (fun e => ⟨hr, e⟩) id
      obtain ⟨i, hi⟩ := List.get_of_mem hm
      exact ⟨i, by simp only [P, fillOf, hi], by simp only [P, fillOf, hi]⟩
  have hlen : r < ((List.range n).map (shrinkRow P.start s.ent)).length := by simpa using hr
  have hget : ((List.range n).map (shrinkRow P.start s.ent))[r] = shrinkRow P.start s.ent r := by
    simp
  refine ⟨h2, ?_, fun c => ⟨hmem c, ?_, ?_⟩⟩
  · have := crsOf_rowMap_succ _ hlen
    rwa [hget] at this
  · have := getPosition_spec _ hlen c
    rw [hget] at this
    constructor
    · intro h
      obtain ⟨p, hp, -⟩ := this.1 ((hmem c).mpr h)
      exact ⟨p, hp⟩
    · rintro ⟨p, hp⟩
      by_contra h
      have := this.2 (fun h' => h ((hmem c).mp h'))
      simp only [C] at hp
      rw [this] at hp
      simp at hp
  · intro p hp
    have := getPosition_spec _ hlen c
    rw [hget] at this
    by_cases h : c ∈ shrinkRow P.start s.ent r
    · obtain ⟨p', e, b⟩ := this.1 h
      simp only [C] at hp
      rw [hp] at e
      obtain rfl := Option.some.inj e
      exact b
    · have := this.2 h
      simp only [C] at hp
      rw [this] at hp
      simp at hp

/-- Non-vacuity: two reactions sharing a pair, three degrees of freedom, an execution in which two tasks race for a slot. -/
def exThreads : List (List (Option ℕ × Option ℕ)) :=
  [[(some 0, some 1), (some 0, none), (some 1, some 0)], [(some 0, some 1), (none, some 2)]]

example : (∀ r c, (some r, some c) ∈ exThreads.flatten → r < 3) ∧
    Interleaves (exThreads.map countUpdates) (exThreads.map countUpdates).flatten ∧
    (let P := fillOf 3 (tasksOf 3 exThreads.flatten)
      (applyUpdates (initCounts 3) (exThreads.map countUpdates).flatten)
     ∃ s, P.run P.init (show List (Fin (tasksOf 3 exThreads.flatten).length) from
      ([3, 5, 5, 5, 5, 0, 0, 0, 1, 2, 4, 0, 4, 4] : List (Fin 6))) = some s ∧
      (∀ i, s.pc i = .done) ∧
      (List.range 3).map (shrinkRow P.start s.ent) = [[1, 0], [1, 0], [2]]) := by
  refine ⟨?_, Interleaves.sequential _, ?_⟩
  · intro r c h
    simp [exThreads] at h
    omega
  · refine ⟨_, rfl, ?_, ?_⟩ <;> decide +kernel

end Xolotl.Network.Conn
