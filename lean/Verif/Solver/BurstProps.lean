import Verif.Solver.Burst
import Verif.Solver.EventsProps
import Verif.Network.BurstingProps
import Mathlib.Data.List.Induction
import Mathlib.Tactic.Linarith
import Mathlib.Tactic.FieldSimp

/-!
# Properties of the bursting event (C97)
-/

set_option linter.unusedSectionVars false

namespace Xolotl.Solver.Burst

open Network.Bursting Network Network.Totals

variable {K : Type*} [Field K] [LinearOrder K] [IsStrictOrderedRing K]

/-! ## The points looked at -/

theorem mem_line (g : Grid) (s z y : ℕ) (p : Place) : p ∈ line g s z y ↔ p.1 = z ∧ p.2.1 = y ∧ s + g.lo ≤ p.2.2 ∧ p.2.2 < g.mx - g.ro := by
  obtain ⟨a, b, c⟩ := p
  simp only [line, List.mem_map, List.mem_range'_1, Prod.mk.injEq]
  constructor
  · rintro ⟨x, h, rfl, rfl, rfl⟩; exact ⟨rfl, rfl, by omega, by omega⟩
  · rintro ⟨rfl, rfl, h1, h2⟩; exact ⟨c, by omega, rfl, rfl, rfl⟩

/-- **C97, which points.** The loops look at the grid points between surface and bottom, offsets taken off, -/
theorem points_iff (d : Dim) (g : Grid) (p : Place) : p ∈ points d g ↔
    match d with
    | .one => p.1 = 0 ∧ p.2.1 = 0 ∧ g.lo ≤ p.2.2 ∧ p.2.2 < g.mx - g.ro
    | .two => p.1 = 0 ∧ p.2.1 < g.my ∧ g.surf p.2.1 0 + g.lo ≤ p.2.2 ∧ p.2.2 < g.mx - g.ro
    | .three => p.1 < g.mz ∧ p.2.1 < g.my ∧ g.surf p.2.1 p.1 + g.lo ≤ p.2.2 ∧ p.2.2 < g.mx - g.ro := by
  cases d with
  | one => simp [points, mem_line]
  | two =>
    simp only [points, List.mem_flatMap, List.mem_range, mem_line]
    constructor
    · rintro ⟨y, h, h1, rfl, h2⟩; exact ⟨h1, h, h2⟩
    · rintro ⟨h1, h, h2⟩; exact ⟨_, h, h1, rfl, h2⟩
  | three =>
    simp only [points, List.mem_flatMap, List.mem_range, mem_line]
    constructor
    · rintro ⟨z, hz, y, h, rfl, rfl, h2⟩; exact ⟨hz, h, h2⟩
    · rintro ⟨h1, h, h2⟩; exact ⟨_, h1, _, h, rfl, rfl, h2⟩

theorem line_nodup (g : Grid) (s z y : ℕ) : (line g s z y).Nodup :=
  List.Nodup.map (fun a b h => by simpa using h) List.nodup_range'

/-- each once. -/
theorem points_nodup (d : Dim) (g : Grid) : (points d g).Nodup := by
  have two : ∀ z, ((List.range g.my).flatMap fun y => line g (g.surf y z) z y).Nodup := by
    intro z
    rw [List.nodup_flatMap]
    refine ⟨fun y _ => line_nodup g _ _ _, List.nodup_range.imp fun {a b} h => ?_⟩
    intro p h1 h2
    rw [mem_line] at h1 h2
    exact h (h1.2.1.symm.trans h2.2.1)
  cases d with
  | one => exact line_nodup g _ _ _
  | two =>
    refine (List.nodup_flatMap.2 ⟨fun y _ => line_nodup g _ _ _, List.nodup_range.imp fun {a b} h => ?_⟩ : ((List.range g.my).flatMap fun y => line g (g.surf y 0) 0 y).Nodup)
    intro p h1 h2
    rw [mem_line] at h1 h2
    exact h (h1.2.1.symm.trans h2.2.1)
  | three =>
    refine (List.nodup_flatMap.2 ⟨fun z _ => two z, List.nodup_range.imp fun {a b} h => ?_⟩ :
      ((List.range g.mz).flatMap fun z => (List.range g.my).flatMap fun y => line g (g.surf y z) z y).Nodup)
    intro p h1 h2
    simp only [List.mem_flatMap, mem_line] at h1 h2
    obtain ⟨_, _, h1, _⟩ := h1
    obtain ⟨_, _, h2, _⟩ := h2
    exact h (h1.symm.trans h2)

/-! ## Which points are listed -/

/-- Whether a number is drawn at the point on the rank with this part. -/
def drawn (d : Dim) (t : Test K) (b : Box) (p : Place) : Bool := owns d b p && (decide (d ≠ .three) || !t.big p)

/-- How many numbers the rank has drawn when it comes to the point, in this round. -/
def before (d : Dim) (g : Grid) (t : Test K) (b : Box) (p : Place) : ℕ := ((points d g).takeWhile fun q => decide (q ≠ p)).countP (drawn d t b)

/-- The point bursts on the rank: it owns it, and the radius is too large or the probability above the random number. -/
def Bursts (d : Dim) (g : Grid) (t : Test K) (b : Box) (rnd : ℕ → K) (n : ℕ) (p : Place) : Prop :=
  owns d b p = true ∧ (t.big p = true ∨ rnd (n + before d g t b p) < t.prob p)

instance (d : Dim) (g : Grid) (t : Test K) (b : Box) (rnd : ℕ → K) (n : ℕ) (p : Place) : Decidable (Bursts d g t b rnd n p) := by
  unfold Bursts; infer_instance

theorem takeWhile_mem {l : List Place} {a p : Place} (h : p ∈ l) : (l ++ [a]).takeWhile (fun q => decide (q ≠ p)) = l.takeWhile fun q => decide (q ≠ p) := by
  induction l with
  | nil => simp at h
  | cons b l ih =>
    by_cases e : b = p
    · simp [e]
    · rcases List.mem_cons.1 h with h | h
      · exact absurd h.symm e
      · simp only [List.cons_append, List.takeWhile_cons, ih h]

theorem takeWhile_new {l : List Place} {a : Place} (h : a ∉ l) : (l ++ [a]).takeWhile (fun q => decide (q ≠ a)) = l := by
  induction l with
  | nil => simp
  | cons b l ih =>
    have e : b ≠ a := fun e => h (e ▸ List.mem_cons_self)
    rw [List.cons_append, List.takeWhile_cons, if_pos (by simpa using e), ih fun h' => h (List.mem_cons_of_mem _ h')]

/-- What the loop has done after a list of points. -/
theorem fold_visit (d : Dim) (t : Test K) (b : Box) (rnd : ℕ → K) (n : ℕ) (l : List Place) (hl : l.Nodup) :
    l.foldl (visit d t b rnd) ⟨[], n⟩ =
      ⟨l.filter fun p => owns d b p && (t.big p || decide (rnd (n + (l.takeWhile fun q => decide (q ≠ p)).countP (drawn d t b)) < t.prob p)), n + l.countP (drawn d t b)⟩ := by
  induction l using List.reverseRecOn with
  | nil => rfl
  | append_singleton l a ih =>
    have ha : a ∉ l := fun h => (List.nodup_append.1 hl).2.2 a h a List.mem_cons_self rfl
    rw [List.foldl_append, ih (List.nodup_append.1 hl).1, List.foldl_cons, List.foldl_nil, List.filter_append]
    have e1 : (l.filter fun p => owns d b p && (t.big p || decide (rnd (n + ((l ++ [a]).takeWhile fun q => decide (q ≠ p)).countP (drawn d t b)) < t.prob p))) =
        l.filter fun p => owns d b p && (t.big p || decide (rnd (n + (l.takeWhile fun q => decide (q ≠ p)).countP (drawn d t b)) < t.prob p)) :=
      List.filter_congr fun p hp => by rw [takeWhile_mem hp]
    rw [e1, List.countP_append, List.filter_cons, takeWhile_new ha]
    unfold visit
    by_cases ho : owns d b a = true
    · rw [if_pos ho]
      by_cases hb : t.big a = true
      · cases d <;> simp [draw, drawn, ho, hb, Nat.add_assoc]
      · rw [Bool.not_eq_true] at hb
        by_cases hr : rnd (n + l.countP (drawn d t b)) < t.prob a
        · cases d <;> simp [draw, drawn, ho, hb, hr, Nat.add_assoc]
        · cases d <;> simp [draw, drawn, ho, hb, hr, Nat.add_assoc]
    · rw [if_neg ho]
      rw [Bool.not_eq_true] at ho
      simp [drawn, ho]

theorem scan_own (d : Dim) (hd : d ≠ .two) {N : ℕ} (g : Grid) (t : Test K) (box : Fin N → Box) (rnd : Fin N → ℕ → K) (n : Fin N → ℕ) (r : Fin N) :
    scan d g t box rnd n r = (points d g).foldl (visit d t (box r) (rnd r)) ⟨[], n r⟩ := by
  cases d with
  | two => exact absurd rfl hd
  | _ => rfl

/-- **C97, the list in one and three dimensions.** The list of a rank is that of the points that burst on it, in the order of the loops, -/
theorem listed_own (d : Dim) (hd : d ≠ .two) {N : ℕ} (g : Grid) (t : Test K) (box : Fin N → Box) (rnd : Fin N → ℕ → K) (n : Fin N → ℕ) (r : Fin N) :
    (scan d g t box rnd n r).pos = (points d g).filter fun p => decide (Bursts d g t (box r) (rnd r) (n r) p) := by
  rw [scan_own d hd, fold_visit d t (box r) (rnd r) (n r) _ (points_nodup d g)]
  refine List.filter_congr fun p _ => ?_
  rw [Bool.eq_iff_iff]
  simp [Bursts, before]

/-- and the rank draws one number for each of its points, in three dimensions only for those whose radius does not decide. -/
theorem numbers_own (d : Dim) (hd : d ≠ .two) {N : ℕ} (g : Grid) (t : Test K) (box : Fin N → Box) (rnd : Fin N → ℕ → K) (n : Fin N → ℕ) (r : Fin N) :
    (scan d g t box rnd n r).n = n r + (points d g).countP (drawn d t (box r)) := by
  rw [scan_own d hd, fold_visit d t (box r) (rnd r) (n r) _ (points_nodup d g)]

theorem fold_all {N : ℕ} (t : Test K) (box : Fin N → Box) (rnd : Fin N → ℕ → K) (n : Fin N → ℕ) (l : List Place) (hl : l.Nodup) :
    l.foldl (visitAll t box rnd) (fun r => ⟨[], n r⟩) = fun r =>
      ⟨l.filter fun p => (List.finRange N).any fun q => owns .two (box q) p &&
          (t.big p || decide (rnd q (n q + (l.takeWhile fun q => decide (q ≠ p)).countP (drawn .two t (box q))) < t.prob p)),
        n r + l.countP (drawn .two t (box r))⟩ := by
  induction l using List.reverseRecOn with
  | nil => rfl
  | append_singleton l a ih =>
    have ha : a ∉ l := fun h => (List.nodup_append.1 hl).2.2 a h a List.mem_cons_self rfl
    rw [List.foldl_append, ih (List.nodup_append.1 hl).1, List.foldl_cons, List.foldl_nil]
    funext r
    rw [List.filter_append]
    have e1 : (l.filter fun p => (List.finRange N).any fun q => owns .two (box q) p &&
          (t.big p || decide (rnd q (n q + ((l ++ [a]).takeWhile fun q => decide (q ≠ p)).countP (drawn .two t (box q))) < t.prob p))) =
        l.filter fun p => (List.finRange N).any fun q => owns .two (box q) p &&
          (t.big p || decide (rnd q (n q + (l.takeWhile fun q => decide (q ≠ p)).countP (drawn .two t (box q))) < t.prob p)) :=
      List.filter_congr fun p hp => by rw [takeWhile_mem hp]
    rw [e1, List.countP_append, List.filter_cons, takeWhile_new ha]
    unfold visitAll
    have e2 : ∀ m q, (draw .two t (rnd q) m a).1 = (t.big a || decide (rnd q m < t.prob a)) := fun m q => by simp [draw, Bool.or_comm]
    simp only [e2]
    congr 1
    · split_ifs <;> simp
    · by_cases ho : owns .two (box r) a = true
      · rw [if_pos ho]
        simp [draw, drawn, ho, Nat.add_assoc]
      · rw [if_neg ho]
        rw [Bool.not_eq_true] at ho
        simp [drawn, ho]

/-- **C97, the list in two dimensions.** Every rank has the list of all points that burst on some rank. -/
theorem listed_all {N : ℕ} (g : Grid) (t : Test K) (box : Fin N → Box) (rnd : Fin N → ℕ → K) (n : Fin N → ℕ) (r : Fin N) :
    (scan .two g t box rnd n r).pos = (points .two g).filter fun p => decide (∃ q, Bursts .two g t (box q) (rnd q) (n q) p) := by
  show (((points .two g).foldl (visitAll t box rnd) fun r => ⟨[], n r⟩) r).pos = _
  rw [fold_all t box rnd n _ (points_nodup .two g)]
  refine List.filter_congr fun p _ => ?_
  rw [Bool.eq_iff_iff]
  simp [Bursts, before]

theorem numbers_all {N : ℕ} (g : Grid) (t : Test K) (box : Fin N → Box) (rnd : Fin N → ℕ → K) (n : Fin N → ℕ) (r : Fin N) :
    (scan .two g t box rnd n r).n = n r + (points .two g).countP (owns .two (box r)) := by
  show (((points .two g).foldl (visitAll t box rnd) fun r => ⟨[], n r⟩) r).n = _
  rw [fold_all t box rnd n _ (points_nodup .two g)]
  show n r + (points .two g).countP (drawn .two t (box r)) = _
  have : drawn .two t (box r) = owns .two (box r) := by funext p; simp [drawn]
  rw [this]

/-- A list has no point twice. -/
theorem listed_nodup (d : Dim) {N : ℕ} (g : Grid) (t : Test K) (box : Fin N → Box) (rnd : Fin N → ℕ → K) (n : Fin N → ℕ) (r : Fin N) :
    (scan d g t box rnd n r).pos.Nodup := by
  by_cases hd : d = .two
  · subst hd; rw [listed_all]; exact (points_nodup _ g).filter _
  · rw [listed_own d hd]; exact (points_nodup d g).filter _

/-- Every grid point looked at has exactly one owner. -/
def Parts {N : ℕ} (d : Dim) (g : Grid) (box : Fin N → Box) : Prop := ∀ p ∈ points d g, ∃ r, owns d (box r) p = true ∧ ∀ q, owns d (box q) p = true → q = r

/-- **C97, bubbles that are too large burst.** In every dimension, the owner of a point below the surface whose radius is larger than the distance lists it, -/
theorem large_listed (d : Dim) {N : ℕ} (g : Grid) (t : Test K) (box : Fin N → Box) (rnd : Fin N → ℕ → K) (n : Fin N → ℕ) (r : Fin N) (p : Place)
    (hp : p ∈ points d g) (ho : owns d (box r) p = true) (hb : t.big p = true) : p ∈ (scan d g t box rnd n r).pos := by
  by_cases hd : d = .two
  · subst hd
    rw [listed_all, List.mem_filter]
    exact ⟨hp, decide_eq_true ⟨r, ho, Or.inl hb⟩⟩
  · rw [listed_own d hd, List.mem_filter]
    exact ⟨hp, decide_eq_true ⟨ho, Or.inl hb⟩⟩

/-- a point whose radius is not too large and whose probability is not above any of the numbers is listed nowhere. -/
theorem quiet_point (d : Dim) {N : ℕ} (g : Grid) (t : Test K) (box : Fin N → Box) (rnd : Fin N → ℕ → K) (n : Fin N → ℕ) (r : Fin N) (p : Place)
    (hb : t.big p = false) (hq : ∀ q k, t.prob p ≤ rnd q k) : p ∉ (scan d g t box rnd n r).pos := by
  have : ∀ q, ¬ Bursts d g t (box q) (rnd q) (n q) p := by
    rintro q ⟨_, h | h⟩
    · rw [hb] at h; cases h
    · exact absurd h (not_lt.2 (hq q _))
  by_cases hd : d = .two
  · subst hd
    rw [listed_all, List.mem_filter]
    rintro ⟨_, h⟩
    obtain ⟨q, hq⟩ := of_decide_eq_true h
    exact this q hq
  · rw [listed_own d hd, List.mem_filter]
    rintro ⟨_, h⟩
    exact this r (of_decide_eq_true h)

/-- In one and three dimensions, with every point owned by one rank, a point is on one list at most, that of its owner; -/
theorem one_list (d : Dim) (hd : d ≠ .two) {N : ℕ} (g : Grid) (t : Test K) (box : Fin N → Box) (hp : Parts d g box) (rnd : Fin N → ℕ → K) (n : Fin N → ℕ) (r q : Fin N) (p : Place)
    (h1 : p ∈ (scan d g t box rnd n r).pos) (h2 : p ∈ (scan d g t box rnd n q).pos) : r = q := by
  rw [listed_own d hd, List.mem_filter] at h1 h2
  obtain ⟨o, _, ho⟩ := hp p h1.1
  rw [ho r (of_decide_eq_true h1.2).1, ho q (of_decide_eq_true h2.2).1]

/-- in two dimensions, on all lists or none. -/
theorem all_lists {N : ℕ} (g : Grid) (t : Test K) (box : Fin N → Box) (rnd : Fin N → ℕ → K) (n : Fin N → ℕ) (r q : Fin N) :
    (scan .two g t box rnd n r).pos = (scan .two g t box rnd n q).pos := by rw [listed_all, listed_all]

/-! ## Whether the event happens -/

/-- **C97, agreement.** In one and two dimensions the ranks agree whether the event happens, -/
theorem agree (d : Dim) (hd : d ≠ .three) {N : ℕ} (g : Grid) (t : Test K) (box : Fin N → Box) (rnd : Fin N → ℕ → K) (n : Fin N → ℕ) (r q : Fin N) :
    happens d (scan d g t box rnd n) r = happens d (scan d g t box rnd n) q := by
  cases d with
  | one => rfl
  | two => unfold happens; rw [all_lists g t box rnd n r q]
  | three => exact absurd rfl hd

theorem isEmpty_filter {α : Type*} (l : List α) (f : α → Bool) : (!(l.filter f).isEmpty) = true ↔ ∃ p ∈ l, f p = true := by
  rw [Bool.not_eq_true', List.isEmpty_eq_false_iff_exists_mem]
  simp [List.mem_filter]

/-- and it happens when some point bursts on some rank; -/
theorem happens_iff (d : Dim) (hd : d ≠ .three) {N : ℕ} (g : Grid) (t : Test K) (box : Fin N → Box) (rnd : Fin N → ℕ → K) (n : Fin N → ℕ) (r : Fin N) :
    happens d (scan d g t box rnd n) r = true ↔ ∃ p ∈ points d g, ∃ q, Bursts d g t (box q) (rnd q) (n q) p := by
  cases d with
  | one =>
    show ((List.finRange N).any fun q => !(scan .one g t box rnd n q).pos.isEmpty) = true ↔ _
    rw [List.any_eq_true]
    constructor
    · rintro ⟨q, _, h⟩
      rw [listed_own .one (by decide), isEmpty_filter] at h
      obtain ⟨p, hp, h⟩ := h
      exact ⟨p, hp, q, of_decide_eq_true h⟩
    · rintro ⟨p, hp, q, h⟩
      refine ⟨q, List.mem_finRange q, ?_⟩
      rw [listed_own .one (by decide), isEmpty_filter]
      exact ⟨p, hp, decide_eq_true h⟩
  | two =>
    show (!(scan .two g t box rnd n r).pos.isEmpty) = true ↔ _
    rw [listed_all, isEmpty_filter]
    simp
  | three => exact absurd rfl hd

/-- in three dimensions it happens on the ranks on which a point bursts only. -/
theorem happens_three {N : ℕ} (g : Grid) (t : Test K) (box : Fin N → Box) (rnd : Fin N → ℕ → K) (n : Fin N → ℕ) (r : Fin N) :
    happens .three (scan .three g t box rnd n) r = true ↔ ∃ p ∈ points .three g, Bursts .three g t (box r) (rnd r) (n r) p := by
  show (!(scan .three g t box rnd n r).pos.isEmpty) = true ↔ _
  rw [listed_own .three (by decide), isEmpty_filter]
  simp

/-- **C97, once per step.** Another call in the same step finds nothing, forgets the list and draws no numbers; -/
theorem event_again {N : ℕ} (d : Dim) (on : Bool) (ts : ℕ) (g g' : Grid) (t t' : Test K) (box : Fin N → Box) (rnd : Fin N → ℕ → K) (s : Mon N) (on' : Bool) (r : Fin N) :
    (event d on' ts g' t' box rnd (event d on ts g t box rnd s).1).2 r = false ∧
      ((event d on' ts g' t' box rnd (event d on ts g t box rnd s).1).1.mem r).pos = [] ∧
      ((event d on' ts g' t' box rnd (event d on ts g t box rnd s).1).1.mem r).n = ((event d on ts g t box rnd s).1.mem r).n := by
  have h : (event d on ts g t box rnd s).1.last = some ts := by
    unfold event
    by_cases h : s.last = some ts
    · rw [if_pos h]; exact h
    · rw [if_neg h]; split_ifs <;> rfl
  have e : event d on' ts g' t' box rnd (event d on ts g t box rnd s).1 = (⟨some ts, fun r => ⟨[], ((event d on ts g t box rnd s).1.mem r).n⟩⟩, fun _ => false) := by
    generalize (event d on ts g t box rnd s).1 = u at h ⊢
    unfold event
    rw [if_pos h, h]
  rw [e]
  exact ⟨rfl, rfl, rfl⟩

/-- in a new step, the lists are those of this step, whatever was listed before, and without bursting nothing is listed. -/
theorem event_new {N : ℕ} (d : Dim) (on : Bool) (ts : ℕ) (g : Grid) (t : Test K) (box : Fin N → Box) (rnd : Fin N → ℕ → K) (s : Mon N) (h : s.last ≠ some ts) (r : Fin N) :
    ((event d on ts g t box rnd s).1.mem r).pos = (if on = true then (scan d g t box rnd (fun q => (s.mem q).n) r).pos else []) ∧
      (event d on ts g t box rnd s).2 r = (if on = true then happens d (scan d g t box rnd fun q => (s.mem q).n) r else false) := by
  unfold event
  rw [if_neg h]
  split_ifs <;> exact ⟨rfl, rfl⟩

/-! ## More helium -/

/-- The width of a grid point in the retained amounts.  xolotl/solver/src/monitor/PetscMonitor1D.cpp:875. -/
def width (x : ℕ → K) (i : ℕ) : K := x (i + 1) - x i

/-- The radius for no helium is above minus half the lattice parameter. -/
theorem radius_zero_lower (a : ℝ) (ha : 0 < a) : -(a / 2) < Events.radius a 0 := by
  unfold Events.radius
  rw [mul_zero, zero_div, Real.zero_rpow (by norm_num), add_zero]
  have hpi := Real.pi_gt_three
  have h3 : (3 / 2 : ℝ) < √3 := by
    rw [Real.lt_sqrt (by norm_num)]; norm_num
  have key : (3 * (a * a * a) / (8 * Real.pi)) ^ (1 / 3 : ℝ) < 3 / 4 * a := by
    have e : (3 / 4 * a) = ((3 / 4 * a) ^ (3 : ℕ)) ^ (1 / 3 : ℝ) := by
      rw [← Real.rpow_natCast, ← Real.rpow_mul (by positivity)]; norm_num
    rw [e]
    refine Real.rpow_lt_rpow (by positivity) ?_ (by norm_num)
    rw [div_lt_iff₀ (by positivity)]
    have : 0 < a * a * a := by positivity
    nlinarith
  nlinarith

/-- The distance and the helium density meet the conditions of the test at a point. -/
structure Fine (d : Dim) (q : Par) (g : Grid) (x : ℕ → ℝ) (p : Place) : Prop where
  step : x p.2.2 ≤ x (p.2.2 + 1)
  dist : 0 < distance x (surfaceOf d g p) p.2.2

theorem test_bursts (d : Dim) (q : Par) (g : Grid) (x : ℕ → ℝ) (he : Place → ℝ) (p : Place) (rnd : ℝ) :
    ((test d q g x he).big p = true ∨ rnd < (test d q g x he).prob p) ↔
      Events.bursts q.prefactor q.depth (distance x (surfaceOf d g p) p.2.2) (Events.radius q.lattice (vacancies d q x (he p) p.2.2)) rnd := by
  unfold test Events.bursts
  simp only [decide_eq_true_eq]
  exact or_comm

/-- The bubble of two and three dimensions is that of one dimension with the helium of the area of a grid point. -/
theorem vacancies_area (d : Dim) (q : Par) (x : ℕ → ℝ) (he : ℝ) (i : ℕ) :
    vacancies d q x he i = vacancies .one q x (he * (match d with | .one => 1 | .two => q.hy | .three => q.hy * q.hz)) i := by
  cases d <;> simp only [vacancies] <;> ring

/-- **C97, the test.** In one and two dimensions, at a point where a grid point bursts and the radius of the bubble is not negative, it still bursts with more helium there, whatever changes elsewhere, as the same number is drawn for it. -/
theorem more_helium (d : Dim) (hd : d ≠ .three) (q : Par) (g : Grid) (x : ℕ → ℝ) (he he' : Place → ℝ) (b : Box) (rnd : ℕ → ℝ) (n : ℕ) (p : Place)
    (ha : 0 < q.lattice) (hr : 0 < q.ratio) (hf : 0 ≤ q.prefactor) (ht : 0 < q.depth) (hy : 0 ≤ q.hy) (fine : Fine d q g x p) (h0 : 0 ≤ he p) (hle : he p ≤ he' p)
    (hpos : 0 ≤ Events.radius q.lattice (vacancies d q x (he p) p.2.2)) (h : Bursts d g (test d q g x he) b rnd n p) : Bursts d g (test d q g x he') b rnd n p := by
  have hb : before d g (test d q g x he') b p = before d g (test d q g x he) b p := by
    unfold before
    congr 1
    funext p; simp [drawn, hd]
  refine ⟨h.1, ?_⟩
  have h2 := h.2
  rw [hb]
  rw [test_bursts] at h2 ⊢
  have hv : vacancies d q x (he p) p.2.2 ≤ vacancies d q x (he' p) p.2.2 ∧ 0 ≤ vacancies d q x (he p) p.2.2 := by
    have hx : 0 ≤ x (p.2.2 + 1) - x p.2.2 := sub_nonneg.2 fine.step
    cases d with
    | one => exact ⟨div_le_div_of_nonneg_right (mul_le_mul_of_nonneg_right hle hx) hr.le, div_nonneg (mul_nonneg h0 hx) hr.le⟩
    | two =>
      exact ⟨div_le_div_of_nonneg_right (mul_le_mul_of_nonneg_right (mul_le_mul_of_nonneg_right hle hx) hy) hr.le, div_nonneg (mul_nonneg (mul_nonneg h0 hx) hy) hr.le⟩
    | three => exact absurd rfl hd
  refine Events.bursts_mono _ _ _ _ _ _ _ _ _ hf le_rfl ht fine.dist le_rfl hpos ?_ le_rfl h2
  rcases hv.1.lt_or_eq with h | h
  · exact (Events.radius_mono _ ha _ _ hv.2 h).le
  · rw [h]

/-- Below the first grid point the distance is positive, so the test makes sense, -/
theorem distance_pos (x : ℕ → K) (hx : ∀ i, x i < x (i + 1)) (s i : ℕ) (h : s + 1 ≤ i) : 0 < distance x s i := by
  have mono : ∀ a b, a ≤ b → x a ≤ x b := by
    intro a b hab
    induction b, hab using Nat.le_induction with
    | base => exact le_rfl
    | succ k _ ih => exact ih.trans (hx k).le
  have h1 := mono (s + 1) i h
  have h2 := hx i
  unfold distance
  linarith

theorem fine (d : Dim) (q : Par) (g : Grid) (x : ℕ → ℝ) (hx : ∀ i, x i < x (i + 1)) (hlo : 1 ≤ g.lo) (p : Place) (hp : p ∈ points d g) : Fine d q g x p := by
  refine ⟨(hx _).le, distance_pos x hx _ _ ?_⟩
  rw [points_iff] at hp
  cases d <;> dsimp only [surfaceOf] at hp ⊢ <;> omega

/-- at the first grid point, which is looked at when the surface is reflective, it is negative. -/
theorem distance_first (x : ℕ → K) (s : ℕ) : distance x s s = -(width x s / 2) := by unfold distance width; ring

/-- **C97, a point without helium does not burst** with a free surface and numbers that are not negative, -/
theorem empty_quiet {N : ℕ} (d : Dim) (q : Par) (g : Grid) (x : ℕ → ℝ) (hx : ∀ i, x i < x (i + 1)) (hlo : 1 ≤ g.lo) (ha : 0 < q.lattice) (hf : 0 ≤ q.prefactor)
    (he : Place → ℝ) (box : Fin N → Box) (rnd : Fin N → ℕ → ℝ) (hr : ∀ q k, 0 ≤ rnd q k) (n : Fin N → ℕ) (r : Fin N) (p : Place) (h0 : he p = 0) :
    p ∉ (scan d g (test d q g x he) box rnd n r).pos := by
  intro hp
  have : ∃ r, p ∈ points d g ∧ Bursts d g (test d q g x he) (box r) (rnd r) (n r) p := by
    by_cases hd : d = .two
    · subst hd
      rw [listed_all, List.mem_filter, decide_eq_true_eq] at hp
      obtain ⟨h, r, hb⟩ := hp
      exact ⟨r, h, hb⟩
    · rw [listed_own d hd, List.mem_filter, decide_eq_true_eq] at hp
      exact ⟨r, hp⟩
  obtain ⟨r, hp, hb⟩ := this
  have h := hb.2
  rw [test_bursts, h0, show vacancies d q x 0 p.2.2 = 0 by cases d <;> simp [vacancies]] at h
  exact Events.bursts_empty _ _ _ _ _ ha hf (fine d q g x hx hlo p hp).dist (hr _ _) h

/-- while the point at the surface itself, which is looked at with a reflective surface, would burst in every step, helium or not, if the grid is as wide there as the lattice parameter: the safeguard that refuses bursting with a reflective surface (SolverHandler.cpp:542-550) is needed. -/
theorem first_always {N : ℕ} (d : Dim) (q : Par) (g : Grid) (x : ℕ → ℝ) (ha : 0 < q.lattice) (hr : 0 < q.ratio) (hy : 0 ≤ q.hy) (hz : 0 ≤ q.hz)
    (he : Place → ℝ) (box : Fin N → Box) (rnd : Fin N → ℕ → ℝ) (n : Fin N → ℕ) (r : Fin N) (p : Place)
    (hp : p ∈ points d g) (ho : owns d (box r) p = true) (hs : p.2.2 = surfaceOf d g p) (h0 : 0 ≤ he p) (hw : q.lattice ≤ width x (surfaceOf d g p)) :
    p ∈ (scan d g (test d q g x he) box rnd n r).pos := by
  refine large_listed d g _ box rnd n r p hp ho ?_
  have hv : 0 ≤ vacancies d q x (he p) p.2.2 := by
    rw [hs]
    have hx : 0 ≤ x (surfaceOf d g p + 1) - x (surfaceOf d g p) := ha.le.trans hw
    cases d with
    | one => exact div_nonneg (mul_nonneg h0 hx) hr.le
    | two => exact div_nonneg (mul_nonneg (mul_nonneg h0 hx) hy) hr.le
    | three => exact div_nonneg (mul_nonneg (mul_nonneg (mul_nonneg h0 hx) hy) hz) hr.le
  have hrad : Events.radius q.lattice 0 ≤ Events.radius q.lattice (vacancies d q x (he p) p.2.2) := by
    rcases hv.lt_or_eq with h | h
    · exact (Events.radius_mono _ ha _ _ le_rfl h).le
    · rw [← h]
  show decide _ = true
  rw [decide_eq_true_eq, hs, distance_first]
  rw [hs] at hrad
  refine lt_of_lt_of_le ?_ hrad
  have := radius_zero_lower q.lattice ha
  linarith

/-! ## What is done at the points -/

variable {sp : ℕ}

theorem update_spec {net : List (Cluster sp)} {ax : Axes sp} {f : K} {s s' : Sol sp K} {p : Place} (h : update net ax f s p = some s') :
    ∃ u, updateBurstingConcs net ax f ⟨s.c p, s.burst⟩ = some u ∧ s' = ⟨fun q => if q = p then u.c else s.c q, u.burst⟩ := by
  unfold update at h
  rw [Option.map_eq_some_iff] at h
  obtain ⟨u, h1, h2⟩ := h
  exact ⟨u, h1, h2.symm⟩

/-- The factor given to `updateBurstingConcs`. -/
def weight (d : Dim) (x : ℕ → K) (p : Place) : K :=
  match d with
  | .one => hxLeft x p.2.2
  | _ => 0

theorem act_own (d : Dim) (b : Box) (net : List (Cluster sp)) (ax : Axes sp) (x : ℕ → K) (s : Sol sp K) (p : Place) (ho : owns d b p = true) :
    act d b net ax x s p = update net ax (weight d x p) s p := by
  unfold act
  rw [if_neg (by rw [ho]; decide)]
  cases d with
  | one => rfl
  | two => exact if_pos ho
  | three => rfl

theorem act_other (d : Dim) (b : Box) (net : List (Cluster sp)) (ax : Axes sp) (x : ℕ → K) (s : Sol sp K) (p : Place) (ho : owns d b p = false) :
    act d b net ax x s p = none := by
  unfold act
  rw [if_pos ho]

theorem acts_none (d : Dim) (b : Box) (net : List (Cluster sp)) (ax : Axes sp) (x : ℕ → K) (l : List Place) (s : Sol sp K) (p : Place) (hp : p ∈ l) (ho : owns d b p = false) :
    acts d b net ax x l s = none := by
  induction l generalizing s with
  | nil => simp at hp
  | cons a l ih =>
    rw [acts]
    rcases List.mem_cons.1 hp with rfl | hp
    · rw [act_other d b net ax x s _ ho]; rfl
    · cases act d b net ax x s a with
      | none => rfl
      | some u => exact ih u hp

/-- The loop over the list does, at each point of it, what `updateBurstingConcs` does to the concentrations there, once, changes nothing elsewhere, and adds up what is released. -/
theorem acts_spec {net : List (Cluster sp)} {ax : Axes sp} (ok : Ok net ax) (hsep : ∀ a ∈ net, HasVac ax a → ¬ HasGas ax a)
    (hdef : ∀ (f : K) (s : State sp K), ∃ s', updateBurstingConcs net ax f s = some s')
    (d : Dim) (b : Box) (x : ℕ → K) (l : List Place) (hl : l.Nodup) (ho : ∀ p ∈ l, owns d b p = true) (s : Sol sp K) :
    ∃ s', acts d b net ax x l s = some s' ∧ (∀ p, p ∉ l → s'.c p = s.c p) ∧
      (∀ p ∈ l, ∀ g ∈ ax.gas, trueAtoms net g (s'.c p) = 0) ∧
      (∀ p ∈ l, ∃ (w : Fin sp → K) (u : State sp K), updateBurstingConcs net ax (weight d x p) ⟨s.c p, w⟩ = some u ∧ s'.c p = u.c) ∧
      ∀ g ∈ ax.gas, s'.burst g = s.burst g + (l.map fun p => totalAtoms net (s.c p) g 0 * weight d x p).sum := by
  induction l generalizing s with
  | nil => exact ⟨s, rfl, fun _ _ => rfl, by simp, by simp, by simp⟩
  | cons a l ih =>
    rw [acts, act_own d b net ax x s a (ho a List.mem_cons_self)]
    obtain ⟨u, hu⟩ := hdef (weight d x a) ⟨s.c a, s.burst⟩
    have e : update net ax (weight d x a) s a = some ⟨fun q => if q = a then u.c else s.c q, u.burst⟩ := by unfold update; rw [hu]; rfl
    rw [e]
    obtain ⟨ha, hl⟩ := List.nodup_cons.1 hl
    obtain ⟨s', h1, h2, h3, h5, h4⟩ := ih hl (fun p hp => ho p (List.mem_cons_of_mem _ hp)) ⟨fun q => if q = a then u.c else s.c q, u.burst⟩
    have hsa : s'.c a = u.c := by rw [h2 a ha]; simp
    refine ⟨s', h1, fun p hp => ?_, fun p hp g hg => ?_, fun p hp => ?_, fun g hg => ?_⟩
    · rw [h2 p fun h => hp (List.mem_cons_of_mem _ h)]
      exact if_neg fun (h : p = a) => hp (h ▸ List.mem_cons_self)
    · rcases List.mem_cons.1 hp with rfl | hp
      · rw [hsa]; exact (no_gas ok hsep _ _ _ hu g hg).2
      · exact h3 p hp g hg
    · rcases List.mem_cons.1 hp with rfl | hp
      · exact ⟨s.burst, u, hu, hsa⟩
      · obtain ⟨w, v, hv, hw⟩ := h5 p hp
        have hne : p ≠ a := fun h => ha (h ▸ hp)
        rw [show (⟨fun q => if q = a then u.c else s.c q, u.burst⟩ : Sol sp K).c p = s.c p from if_neg hne] at hv
        exact ⟨w, v, hv, hw⟩
    · rw [h4 g hg, List.map_cons, List.sum_cons]
      have e1 := released ok hsep _ _ _ hu g hg
      rw [show (⟨fun q => if q = a then u.c else s.c q, u.burst⟩ : Sol sp K).burst g = u.burst g from rfl, e1, add_assoc]
      congr 2
      congr 1
      refine List.map_congr_left fun p hp => ?_
      rw [show (⟨fun q => if q = a then u.c else s.c q, u.burst⟩ : Sol sp K).c p = s.c p from if_neg fun (h : p = a) => ha (h ▸ hp)]

/-- **C97, after the event.** In one and three dimensions: on every rank the call is defined; at the points that burst on the rank the gas is gone, all other points are as before, and what the rank releases in one dimension is the number of atoms at the points times the widths. -/
theorem post_own {net : List (Cluster sp)} {ax : Axes sp} (ok : Ok net ax) (hsep : ∀ a ∈ net, HasVac ax a → ¬ HasGas ax a)
    (hdef : ∀ (f : K) (s : State sp K), ∃ s', updateBurstingConcs net ax f s = some s')
    (d : Dim) (hd : d ≠ .two) {N : ℕ} (g : Grid) (t : Test K) (box : Fin N → Box) (rnd : Fin N → ℕ → K) (n : Fin N → ℕ) (r : Fin N) (moved : Bool) (x : ℕ → K) (c : Place → ℕ → K) :
    ∃ s', post d (happens d (scan d g t box rnd n) r || moved) (box r) net ax x (scan d g t box rnd n r).pos c = some s' ∧
      (∀ p, ¬ (p ∈ points d g ∧ Bursts d g t (box r) (rnd r) (n r) p) → s'.c p = c p) ∧
      (∀ p ∈ points d g, Bursts d g t (box r) (rnd r) (n r) p → ∀ k ∈ ax.gas, trueAtoms net k (s'.c p) = 0) ∧
      ∀ k ∈ ax.gas, s'.burst k = (((points d g).filter fun p => decide (Bursts d g t (box r) (rnd r) (n r) p)).map fun p => totalAtoms net (c p) k 0 * weight d x p).sum := by
  have hlist := listed_own d hd g t box rnd n r
  have hmem : ∀ p, p ∈ (scan d g t box rnd n r).pos ↔ p ∈ points d g ∧ Bursts d g t (box r) (rnd r) (n r) p := by
    intro p; rw [hlist, List.mem_filter, decide_eq_true_eq]
  by_cases he : (happens d (scan d g t box rnd n) r || moved) = true
  · obtain ⟨s', h1, h2, h3, _, h4⟩ := acts_spec ok hsep hdef d (box r) x (scan d g t box rnd n r).pos (listed_nodup d g t box rnd n r) (fun p hp => ((hmem p).1 hp).2.1) ⟨c, fun _ => 0⟩
    refine ⟨s', by unfold post; rw [if_pos he]; exact h1, fun p hp => h2 p fun h => hp ((hmem p).1 h), fun p hp hb => h3 p ((hmem p).2 ⟨hp, hb⟩), fun k hk => ?_⟩
    rw [h4 k hk, hlist]; simp
  · have hnil : (scan d g t box rnd n r).pos = [] := by
      rw [Bool.or_eq_true, not_or] at he
      have hh := he.1
      cases d with
      | one =>
        by_contra hne
        exact hh (List.any_eq_true.2 ⟨r, List.mem_finRange r, by simpa using hne⟩)
      | two => exact absurd rfl hd
      | three => simpa [happens] using hh
    refine ⟨⟨c, fun _ => 0⟩, by unfold post; rw [if_neg he], fun _ _ => rfl, fun p hp hb => ?_, fun k _ => ?_⟩
    · have := (hmem p).2 ⟨hp, hb⟩
      rw [hnil] at this; simp at this
    · rw [← hlist, hnil]; rfl

/-- On one rank this holds in two dimensions as well. -/
theorem post_two_partial {net : List (Cluster sp)} {ax : Axes sp} (ok : Ok net ax) (hsep : ∀ a ∈ net, HasVac ax a → ¬ HasGas ax a)
    (hdef : ∀ (f : K) (s : State sp K), ∃ s', updateBurstingConcs net ax f s = some s')
    (g : Grid) (t : Test K) (box : Fin 1 → Box) (rnd : Fin 1 → ℕ → K) (n : Fin 1 → ℕ) (moved : Bool) (x : ℕ → K) (c : Place → ℕ → K) :
    ∃ s', post .two (happens .two (scan .two g t box rnd n) 0 || moved) (box 0) net ax x (scan .two g t box rnd n 0).pos c = some s' ∧
      (∀ p, ¬ (p ∈ points .two g ∧ Bursts .two g t (box 0) (rnd 0) (n 0) p) → s'.c p = c p) ∧
      ∀ p ∈ points .two g, Bursts .two g t (box 0) (rnd 0) (n 0) p → ∀ k ∈ ax.gas, trueAtoms net k (s'.c p) = 0 := by
  have hmem : ∀ p, p ∈ (scan .two g t box rnd n 0).pos ↔ p ∈ points .two g ∧ Bursts .two g t (box 0) (rnd 0) (n 0) p := by
    intro p; rw [listed_all, List.mem_filter, decide_eq_true_eq]
    simp only [Fin.exists_fin_one]
  by_cases he : (happens .two (scan .two g t box rnd n) 0 || moved) = true
  · obtain ⟨s', h1, h2, h3, _, h4⟩ := acts_spec ok hsep hdef .two (box 0) x (scan .two g t box rnd n 0).pos (listed_nodup .two g t box rnd n 0) (fun p hp => ((hmem p).1 hp).2.1) ⟨c, fun _ => 0⟩
    exact ⟨s', by unfold post; rw [if_pos he]; exact h1, fun p hp => h2 p fun h => hp ((hmem p).1 h), fun p hp hb => h3 p ((hmem p).2 ⟨hp, hb⟩)⟩
  · have hnil : (scan .two g t box rnd n 0).pos = [] := by
      rw [Bool.or_eq_true, not_or] at he
      simpa [happens] using he.1
    refine ⟨⟨c, fun _ => 0⟩, by unfold post; rw [if_neg he], fun _ _ => rfl, fun p hp hb => ?_⟩
    have := (hmem p).2 ⟨hp, hb⟩
    rw [hnil] at this; simp at this

/-- **On several ranks it does not**: in two dimensions, on every rank but its owner, the call after a burst is undefined: the row of the array of a point of another rank is read. -/
theorem post_two_undefined (net : List (Cluster sp)) (ax : Axes sp) {N : ℕ} (g : Grid) (t : Test K) (box : Fin N → Box) (hp : Parts .two g box) (rnd : Fin N → ℕ → K) (n : Fin N → ℕ)
    (r q : Fin N) (hrq : r ≠ q) (p : Place) (hpp : p ∈ points .two g) (hb : Bursts .two g t (box q) (rnd q) (n q) p) (moved : Bool) (x : ℕ → K) (c : Place → ℕ → K) :
    post .two (happens .two (scan .two g t box rnd n) r || moved) (box r) net ax x (scan .two g t box rnd n r).pos c = none := by
  have hh : happens .two (scan .two g t box rnd n) r = true := (happens_iff .two (by decide) g t box rnd n r).2 ⟨p, hpp, q, hb⟩
  unfold post
  rw [hh, Bool.true_or, if_pos rfl]
  refine acts_none .two (box r) net ax x _ _ p ?_ ?_
  · rw [listed_all, List.mem_filter]
    exact ⟨hpp, decide_eq_true ⟨q, hb⟩⟩
  · obtain ⟨o, _, ho⟩ := hp p hpp
    by_contra h
    rw [Bool.not_eq_false] at h
    exact hrq ((ho r h).trans (ho q hb.1).symm)

/-! ## The account -/

theorem sum_filter_ranks {N : ℕ} (l : List Place) (f : Fin N → Place → Bool) (w : Place → K) :
    ((List.finRange N).map fun r => ((l.filter (f r)).map w).sum).sum = (l.map fun p => ((List.finRange N).countP fun r => f r p) * w p).sum := by
  induction l with
  | nil => simp
  | cons a l ih =>
    rw [List.map_cons, List.sum_cons, ← ih]
    have : ∀ (rs : List (Fin N)), (rs.map fun r => (((a :: l).filter (f r)).map w).sum).sum =
        ((rs.countP fun r => f r a : ℕ) : K) * w a + (rs.map fun r => ((l.filter (f r)).map w).sum).sum := by
      intro rs
      induction rs with
      | nil => simp
      | cons r rs ih2 =>
        rw [List.map_cons, List.sum_cons, ih2, List.map_cons, List.sum_cons, List.countP_cons, List.filter_cons]
        by_cases h : f r a = true
        · rw [if_pos h, if_pos h, List.map_cons, List.sum_cons]; push_cast; ring
        · rw [if_neg h, if_neg h]; push_cast; ring
    exact this _

theorem countP_unique {N : ℕ} (f : Fin N → Bool) (r : Fin N) (hr : f r = true) (hu : ∀ q, f q = true → q = r) : (List.finRange N).countP f = 1 := by
  have e : (List.finRange N).countP f = (List.finRange N).count r := by
    rw [List.count]
    refine List.countP_congr fun q _ => ?_
    constructor
    · intro h; rw [hu q h]; simp
    · intro h; rw [(beq_iff_eq.1 h : q = r)]; exact hr
  rw [e, List.count_eq_one_of_mem (List.nodup_finRange N) (List.mem_finRange r)]

/-- **C97, the account.** In one dimension, what is added to the account on all ranks is the sum, over the points that burst, of the number of atoms at the point times `hxLeft`: half the distance from the point two above to the point below. -/
theorem account_one {N : ℕ} {net : List (Cluster sp)} {ax : Axes sp} (ok : Ok net ax) (hsep : ∀ a ∈ net, HasVac ax a → ¬ HasGas ax a)
    (hdef : ∀ (f : K) (s : State sp K), ∃ s', updateBurstingConcs net ax f s = some s')
    (g : Grid) (t : Test K) (box : Fin N → Box) (hp : Parts .one g box) (rnd : Fin N → ℕ → K) (n : Fin N → ℕ) (moved : Bool) (x : ℕ → K) (c : Place → ℕ → K) (old : Fin sp → K)
    (s' : Fin N → Sol sp K) (h : ∀ r, post .one (happens .one (scan .one g t box rnd n) r || moved) (box r) net ax x (scan .one g t box rnd n r).pos c = some (s' r)) (k : Fin sp) (hk : k ∈ ax.gas) :
    account .one old (fun r => (s' r).burst) k = old k +
      (((points .one g).filter fun p => decide (∃ r, Bursts .one g t (box r) (rnd r) (n r) p)).map fun p => totalAtoms net (c p) k 0 * hxLeft x p.2.2).sum := by
  show old k + ((List.finRange N).map fun r => (s' r).burst k).sum = _
  congr 1
  have e : ∀ r, (s' r).burst k = (((points .one g).filter fun p => decide (Bursts .one g t (box r) (rnd r) (n r) p)).map fun p => totalAtoms net (c p) k 0 * weight .one x p).sum := by
    intro r
    obtain ⟨u, h1, _, _, h4⟩ := post_own ok hsep hdef .one (by decide) g t box rnd n r moved x c
    rw [h r, Option.some.injEq] at h1
    rw [h1]; exact h4 k hk
  simp only [e]
  rw [sum_filter_ranks]
  have key : ∀ (l : List Place), (∀ p ∈ l, p ∈ points .one g) →
      (l.map fun p => (((List.finRange N).countP fun r => decide (Bursts .one g t (box r) (rnd r) (n r) p) : ℕ) : K) * (totalAtoms net (c p) k 0 * weight .one x p)).sum =
        ((l.filter fun p => decide (∃ r, Bursts .one g t (box r) (rnd r) (n r) p)).map fun p => totalAtoms net (c p) k 0 * hxLeft x p.2.2).sum := by
    intro l hl
    induction l with
    | nil => rfl
    | cons a l ih =>
      rw [List.map_cons, List.sum_cons, ih fun p hp => hl p (List.mem_cons_of_mem _ hp), List.filter_cons]
      by_cases hb : ∃ r, Bursts .one g t (box r) (rnd r) (n r) a
      · obtain ⟨r, hr⟩ := hb
        obtain ⟨o, _, ho⟩ := hp a (hl a List.mem_cons_self)
        rw [countP_unique _ r (decide_eq_true hr) fun q hq => (ho q (of_decide_eq_true hq).1).trans (ho r hr.1).symm, if_pos (decide_eq_true ⟨r, hr⟩), List.map_cons, List.sum_cons]
        rw [Nat.cast_one, one_mul]; rfl
      · rw [if_neg (by simpa using hb)]
        have : (List.finRange N).countP (fun r => decide (Bursts .one g t (box r) (rnd r) (n r) a)) = 0 :=
          List.countP_eq_zero.2 fun r _ h => hb ⟨r, of_decide_eq_true h⟩
        rw [this]; simp
  exact key _ fun p hp => hp

/-- In two and three dimensions nothing is accounted. -/
theorem account_none (d : Dim) (hd : d ≠ .one) {N : ℕ} (old : Fin sp → K) (b : Fin N → Fin sp → K) : account d old b = old := by
  cases d with
  | one => exact absurd rfl hd
  | _ => rfl

/-- The width of the account is that of the retained amounts if the grid is as wide before the point as at it, -/
theorem hxLeft_width_iff (x : ℕ → K) (i : ℕ) (hi : 1 ≤ i) : hxLeft x i = width x i ↔ x (i + 1) - x i = x i - x (i - 1) := by
  unfold hxLeft width
  rw [if_neg (by omega), div_eq_iff two_ne_zero]
  constructor <;> intro h <;> linarith

/-- and less if the grid gets wider with depth: then not all that disappears from the retained amount is accounted. -/
theorem hxLeft_less (x : ℕ → K) (i : ℕ) (hi : 1 ≤ i) (h : x i - x (i - 1) < x (i + 1) - x i) : hxLeft x i < width x i := by
  unfold hxLeft width
  rw [if_neg (by omega), div_lt_iff₀ two_pos]
  linarith

/-! ## Concrete cases -/

/-- Two ranks share six points of a line; the fourth and the last but one have large bubbles. -/
def exGrid : Grid := ⟨7, 1, 1, 1, 1, fun _ _ => 0⟩
def exTest : Test ℚ := ⟨fun p => p.2.2 == 4, fun p => if p.2.2 = 2 then 1 / 2 else 0⟩
def exBox : Fin 2 → Box := fun r => if r = 0 then ⟨0, 3, 0, 1, 0, 1⟩ else ⟨3, 4, 0, 1, 0, 1⟩
def exRnd : Fin 2 → ℕ → ℚ := fun _ k => if k % 2 = 1 then 1 / 3 else 2 / 3

/-- The points of the line are shared between the ranks. -/
theorem exParts (d : Dim) : Parts d exGrid exBox := by
  have h : points d exGrid = [(0, 0, 1), (0, 0, 2), (0, 0, 3), (0, 0, 4), (0, 0, 5)] := by cases d <;> decide
  intro p hp
  rw [h] at hp
  revert p
  cases d <;> decide

/-- The lists and numbers in the three dimensions. -/
example : (scan .one exGrid exTest exBox exRnd fun _ => 0) 0 = ⟨[(0, 0, 2)], 2⟩ ∧ (scan .one exGrid exTest exBox exRnd fun _ => 0) 1 = ⟨[(0, 0, 4)], 3⟩ := by decide +kernel
example : (scan .two exGrid exTest exBox exRnd fun _ => 0) 0 = ⟨[(0, 0, 2), (0, 0, 4)], 2⟩ ∧ (scan .two exGrid exTest exBox exRnd fun _ => 0) 1 = ⟨[(0, 0, 2), (0, 0, 4)], 3⟩ := by decide +kernel
example : (scan .three exGrid exTest exBox exRnd fun _ => 0) 0 = ⟨[(0, 0, 2)], 2⟩ ∧ (scan .three exGrid exTest exBox exRnd fun _ => 0) 1 = ⟨[(0, 0, 4)], 2⟩ := by decide +kernel

/-- **In three dimensions the ranks do not agree** whether the event happens: the second has a large bubble, the first has not drawn a number below the probability. -/
theorem three_disagree : happens .three (scan .three exGrid exTest exBox exRnd fun _ => 1) 0 = false ∧ happens .three (scan .three exGrid exTest exBox exRnd fun _ => 1) 1 = true ∧
    Parts .three exGrid exBox ∧ happens .two (scan .two exGrid exTest exBox exRnd fun _ => 1) 0 = true ∧ happens .one (scan .one exGrid exTest exBox exRnd fun _ => 1) 0 = true :=
  ⟨by decide +kernel, by decide +kernel, exParts .three, by decide +kernel, by decide +kernel⟩

/-- **In three dimensions, a bubble that is too large changes the numbers of the points after it**: the third point bursts, and does not when the second is too large, though nothing changed at it. -/
theorem three_shift : ∃ (t t' : Test ℚ), t.prob = t'.prob ∧ (∀ p, t.big p = true → t'.big p = true) ∧ t.big (0, 0, 3) = t'.big (0, 0, 3) ∧
    (0, 0, 3) ∈ (scan .three exGrid t (fun _ : Fin 1 => ⟨0, 7, 0, 1, 0, 1⟩) (fun _ k => if k = 2 then 0 else 1) (fun _ => 0) 0).pos ∧
    (0, 0, 3) ∉ (scan .three exGrid t' (fun _ : Fin 1 => ⟨0, 7, 0, 1, 0, 1⟩) (fun _ k => if k = 2 then 0 else 1) (fun _ => 0) 0).pos :=
  ⟨⟨fun _ => false, fun _ => 1 / 2⟩, ⟨fun p => p.2.2 == 2, fun _ => 1 / 2⟩, rfl, (fun _ h => by cases h), rfl, by decide +kernel, by decide +kernel⟩

/-- The network of `Network.Bursting` meets the hypotheses on networks. -/
example : Ok net6 ax3 ∧ (∀ a ∈ net6, HasVac ax3 a → ¬ HasGas ax3 a) := ⟨net6_ok, simplex_no_gas net6_ok net6_sim⟩

/-- In two dimensions the first rank reads a row that is not its own. -/
example (c : Place → ℕ → ℚ) (x : ℕ → ℚ) :
    post .two (happens .two (scan .two exGrid exTest exBox exRnd fun _ => 0) 0 || false) (exBox 0) net6 ax3 x (scan .two exGrid exTest exBox exRnd (fun _ => 0) 0).pos c = none :=
  post_two_undefined net6 ax3 exGrid exTest exBox (exParts .two) exRnd (fun _ => 0) 0 1 (by decide) (0, 0, 4) (by decide) (by decide +kernel) false x c

/-- A grid that gets wider with depth: 0, 1, 2, 4. -/
example : hxLeft (fun i => if i = 3 then (4 : ℚ) else i) 2 = 3 / 2 ∧ width (fun i => if i = 3 then (4 : ℚ) else i) 2 = 2 := by
  constructor <;> norm_num [hxLeft, width]

/-! ### The part of a rank -/

/-- A rank owns exactly the points of its box, in the dimensions of the run. -/
theorem owns_three (b : Box) (z y x : ℕ) : owns .three b (z, y, x) = true ↔ x ∈ Finset.Ico b.xs (b.xs + b.xm) ∧ y ∈ Finset.Ico b.ys (b.ys + b.ym) ∧ z ∈ Finset.Ico b.zs (b.zs + b.zm) := by
  simp [owns]

theorem owns_two (b : Box) (z y x : ℕ) : owns .two b (z, y, x) = true ↔ x ∈ Finset.Ico b.xs (b.xs + b.xm) ∧ y ∈ Finset.Ico b.ys (b.ys + b.ym) := by
  simp [owns]

example : owns .three ⟨0, 4, 2, 2, 1, 3⟩ (1, 3, 0) = true ∧ owns .three ⟨0, 4, 2, 2, 1, 3⟩ (1, 4, 0) = false := by decide

end Xolotl.Solver.Burst
