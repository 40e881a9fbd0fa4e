import Verif.Solver.Events
import Verif.Solver.MoveProps
import Verif.Solver.RetentionProps
import Mathlib.Analysis.Real.Pi.Bounds

/-!
# Properties of the events of the one-dimensional monitor
-/

set_option linter.unusedSectionVars false

namespace Xolotl.Solver.Events

open Xolotl.Solver.Move

variable {K : Type*} [Field K] [LinearOrder K] [IsStrictOrderedRing K]

/-! ### Deciding -/

/-- **C65.** In a step that was not seen before the account changes by the stored flux minus what is sputtered, times the length of the step (not at all in step 0); the surface grows exactly if the account exceeds the content of the cell above it, and is eroded exactly if it is below nine tenths of the content of the cell below it. -/
theorem event_spec (p : Par K) (g : List K) (xi ts : ℕ) (hx : xi + 1 < g.length) (dt flux : K) (st : Ev K) (hts : st.last ≠ some ts) :
    ∃ n up back, event p g xi ts dt flux st = some (⟨n, flux, some ts⟩, up, back) ∧ (ts = 0 → n = st.n) ∧ (0 < ts → n - st.n = (st.prev - p.yield * p.amp) * dt) ∧
      (up = true ↔ p.density * (g.getD xi 0 - g.getD (xi - 1) 0) < n) ∧ (back = true ↔ n < -(9 / 10 * (p.density * (g.getD (xi + 1) 0 - g.getD xi 0)))) := by
  let n := if 0 < ts then st.n + st.prev * dt - p.yield * p.amp * dt else st.n
  refine ⟨n, decide (n > p.density * (g.getD xi 0 - g.getD (xi - 1) 0)), decide (n < -(p.density * (g.getD (xi + 1) 0 - g.getD xi 0)) * (9 / 10)), ?_, ?_, ?_, ?_, ?_⟩
  · unfold event
    rw [if_neg hts, some_getD g (xi - 1) (by omega), some_getD g xi (by omega), some_getD g (xi + 1) (by omega)]
    rfl
  · intro h; subst h; simp [n]
  · intro h; simp only [n]; rw [if_pos h]; ring
  · simp
  · rw [decide_eq_true_eq, neg_mul, mul_comm (9 / 10 : K)]

/-- **C65.** A second call in the same step changes nothing and reports nothing. -/
theorem event_repeat (p : Par K) (g : List K) (xi ts : ℕ) (dt dt' flux flux' : K) (st : Ev K) (r : Ev K × Bool × Bool) (h : event p g xi ts dt flux st = some r) :
    event p g xi ts dt' flux' r.1 = some (r.1, false, false) := by
  have hl : r.1.last = some ts := by
    unfold event at h
    by_cases hc : st.last = some ts
    · rw [if_pos hc, Option.some.injEq] at h; subst h; exact hc
    · rw [if_neg hc] at h
      cases h1 : g[xi - 1]? <;> cases h2 : g[xi]? <;> cases h3 : g[xi + 1]? <;> simp [h1, h2, h3] at h
      subst h; rfl
  unfold event
  rw [if_pos hl]

/-- **C65.** On an increasing grid the surface does not move in both directions at the same time. -/
theorem event_exclusive (p : Par K) (hd : 0 ≤ p.density) (g : List K) (hg : g.Pairwise (· < ·)) (xi ts : ℕ) (h1 : 1 ≤ xi) (dt flux : K) (st st' : Ev K) (back : Bool)
    (h : event p g xi ts dt flux st = some (st', true, back)) : back = false := by
  by_cases hts : st.last = some ts
  · unfold event at h; rw [if_pos hts] at h; simp at h
  · by_cases hx : xi + 1 < g.length
    · obtain ⟨n, u, b, e, -, -, hu, hb⟩ := event_spec p g xi ts hx dt flux st hts
      rw [e] at h
      simp only [Option.some.injEq, Prod.mk.injEq] at h
      obtain ⟨-, rfl, rfl⟩ := h
      by_contra hne
      have hb' := hb.1 (by simpa using hne)
      have hu' := hu.1 rfl
      have ha : g.getD (xi - 1) 0 < g.getD xi 0 := by
        rw [List.getD_eq_getElem?_getD, List.getElem?_eq_getElem (by omega : xi - 1 < g.length), Option.getD_some,
          List.getD_eq_getElem?_getD, List.getElem?_eq_getElem (by omega : xi < g.length), Option.getD_some]
        exact List.pairwise_iff_getElem.1 hg _ _ _ _ (by omega)
      have hc : g.getD xi 0 < g.getD (xi + 1) 0 := by
        rw [List.getD_eq_getElem?_getD, List.getElem?_eq_getElem (by omega : xi < g.length), Option.getD_some,
          List.getD_eq_getElem?_getD, List.getElem?_eq_getElem hx, Option.getD_some]
        exact List.pairwise_iff_getElem.1 hg _ _ _ _ (by omega)
      have p1 := mul_nonneg hd (sub_nonneg.2 ha.le)
      have p2 := mul_nonneg hd (sub_nonneg.2 hc.le)
      linarith
    · exfalso
      unfold event at h
      rw [if_neg hts, List.getElem?_eq_none (by omega : g.length ≤ xi + 1)] at h
      cases h1 : g[xi - 1]? <;> cases h2 : g[xi]? <;> simp [h1, h2] at h

/-- **C65.** The list of events holds 0 for growth, 1 for erosion and 2 for a burst bubble, in this order. -/
theorem happened_mem (up back burst : Bool) :
    (happened up back burst).Pairwise (· < ·) ∧
      ∀ i, i ∈ happened up back burst ↔ (i = 0 ∧ up = true) ∨ (i = 1 ∧ back = true) ∨ (i = 2 ∧ burst = true) := by
  cases up <;> cases back <;> cases burst <;> simp [happened]

/-- **C65.** The decision follows the event, whether or not bubbles burst at the same time; the error is only raised if the surface moves both ways. -/
theorem decision_spec (up back burst : Bool) :
    decision (happened up back burst) = (if up && back && burst then .throws else if up then .grows else if back then .erodes else .stays) := by
  cases up <;> cases back <;> cases burst <;> rfl

/-- **C65.** The error about both directions is never raised. -/
theorem never_throws (p : Par K) (hd : 0 ≤ p.density) (g : List K) (hg : g.Pairwise (· < ·)) (xi ts : ℕ) (h1 : 1 ≤ xi) (dt flux : K) (st st' : Ev K) (up back burst : Bool)
    (h : event p g xi ts dt flux st = some (st', up, back)) : decision (happened up back burst) ≠ .throws := by
  rw [decision_spec]
  cases up with
  | false => cases back <;> simp
  | true => rw [event_exclusive p hd g hg xi ts h1 dt flux st st' back h]; simp

/-- Growth, erosion and neither all occur. -/
example : ((event (⟨1, 0, 0⟩ : Par ℚ) [0, 1, 2, 3] 1 5 1 0 ⟨0, 3 / 2, some 4⟩).map (·.2) = some (true, false)) ∧
    ((event (⟨1, 3 / 2, 1⟩ : Par ℚ) [0, 1, 2, 3] 1 5 1 0 ⟨0, 0, some 4⟩).map (·.2) = some (false, true)) ∧
    ((event (⟨1, 1 / 2, 1⟩ : Par ℚ) [0, 1, 2, 3] 1 5 1 0 ⟨0, 0, some 4⟩).map (·.2) = some (false, false)) := by decide +kernel

/-! ### Moving -/

/-- **C65.** After the surface was eroded the account is less than the content of the last cell taken: no more cells are taken than needed. -/
theorem back_least (density : K) (g : List K) : ∀ fuel account n0 xi acc n, back density g fuel account n0 xi = some (acc, n) →
    n = n0 ∧ acc = account ∨ n0 < n ∧ acc < density * (g.getD (xi + (n - n0)) 0 - g.getD (xi + (n - n0) - 1) 0) := by
  intro fuel
  induction fuel with
  | zero => intro account n0 xi acc n h; simp [back] at h
  | succ fuel ih =>
    intro account n0 xi acc n h
    unfold back at h
    split_ifs at h with hc
    · cases ha : g[xi + 1]? with
      | none => simp [ha] at h
      | some a =>
        cases hb : g[xi]? with
        | none => simp [ha, hb] at h
        | some b =>
          simp only [ha, hb, Option.bind_eq_bind, Option.bind_some] at h
          have da : g.getD (xi + 1) 0 = a := by simp [ha]
          have db : g.getD xi 0 = b := by simp [hb]
          right
          rcases ih _ _ _ _ _ h with ⟨e1, e2⟩ | ⟨e1, e2⟩
          · refine ⟨by omega, ?_⟩
            subst e1
            rw [show xi + (n0 + 1 - n0) - 1 = xi by omega, show xi + (n0 + 1 - n0) = xi + 1 by omega, da, db, e2]
            linarith
          · refine ⟨by omega, ?_⟩
            rw [show xi + 1 + (n - (n0 + 1)) = xi + (n - n0) by omega] at e2
            exact e2
    · simp only [Option.some.injEq, Prod.mk.injEq] at h
      left; exact ⟨h.2.symm, h.1.symm⟩

/-- **C65.** Erosion ends if there is enough material, -/
theorem back_ends (density : K) (g : List K) : ∀ (fuel : ℕ) (account : K) (n xi : ℕ), xi < g.length → g.length - xi ≤ fuel →
    0 ≤ account + density * (g.getD (g.length - 1) 0 - g.getD xi 0) → ∃ r, back density g fuel account n xi = some r := by
  intro fuel
  induction fuel with
  | zero => intro account n xi hx hf; omega
  | succ fuel ih =>
    intro account n xi hx hf h
    unfold back
    split_ifs with hc
    · by_cases hl : xi + 1 < g.length
      · rw [some_getD g (xi + 1) hl, some_getD g xi hx]
        simp only [Option.bind_eq_bind, Option.bind_some]
        refine ih _ _ _ hl (by omega) ?_
        nlinarith
      · exfalso
        rw [show g.length - 1 = xi by omega] at h
        simp at h; linarith
    · exact ⟨_, rfl⟩

/-- and reads past the end of the grid if there is not, however long it goes on. -/
theorem back_overrun (density : K) (hd : 0 ≤ density) (g : List K) (hg : g.Pairwise (· < ·)) : ∀ (fuel : ℕ) (account : K) (n xi : ℕ), xi < g.length →
    account + density * (g.getD (g.length - 1) 0 - g.getD xi 0) < 0 → back density g fuel account n xi = none := by
  intro fuel
  induction fuel with
  | zero => intro account n xi hx h; rfl
  | succ fuel ih =>
    intro account n xi hx h
    have hmono : g.getD xi 0 ≤ g.getD (g.length - 1) 0 := by
      rw [List.getD_eq_getElem?_getD, List.getElem?_eq_getElem hx, Option.getD_some,
          List.getD_eq_getElem?_getD, List.getElem?_eq_getElem (by omega : g.length - 1 < g.length), Option.getD_some]
      rcases Nat.lt_or_ge xi (g.length - 1) with h1 | h1
      · exact (List.pairwise_iff_getElem.1 hg _ _ _ _ h1).le
      · exact le_of_eq (by congr 1; omega)
    have hneg : account < 0 := by
      have := mul_nonneg hd (sub_nonneg.2 hmono)
      linarith
    unfold back
    rw [if_pos hneg]
    by_cases hl : xi + 1 < g.length
    · rw [some_getD g (xi + 1) hl, some_getD g xi hx]
      simp only [Option.bind_eq_bind, Option.bind_some]
      refine ih _ _ _ hl ?_
      linarith
    · rw [List.getElem?_eq_none (by omega : g.length ≤ xi + 1)]; rfl

example : back (1 : ℚ) [0, 1, 2, 3] 10 (-3 / 2) 0 1 = some (1 / 2, 2) ∧ back (1 : ℚ) [0, 1, 2, 3] 10 (-5) 0 1 = none := by decide +kernel

/-- **C65.** A report of growth makes the surface grow by exactly one point and leaves a positive account; a report of erosion takes at least one point and leaves an account from 0 up to the content of the last cell taken. -/
theorem reported (p : Par K) (hd : 0 ≤ p.density) (g : List K) (hg : g.Pairwise (· < ·)) (xi ts : ℕ) (h1 : 1 ≤ xi) (hx : xi + 1 < g.length) (dt flux : K) (st st' : Ev K) (b : Bool)
    (hts : st.last ≠ some ts) :
    (event p g xi ts dt flux st = some (st', true, b) → ∃ acc, up p.density g st'.n xi = some (acc, 1) ∧ 0 < acc ∧ acc + p.density * (g.getD xi 0 - g.getD (xi - 1) 0) = st'.n)
    ∧ (event p g xi ts dt flux st = some (st', b, true) → ∀ fuel acc n, back p.density g fuel st'.n 0 xi = some (acc, n) →
        1 ≤ n ∧ xi + n < g.length ∧ 0 ≤ acc ∧ acc < p.density * (g.getD (xi + n) 0 - g.getD (xi + n - 1) 0) ∧ acc = st'.n + p.density * (g.getD (xi + n) 0 - g.getD xi 0)) := by
  obtain ⟨n, u, bk, e, -, -, hu, hb⟩ := event_spec p g xi ts hx dt flux st hts
  refine ⟨fun h => ?_, fun h fuel acc m hm => ?_⟩
  · rw [e] at h
    simp only [Option.some.injEq, Prod.mk.injEq] at h
    obtain ⟨rfl, rfl, -⟩ := h
    exact (up_spec p.density g n xi h1 (by omega)).1 (hu.1 rfl)
  · rw [e] at h
    simp only [Option.some.injEq, Prod.mk.injEq] at h
    obtain ⟨rfl, -, rfl⟩ := h
    have hn := hb.1 rfl
    obtain ⟨-, s2, s3, s4⟩ := back_spec p.density g fuel n 0 xi acc m hm (by omega)
    have hneg : n < 0 := by
      have hc : g.getD xi 0 < g.getD (xi + 1) 0 := by
        rw [List.getD_eq_getElem?_getD, List.getElem?_eq_getElem (by omega : xi < g.length), Option.getD_some,
          List.getD_eq_getElem?_getD, List.getElem?_eq_getElem hx, Option.getD_some]
        exact List.pairwise_iff_getElem.1 hg _ _ _ _ (by omega)
      have := mul_nonneg hd (sub_nonneg.2 hc.le)
      linarith
    rcases back_least p.density g fuel n 0 xi acc m hm with ⟨e1, e2⟩ | ⟨e1, e2⟩
    · exfalso; rw [e2] at s4; linarith
    · rw [Nat.sub_zero] at s2 s3 e2
      exact ⟨e1, s2, s4, e2, s3⟩

/-! ### Over a loop -/

/-- What came in over a loop: the flux at the start of each step, without what is sputtered, times its length. -/
def came (p : Par K) (l : List (Step K)) : K :=
  ∑ k ∈ Finset.range (l.length - 1), ((l.getD k ⟨0, 0⟩).flux - p.yield * p.amp) * ((l.getD (k + 1) ⟨0, 0⟩).time - (l.getD k ⟨0, 0⟩).time)

theorem came_cons (p : Par K) (c d : Step K) (l : List (Step K)) : came p (c :: d :: l) = (c.flux - p.yield * p.amp) * (d.time - c.time) + came p (d :: l) := by
  unfold came
  simp only [List.length_cons, Nat.add_sub_cancel]
  rw [Finset.sum_range_succ', add_comm]
  simp

theorem quiet_pos (p : Par K) (g : List K) (xi : ℕ) (hx : xi + 1 < g.length) : ∀ (l : List (Step K)) (k : ℕ) (st : Ev K) (c : Step K), st.prev = c.flux → st.last = some k →
    ∃ r, quiet p g xi (k + 1) c.time st l = some r ∧ r.n = st.n + came p (c :: l) := by
  intro l
  induction l with
  | nil => intro k st c _ _; exact ⟨st, rfl, by simp [came]⟩
  | cons d l ih =>
    intro k st c hp hl
    obtain ⟨n, u, b, e, -, hn, -, -⟩ := event_spec p g xi (k + 1) hx (d.time - c.time) d.flux st (by rw [hl]; simp)
    obtain ⟨r, er, hr⟩ := ih (k + 1) ⟨n, d.flux, some (k + 1)⟩ d rfl rfl
    refine ⟨r, ?_, ?_⟩
    · rw [quiet, e]; exact er
    · rw [hr, came_cons, ← hp]
      have := hn (by omega)
      simp only
      linear_combination this

/-- **C65.** Over a loop the account changes by what came in, minus what was sputtered. -/
theorem quiet_total (p : Par K) (g : List K) (xi : ℕ) (hx : xi + 1 < g.length) (st : Ev K) (hl : st.last = none) (t : K) (l : List (Step K)) :
    ∃ r, quiet p g xi 0 t st l = some r ∧ r.n = st.n + came p l := by
  cases l with
  | nil => exact ⟨st, rfl, by simp [came]⟩
  | cons c l =>
    obtain ⟨n, u, b, e, hn, -, -, -⟩ := event_spec p g xi 0 hx (c.time - t) c.flux st (by rw [hl]; simp)
    obtain ⟨r, er, hr⟩ := quiet_pos p g xi hx l 0 ⟨n, c.flux, some 0⟩ c rfl rfl
    refine ⟨r, ?_, ?_⟩
    · rw [quiet, e]; exact er
    · rw [hr, hn rfl]

example : (quiet (⟨1, 1 / 2, 1⟩ : Par ℚ) [0, 1, 2] 1 0 7 ⟨3, 100, none⟩ [⟨7, 2⟩, ⟨8, 4⟩, ⟨10, 6⟩]).map (·.n) = some (3 + (2 - 1 / 2) * 1 + (4 - 1 / 2) * 2) := by decide +kernel

/-- **C65, one growth.** Over a loop that ends with growth, the atoms that came in are those in the account plus those in the new layer. -/
theorem growth_balance (p : Par K) (g g' : List K) (hg : g.Pairwise (· < ·)) (h4 : 4 ≤ g.length) (st : Ev K) (hl : st.last = none) (t : K) (l : List (Step K)) (r : Ev K) (acc : K)
    (hq : quiet p g 1 0 t st l = some r) (hu : up p.density g r.n 1 = some (acc, 1)) (hr : grow g 1 = some g') :
    came p l = (acc - st.n) + p.density * (used g' - used g) := by
  obtain ⟨r', e, hn⟩ := quiet_total p g 1 (by omega) st hl t l
  rw [hq, Option.some.injEq] at e; subst e
  have := up_account p.density g g' hg h4 r.n acc hu hr
  linear_combination this - hn

/-- **C65, one erosion.** Over a loop that ends with erosion by `n` points the same holds, except for the difference between the last cell taken and the cell above the surface, -/
theorem erosion_balance (p : Par K) (g g' : List K) (hg : g.Pairwise (· < ·)) (h3 : 3 ≤ g.length) (st : Ev K) (hl : st.last = none) (t : K) (l : List (Step K)) (r : Ev K) (acc : K) (n : ℕ)
    (fuel : ℕ) (hq : quiet p g 1 0 t st l = some r) (hb : back p.density g fuel r.n 0 1 = some (acc, n)) (hr : retract g n = some g') :
    came p l = (acc - st.n) + p.density * (used g' - used g) - p.density * ((g.getD (n + 1) 0 - g.getD n 0) - (g.getD 1 0 - g.getD 0 0)) := by
  obtain ⟨r', e, hn⟩ := quiet_total p g 1 (by omega) st hl t l
  rw [hq, Option.some.injEq] at e; subst e
  have := back_account p.density g g' hg h3 fuel r.n acc n hb hr
  linear_combination -this - hn

/-- so that the atoms are balanced if and only if these cells have the same size. -/
theorem erosion_balance_partial (p : Par K) (hd : 0 < p.density) (g g' : List K) (hg : g.Pairwise (· < ·)) (h3 : 3 ≤ g.length) (st : Ev K) (hl : st.last = none) (t : K) (l : List (Step K)) (r : Ev K)
    (acc : K) (n : ℕ) (fuel : ℕ) (hq : quiet p g 1 0 t st l = some r) (hb : back p.density g fuel r.n 0 1 = some (acc, n)) (hr : retract g n = some g') :
    came p l = (acc - st.n) + p.density * (used g' - used g) ↔ g.getD (n + 1) 0 - g.getD n 0 = g.getD 1 0 - g.getD 0 0 := by
  rw [erosion_balance p g g' hg h3 st hl t l r acc n fuel hq hb hr, sub_eq_self, mul_eq_zero, or_iff_right hd.ne', sub_eq_zero]

example : (quiet (⟨1, 3 / 2, 1⟩ : Par ℚ) [0, 1, 2, 3, 4] 1 0 0 ⟨0, 0, none⟩ [⟨0, 0⟩, ⟨1, 0⟩]).map (·.n) = some (-3 / 2) ∧
    back (1 : ℚ) [0, 1, 2, 3, 4] 10 (-3 / 2) 0 1 = some (1 / 2, 2) ∧ retract [(0 : ℚ), 1, 2, 3, 4] 2 = some [0, 1, 2] := by decide +kernel

/-! ### Over several loops -/

/-- **C65, what fails.** Whatever the accounts at the ends of later loops, a loop begins with the account at the end of the first. -/
theorem handed_first (e : Retention.Acc K) (es : List (Retention.Acc K)) : handed (e :: es) = some e := by
  have : ∀ (es : List (Retention.Acc K)) (kept : List (Retention.Acc K)), kept.head? = some e → (es.foldl Retention.keep kept).head? = some e := by
    intro es
    induction es with
    | nil => intro kept h; exact h
    | cons a es ih => intro kept h; exact ih _ (by unfold Retention.keep; rw [List.head?_append, h]; rfl)
  exact this es _ rfl

/-- With a first loop in which 3/2 came in and a second in which 7/5 came in, both ending with growth of a cell of content 1, the third begins with 1/2 though 9/10 are left. -/
theorem handed_wrong : ∃ e₁ e₂ : Retention.Acc ℚ,
    ((quiet (⟨1, 0, 0⟩ : Par ℚ) [0, 1, 2, 3, 4] 1 0 0 ⟨0, 0, none⟩ [⟨0, 3 / 2⟩, ⟨1, 0⟩]).bind fun r => up 1 [0, 1, 2, 3, 4] r.n 1) = some (e₁.n 0, 1) ∧
    ((quiet (⟨1, 0, 0⟩ : Par ℚ) [0, 1, 2, 3, 4, 5] 1 0 1 ⟨e₁.n 0, 0, none⟩ [⟨1, 7 / 5⟩, ⟨2, 0⟩]).bind fun r => up 1 [0, 1, 2, 3, 4, 5] r.n 1) = some (e₂.n 0, 1) ∧
    grow [(0 : ℚ), 1, 2, 3, 4] 1 = some [0, 1, 2, 3, 4, 5] ∧ e₂.n 0 = 9 / 10 ∧ (handed [e₁, e₂]).map (fun a => a.n 0) = some (1 / 2) := by
  refine ⟨⟨fun _ => 1 / 2, fun _ => 0⟩, ⟨fun _ => 9 / 10, fun _ => 0⟩, by decide +kernel, by decide +kernel, by decide +kernel, rfl, ?_⟩
  rw [handed_first]; rfl

/-! ### Bursting -/

theorem bursts_iff (prefactor depth distance r rnd : ℝ) (hd : distance ≠ 0) :
    bursts prefactor depth distance r rnd ↔ rnd < prefactor * (r / distance) * min 1 (Real.exp (-(distance - depth) / (depth * 2))) ∨ distance < r := by
  unfold bursts
  rw [show 1 - (distance - r) / distance = r / distance by field_simp; ring]

/-- **C65, bursting.** Bubbles larger than their distance to the surface burst; -/
theorem bursts_large (prefactor depth distance r rnd : ℝ) (h : distance < r) : bursts prefactor depth distance r rnd := Or.inr h

/-- down to the depth given, the probability is the prefactor times radius over distance; -/
theorem bursts_shallow (prefactor depth distance r rnd : ℝ) (hd : 0 < distance) (h : distance ≤ depth) :
    bursts prefactor depth distance r rnd ↔ rnd < prefactor * (r / distance) ∨ distance < r := by
  rw [bursts_iff _ _ _ _ _ hd.ne', min_eq_left, mul_one]
  rw [Real.one_le_exp_iff]
  have : 0 < depth := lt_of_lt_of_le hd h
  apply div_nonneg <;> linarith

/-- without flux no other bubbles burst; -/
theorem bursts_no_flux (depth distance r rnd : ℝ) (hr : 0 ≤ rnd) : bursts 0 depth distance r rnd ↔ distance < r := by
  unfold bursts
  constructor
  · rintro (h | h)
    · simp at h; linarith
    · exact h
  · exact Or.inr

/-- and what bursts would burst closer to the surface, with a larger radius, more flux or a smaller random number. -/
theorem bursts_mono (q q' depth d d' r r' rnd rnd' : ℝ) (hq : 0 ≤ q) (hqq : q ≤ q') (hdep : 0 < depth) (hd : 0 < d') (hdd : d' ≤ d) (hr : 0 ≤ r) (hrr : r ≤ r') (hrnd : rnd' ≤ rnd)
    (h : bursts q depth d r rnd) : bursts q' depth d' r' rnd' := by
  rw [bursts_iff _ _ _ _ _ (by linarith)] at h
  rw [bursts_iff _ _ _ _ _ hd.ne']
  rcases h with h | h
  · left
    refine lt_of_le_of_lt hrnd (lt_of_lt_of_le h ?_)
    have e1 : r / d ≤ r' / d' := div_le_div₀ (by linarith) hrr hd hdd
    have e0 : 0 ≤ r / d := div_nonneg hr (by linarith)
    have e2 : min 1 (Real.exp (-(d - depth) / (depth * 2))) ≤ min 1 (Real.exp (-(d' - depth) / (depth * 2))) := by
      refine min_le_min le_rfl (Real.exp_le_exp.2 ?_)
      exact div_le_div_of_nonneg_right (by linarith) (by linarith)
    refine mul_le_mul (mul_le_mul hqq e1 e0 (by linarith)) e2 (le_min zero_le_one (Real.exp_pos _).le) (mul_nonneg (by linarith) (by linarith))
  · right; linarith

/-- The radius grows with the number of vacancies; -/
theorem radius_mono (a : ℝ) (ha : 0 < a) (n m : ℝ) (hn : 0 ≤ n) (h : n < m) : radius a n < radius a m := by
  unfold radius
  have : (3 * (a * a * a) * n / (8 * Real.pi)) ^ (1 / 3 : ℝ) < (3 * (a * a * a) * m / (8 * Real.pi)) ^ (1 / 3 : ℝ) := by
    refine Real.rpow_lt_rpow (by have := Real.pi_pos; positivity) ?_ (by norm_num)
    have := Real.pi_pos
    exact div_lt_div_of_pos_right (mul_lt_mul_of_pos_left h (by positivity)) (by positivity)
  linarith

/-- one vacancy has the radius of a point defect; -/
theorem radius_one (a : ℝ) : radius a 1 = √3 / 4 * a := by unfold radius; rw [mul_one]; ring

/-- and without helium the radius is negative, -/
theorem radius_zero (a : ℝ) (ha : 0 < a) : radius a 0 < 0 := by
  unfold radius
  rw [mul_zero, zero_div, Real.zero_rpow (by norm_num), add_zero, sub_neg]
  have h3 : √3 < 7 / 4 := by
    rw [Real.sqrt_lt' (by norm_num)]; norm_num
  have hp := Real.pi_lt_four
  have hp0 := Real.pi_pos
  have e : (√3 / 4 * a) = ((√3 / 4 * a) ^ (3 : ℝ)) ^ (1 / 3 : ℝ) := by
    rw [← Real.rpow_mul (by positivity)]; norm_num
  rw [e]
  refine Real.rpow_lt_rpow (by positivity) ?_ (by norm_num)
  rw [show (3 : ℝ) = ((3 : ℕ) : ℝ) by norm_num, Real.rpow_natCast]
  push_cast
  have hs : √3 * √3 = 3 := Real.mul_self_sqrt (by norm_num)
  rw [lt_div_iff₀ (by positivity)]
  have ha3 : 0 < a * a * a := by positivity
  have : (√3 / 4 * a) ^ 3 * (8 * Real.pi) = (a * a * a) * (3 * √3 * Real.pi / 8) := by
    have : √3 ^ 3 = 3 * √3 := by rw [pow_succ, pow_two, hs]
    rw [mul_pow, div_pow, this]; ring
  rw [this, mul_comm 3 (a * a * a)]
  refine mul_lt_mul_of_pos_left ?_ ha3
  nlinarith [Real.sqrt_nonneg 3]

/-- so that nothing bursts. -/
theorem bursts_empty (a prefactor depth distance rnd : ℝ) (ha : 0 < a) (hp : 0 ≤ prefactor) (hd : 0 < distance) (hr : 0 ≤ rnd) : ¬ bursts prefactor depth distance (radius a 0) rnd := by
  have h := radius_zero a ha
  rw [bursts_iff _ _ _ _ _ hd.ne']
  rintro (h1 | h1)
  · have : prefactor * (radius a 0 / distance) * min 1 (Real.exp (-(distance - depth) / (depth * 2))) ≤ 0 := by
      refine mul_nonpos_of_nonpos_of_nonneg ?_ (le_min zero_le_one (Real.exp_pos _).le)
      exact mul_nonpos_of_nonneg_of_nonpos hp (div_nonpos_of_nonpos_of_nonneg h.le hd.le)
    linarith
  · linarith

/-! ### Small concentrations -/

/-- **C65, small concentrations.** After `checkNegative` a concentration is 0 or at least as large as the threshold, -/
theorem clamp_large (thr c : K) : clamp thr c = 0 ∨ thr ≤ |clamp thr c| := by
  unfold clamp
  split_ifs with h1 h2
  · right; exact le_abs_self _
  · right; rw [abs_neg]; exact le_abs_self _
  · by_cases hc : c = 0
    · exact Or.inl hc
    · right
      rcases lt_or_gt_of_ne hc with h | h
      · rw [abs_of_neg h]; by_contra hn; exact h2 ⟨by linarith, h⟩
      · rw [abs_of_pos h]; by_contra hn; exact h1 ⟨by linarith, h⟩

/-- has the sign it had, -/
theorem clamp_sign (thr c : K) (ht : 0 < thr) : (0 < clamp thr c ↔ 0 < c) ∧ (clamp thr c < 0 ↔ c < 0) := by
  unfold clamp
  split_ifs with h1 h2
  · exact ⟨⟨fun _ => h1.2, fun _ => ht⟩, ⟨fun h => by linarith, fun h => by linarith [h1.2]⟩⟩
  · exact ⟨⟨fun h => by linarith, fun h => by linarith [h2.2]⟩, ⟨fun _ => h2.2, fun _ => by linarith⟩⟩
  · exact ⟨Iff.rfl, Iff.rfl⟩

/-- has not changed by as much as the threshold, and not at all if it was 0 or large; a second call changes nothing. -/
theorem clamp_close (thr c : K) (ht : 0 < thr) : |clamp thr c - c| < thr ∧ (c = 0 ∨ thr ≤ |c| → clamp thr c = c) ∧ clamp thr (clamp thr c) = clamp thr c := by
  have key : ∀ x : K, x = 0 ∨ thr ≤ |x| → clamp thr x = x := by
    intro x hx
    unfold clamp
    split_ifs with h1 h2
    · rcases hx with rfl | hx
      · exact absurd h1.2 (lt_irrefl _)
      · rw [abs_of_pos h1.2] at hx; linarith
    · rcases hx with rfl | hx
      · exact absurd h2.2 (lt_irrefl _)
      · rw [abs_of_neg h2.2] at hx; linarith
    · rfl
  refine ⟨?_, key c, key _ (clamp_large thr c)⟩
  unfold clamp
  split_ifs with h1 h2
  · rw [abs_lt]; constructor <;> linarith [h1.1, h1.2]
  · rw [abs_lt]; constructor <;> linarith [h2.1, h2.2]
  · simpa using ht

example : clamp (1 : ℚ) (1 / 2) = 1 ∧ clamp (1 : ℚ) (-1 / 2) = -1 ∧ clamp (1 : ℚ) 0 = 0 ∧ clamp (1 : ℚ) (-3) = -3 := by decide +kernel

end Xolotl.Solver.Events
