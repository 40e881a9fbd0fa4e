import Mathlib.Tactic.Ring
import Mathlib.Tactic.Linarith
import Mathlib.Algebra.Order.Ring.Rat
import Verif.Solver.Initial
import Verif.Solver.ExchangeProps

/-!
# Properties of the initial state
-/

set_option linter.unusedSectionVars false

namespace Xolotl.Solver.Initial

open Xolotl.Solver.Exchange

variable {K : Type} [Field K] [LinearOrder K]

/-! ### What is claimed -/

/-- The last value that a list gives to an index. -/
def lastOf (L : List (ℕ × K)) (n : ℕ) : Option K := ((L.filter fun q => q.1 == n).getLast?).map (·.2)

/-- The grid points between the boundaries. -/
def Between (g : Setting K) : Dim → Place → Prop
  | .zero, _ => True
  | .one, p => g.left ≤ p.2.2 ∧ p.2.2 + g.right < g.nX
  | .two, p => (g.surf 0 p.2.1 + g.left ≤ p.2.2 ∧ p.2.2 + g.right < g.nX) ∧ g.bottom ≤ p.2.1 ∧ p.2.1 + g.top < g.nY
  | .three, p => (g.surf p.1 p.2.1 + g.left ≤ p.2.2 ∧ p.2.2 + g.right < g.nX) ∧ (g.bottom ≤ p.2.1 ∧ p.2.1 + g.top < g.nY) ∧ g.front ≤ p.1 ∧ p.1 + g.back < g.nZ

/-- A grid point on a grain boundary: only the coordinates the dimension has count. -/
def OnBoundary (g : Setting K) : Dim → Place → Prop
  | .zero, _ => False
  | .one, p => ∃ q ∈ g.gb, q.1 = p.2.2
  | .two, p => ∃ q ∈ g.gb, q.1 = p.2.2 ∧ q.2.1 = p.2.1
  | .three, p => ∃ q ∈ g.gb, q.1 = p.2.2 ∧ q.2.1 = p.2.1 ∧ q.2.2 = p.1

/-- The offsets are smaller than the grid, and the grid fits the index type. -/
structure Fits (g : Setting K) (d : Dim) : Prop where
  x : d ≠ .zero → g.right < g.nX ∧ g.nX < 2 ^ 32
  y : d = .two ∨ d = .three → g.top < g.nY ∧ g.nY < 2 ^ 32
  z : d = .three → g.back < g.nZ ∧ g.nZ < 2 ^ 32

/-- The rank's box is part of the grid, and it has grid points. -/
structure Inside (g : Setting K) (d : Dim) (b : Box) : Prop where
  x : d ≠ .zero → 0 < b.xm ∧ b.xs + b.xm ≤ g.nX
  y : d = .two ∨ d = .three → 0 < b.ym ∧ b.ys + b.ym ≤ g.nY
  z : d = .three → 0 < b.zm ∧ b.zs + b.zm ≤ g.nZ

/-- The last line of the rank: `k`, `j`. -/
def lastLine : Dim → Box → ℕ × ℕ
  | .zero, _ => (0, 0)
  | .one, _ => (0, 0)
  | .two, b => (0, b.ys + b.ym - 1)
  | .three, b => (b.zs + b.zm - 1, b.ys + b.ym - 1)

/-- The point at which the temperature of a grid point is asked for: the middle of the grid point as a fraction of the way from the surface to the end of the grid, and the distances along the other axes. -/
def center (g : Setting K) : Dim → Place → K × K × K
  | .zero, _ => (0, 0, 0)
  | .one, p => (((g.grid p.2.2 + g.grid (p.2.2 + 1)) / 2 - g.grid 1) / (g.grid g.last - g.grid 1), 0, 0)
  | .two, p => (((g.grid p.2.2 + g.grid (p.2.2 + 1)) / 2 - g.grid (g.surf 0 p.2.1 + 1)) / (g.grid g.last - g.grid (g.surf 0 p.2.1 + 1)), p.2.1 * g.hy, 0)
  | .three, p => (((g.grid p.2.2 + g.grid (p.2.2 + 1)) / 2 - g.grid (g.surf p.1 p.2.1 + 1)) / (g.grid g.last - g.grid (g.surf p.1 p.2.1 + 1)), p.2.1 * g.hy, p.1 * g.hz)

theorem position_center (g : Setting K) (d : Dim) (p : Place) : gridPosition g d p.1 p.2.1 p.2.2 = center g d p := by
  cases d <;> simp [gridPosition, center, relative]

/-- On a grid that increases, the fraction lies between 0 and 1 below the surface, and it is not positive above; it increases with the grid point. -/
theorem position_range [IsStrictOrderedRing K] (g : Setting K) (s i : ℕ) (hm : StrictMono g.grid) (hs : s + 1 < g.last) (hi : i < g.last) :
    relative g s i < 1 ∧ (s + 1 ≤ i → 0 < relative g s i) ∧ (i ≤ s → relative g s i < 0) ∧ relative g s i < relative g s ((i : ℤ) + 1) ∧ relative g s (-1) < relative g s 0 := by
  have h0 : 0 < g.grid g.last - g.grid (s + 1) := sub_pos.2 (hm hs)
  have h1 : g.grid i < g.grid (i + 1) := hm (by omega)
  have h2 : g.grid (i + 1) < g.grid (i + 2) := hm (by omega)
  have h3 : g.grid (i + 1) ≤ g.grid g.last := hm.monotone (by omega)
  have h4 : g.grid 0 < g.grid 1 := hm (by omega)
  have e : ∀ j : ℕ, relative g s j = ((g.grid j + g.grid (j + 1)) / 2 - g.grid (s + 1)) / (g.grid g.last - g.grid (s + 1)) := fun j => by simp [relative]
  rw [show ((i : ℤ) + 1) = ((i + 1 : ℕ) : ℤ) by push_cast; rfl, e, e, show (0 : ℤ) = ((0 : ℕ) : ℤ) from rfl, e, show relative g s (-1) = (g.grid 0 - g.grid (s + 1)) / (g.grid g.last - g.grid (s + 1)) by simp [relative]]
  refine ⟨(div_lt_one h0).2 (by linarith), fun h => div_pos ?_ h0, fun h => div_neg_of_neg_of_pos ?_ h0, (div_lt_div_iff_of_pos_right h0).2 (by linarith), (div_lt_div_iff_of_pos_right h0).2 (by linarith)⟩
  · have : g.grid (s + 1) ≤ g.grid i := hm.monotone h
    linarith
  · have : g.grid (i + 1) ≤ g.grid (s + 1) := hm.monotone (by omega)
    linarith

/-! ### Unsigned subtraction and the conditions -/

theorem usub_eq (n o : ℕ) (h : o ≤ n) (hn : n < 2 ^ 32) : usub n o = n - o := by
  unfold usub
  rw [Int.emod_eq_of_lt (by omega) (by have : (2 : ℤ) ^ 32 = ((2 ^ 32 : ℕ) : ℤ) := by norm_num
                                       rw [this]; omega)]
  omega

theorem below_iff (n o i : ℕ) (h : o < n) (hn : n < 2 ^ 32) : i < usub n o ↔ i + o < n := by
  rw [usub_eq n o h.le hn]; omega

theorem above_iff (n o i : ℕ) (h : o < n) (hn : n < 2 ^ 32) : usub n (1 + o) < i ↔ ¬ i + o < n := by
  rw [usub_eq n (1 + o) (by omega) hn]; omega

/-- **C96, where.** The concentrations of the options are put exactly between the boundaries. -/
theorem given_iff (g : Setting K) (d : Dim) (h : Fits g d) (p : Place) : given g d p = true ↔ Between g d p := by
  cases d
  · simp [given, Between]
  · obtain ⟨a, b⟩ := h.x (by simp)
    simp [given, Between, below_iff _ _ _ a b]
  · obtain ⟨a, b⟩ := h.x (by simp)
    obtain ⟨a2, b2⟩ := h.y (.inl rfl)
    simp only [given, Between, below_iff _ _ _ a b, below_iff _ _ _ a2 b2, decide_eq_true_eq]
    tauto
  · obtain ⟨a, b⟩ := h.x (by simp)
    obtain ⟨a2, b2⟩ := h.y (.inr rfl)
    obtain ⟨a3, b3⟩ := h.z rfl
    simp only [given, Between, below_iff _ _ _ a b, below_iff _ _ _ a2 b2, below_iff _ _ _ a3 b3, decide_eq_true_eq]
    tauto

/-- The right-hand side is computed between the boundaries, except on grain boundaries and, in one dimension, at the first grid point. -/
theorem skipped_iff (g : Setting K) (d : Dim) (h : Fits g d) (p : Place) :
    skipped g d p = false ↔ Between g d p ∧ ¬ OnBoundary g d p ∧ ¬ (d = .one ∧ p.2.2 = 0) := by
  cases d
  · simp [skipped, Between, OnBoundary]
  · obtain ⟨a, b⟩ := h.x (by simp)
    simp only [skipped, Between, OnBoundary, above_iff _ _ _ a b, Bool.or_eq_false_iff, decide_eq_false_iff_not, List.any_eq_false, beq_iff_eq, beq_eq_false_iff_ne, not_or, not_lt, not_le, true_and, not_exists, ne_eq, not_and]
    tauto
  · obtain ⟨a, b⟩ := h.x (by simp)
    obtain ⟨a2, b2⟩ := h.y (.inl rfl)
    simp only [skipped, Between, OnBoundary, above_iff _ _ _ a b, above_iff _ _ _ a2 b2, Bool.or_eq_false_iff, decide_eq_false_iff_not, List.any_eq_false, Bool.and_eq_true, beq_iff_eq, not_or, not_lt, not_le,
      reduceCtorEq, false_and, not_false_iff, not_exists, not_and, and_true]
    tauto
  · obtain ⟨a, b⟩ := h.x (by simp)
    obtain ⟨a2, b2⟩ := h.y (.inr rfl)
    obtain ⟨a3, b3⟩ := h.z rfl
    simp only [skipped, Between, OnBoundary, above_iff _ _ _ a b, above_iff _ _ _ a2 b2, above_iff _ _ _ a3 b3, Bool.or_eq_false_iff, decide_eq_false_iff_not, List.any_eq_false, Bool.and_eq_true, beq_iff_eq, not_or,
      not_lt, not_le, reduceCtorEq, false_and, not_false_iff, not_exists, not_and, and_true, and_imp]
    tauto

/-- **C96, where the state can change.** Outside the grain boundaries, the grid points that get the concentrations of the options are those at which the right-hand side is computed; in one dimension all but the first. -/
theorem given_evolves (g : Setting K) (d : Dim) (h : Fits g d) (p : Place) (hb : ¬ OnBoundary g d p) (h0 : ¬ (d = .one ∧ p.2.2 = 0)) :
    given g d p = true ↔ skipped g d p = false := by
  rw [given_iff g d h, skipped_iff g d h]
  tauto

/-- **C96 (negation).** In one dimension with a reflective surface the first grid point gets the concentrations of the options, and the right-hand side never computes anything for it. -/
theorem first_frozen (g : Setting K) (h : Fits g .one) (hl : g.left = 0) : given g .one (0, 0, 0) = true ∧ skipped g .one (0, 0, 0) = true := by
  constructor
  · rw [given_iff g _ h]
    exact ⟨by simp [hl], by simpa using (h.x (by simp)).1⟩
  · simp [skipped]

/-- In two and three dimensions a reflective surface is computed like the other grid points. -/
theorem first_evolves (g : Setting K) (d : Dim) (hd : d = .two ∨ d = .three) (h : Fits g d) (p : Place) (hp : p.2.2 = 0) (hl : g.left = 0) (hs : g.surf (if d = .two then 0 else p.1) p.2.1 = 0)
    (hy : g.bottom ≤ p.2.1 ∧ p.2.1 + g.top < g.nY) (hz : d = .three → g.front ≤ p.1 ∧ p.1 + g.back < g.nZ) (hb : ¬ OnBoundary g d p) : skipped g d p = false := by
  rw [skipped_iff g d h]
  rcases hd with rfl | rfl
  · have := (h.x (by simp)).1
    simp only [if_true] at hs
    exact ⟨⟨⟨by omega, by omega⟩, hy⟩, hb, by simp⟩
  · have := (h.x (by simp)).1
    simp only [reduceCtorEq, if_false] at hs
    exact ⟨⟨⟨by omega, by omega⟩, hy, hz rfl⟩, hb, by simp⟩

/-! ### One grid point -/

theorem lastOf_cons (q : ℕ × K) (L : List (ℕ × K)) (n : ℕ) (x : K) : (lastOf (q :: L) n).getD x = (lastOf L n).getD (if q.1 = n then q.2 else x) := by
  unfold lastOf
  by_cases h : q.1 = n
  · rw [List.filter_cons_of_pos (by simpa using h), if_pos h]
    cases hl : L.filter fun q => q.1 == n with
    | nil => simp
    | cons a l => rw [List.getLast?_cons_cons]; cases h' : (a :: l).getLast? with
      | none => simp at h'
      | some v => simp
  · rw [List.filter_cons_of_neg (by simpa using h), if_neg h]

theorem write_last (dof : ℕ) (L : List (ℕ × K)) : ∀ u : ℕ → K, (∀ q ∈ L, q.1 ≤ dof) → write dof u L = some fun n => (lastOf L n).getD (u n) := by
  induction L with
  | nil => intro u _; simp [write, lastOf]
  | cons q L ih =>
    intro u h
    have := ih (Function.update u q.1 q.2) fun q hq => h q (by simp [hq])
    unfold write at this ⊢
    rw [List.foldlM_cons, if_pos (h q (by simp))]
    refine this.trans ?_
    congr 1
    funext n
    rw [lastOf_cons]
    congr 1
    by_cases e : q.1 = n
    · subst e; simp
    · rw [if_neg e, Function.update_of_ne (Ne.symm e)]

theorem lastOf_none (L : List (ℕ × K)) (n : ℕ) (h : ∀ q ∈ L, q.1 ≠ n) : lastOf L n = none := by
  unfold lastOf
  rw [List.filter_eq_nil_iff.2 fun q hq => by simpa using h q hq]
  rfl

/-- The values of a grid point of the rank before the file. -/
def value (g : Setting K) (d : Dim) (has : Bool) (p : Place) (t : K) (u : ℕ → K) (n : ℕ) : K :=
  if n < g.dof then (if given g d p && !has then (lastOf g.initial n).getD 0 else 0) else if n = g.dof then t else u n

theorem fresh_eq (g : Setting K) (d : Dim) (has : Bool) (p : Place) (t : K) (u : ℕ → K) (hi : has = false → ∀ q ∈ g.initial, q.1 < g.dof) :
    fresh g d has p t u = some (value g d has p t u) := by
  unfold fresh
  by_cases h : (given g d p && !has) = true
  · have hi := hi (by simp only [Bool.and_eq_true, Bool.not_eq_true'] at h; exact h.2)
    simp only [if_pos h]
    rw [write_last _ _ _ fun q hq => (hi q hq).le]
    congr 1
    funext n
    unfold value
    by_cases hn : n < g.dof
    · simp [hn, h]
    · rw [lastOf_none _ _ fun q hq e => hn (by rw [← e]; exact hi q hq)]
      by_cases e : n = g.dof
      · simp [e]
      · simp [hn, e]
  · simp only [if_neg h]
    congr 1
    funext n
    unfold value
    by_cases hn : n < g.dof
    · simp [hn, h]
    · by_cases e : n = g.dof
      · simp [e]
      · simp [hn, e]

theorem value_value (g : Setting K) (d : Dim) (has : Bool) (p : Place) (t : K) (u : ℕ → K) : value g d has p t (value g d has p t u) = value g d has p t u := by
  funext n
  simp only [value]
  split
  · rfl
  · split
    · rfl
    · simp [*]

theorem setAt_some (T : List K) (m : ℕ) (t : K) (h : m < T.length) : setAt T m t = some (T.set m t) := by simp [setAt, h]

/-! ### The loops -/

/-- The temperature of an entry. -/
def tempOf (g : Setting K) (d : Dim) (b : Box) (kj : ℕ × ℕ) (m : ℕ) : K := g.temp (gridPosition g d kj.1 kj.2 ((b.xs : ℤ) + m - 1))

theorem passes (g : Setting K) (d : Dim) (b : Box) (has : Bool) (hi : has = false → ∀ q ∈ g.initial, q.1 < g.dof) (kj : ℕ × ℕ) (st : State K) (hT : b.xm + 2 ≤ st.1.length) : ∀ n ≤ b.xm + 2,
    ∃ T s, (List.range n).foldlM (pass g d b has kj) st = some (T, s) ∧ T.length = st.1.length ∧
      (∀ m, T[m]? = if m < n then some (tempOf g d b kj m) else st.1[m]?) ∧
      ∀ p, s p = if (p.1, p.2.1) = kj ∧ b.xs ≤ p.2.2 ∧ p.2.2 < b.xs + b.xm ∧ p.2.2 + 1 < b.xs + n then
        value g d has p (g.temp (gridPosition g d p.1 p.2.1 p.2.2)) (st.2 p) else st.2 p := by
  intro n
  induction n with
  | zero =>
    intro _
    refine ⟨st.1, st.2, rfl, rfl, fun m => by simp, fun p => ?_⟩
    rw [if_neg]
    rintro ⟨-, a, -, b⟩
    omega
  | succ n ih =>
    intro hn
    obtain ⟨T, s, h, hl, hTm, hs⟩ := ih (by omega)
    have hset : setAt T n (tempOf g d b kj n) = some (T.set n (tempOf g d b kj n)) := setAt_some _ _ _ (by omega)
    have hTm' : ∀ m, (T.set n (tempOf g d b kj n))[m]? = if m < n + 1 then some (tempOf g d b kj m) else st.1[m]? := by
      intro m
      rw [List.getElem?_set]
      by_cases e : n = m
      · subst e; rw [if_pos rfl, if_pos (by omega), if_pos (by omega)]
      · rw [if_neg e, hTm]
        by_cases e' : m < n
        · rw [if_pos e', if_pos (by omega)]
        · rw [if_neg e', if_neg (by omega)]
    by_cases hc : (b.xs : ℤ) + n - 1 < b.xs ∨ (b.xs : ℤ) + b.xm ≤ (b.xs : ℤ) + n - 1
    · refine ⟨T.set n (tempOf g d b kj n), s, ?_, by simpa using hl, hTm', fun p => ?_⟩
      · rw [List.range_succ, List.foldlM_append, h]
        simp only [Option.bind_eq_bind, Option.bind_some, List.foldlM_cons, List.foldlM_nil, Option.pure_def, pass, if_pos hc]
        rw [show setAt T n (g.temp (gridPosition g d kj.1 kj.2 ((b.xs : ℤ) + n - 1))) = _ from hset]
        rfl
      · rw [hs]
        congr 1
        apply propext
        constructor
        · rintro ⟨a, b, c, d⟩; exact ⟨a, b, c, by omega⟩
        · rintro ⟨a, b, c, d⟩; exact ⟨a, b, c, by omega⟩
    · obtain ⟨x, hx⟩ : ∃ x : ℕ, (b.xs : ℤ) + n - 1 = x := ⟨b.xs + n - 1, by omega⟩
      have hx' : b.xs + n = x + 1 := by omega
      refine ⟨T.set n (tempOf g d b kj n), Function.update s (kj.1, kj.2, x) (value g d has (kj.1, kj.2, x) (tempOf g d b kj n) (s (kj.1, kj.2, x))), ?_, by simpa using hl, hTm', fun p => ?_⟩
      · rw [List.range_succ, List.foldlM_append, h]
        simp only [Option.bind_eq_bind, Option.bind_some, List.foldlM_cons, List.foldlM_nil, Option.pure_def, pass, if_neg hc]
        rw [show setAt T n (g.temp (gridPosition g d kj.1 kj.2 ((b.xs : ℤ) + n - 1))) = _ from hset, fresh_eq _ _ _ _ _ _ hi]
        simp only [Option.bind_some, tempOf, hx, Int.toNat_natCast]
      · by_cases e : p = (kj.1, kj.2, x)
        · subst e
          rw [Function.update_self, hs, if_neg (by rintro ⟨-, -, -, c⟩; simp only at c; omega), if_pos ⟨rfl, by simp only; omega, by simp only; omega, by simp only; omega⟩]
          simp only [tempOf, hx]
        · rw [Function.update_of_ne e, hs]
          congr 1
          apply propext
          constructor
          · rintro ⟨a, b, c, d⟩; exact ⟨a, b, c, by omega⟩
          · rintro ⟨a, a2, c, d⟩
            refine ⟨a, a2, c, ?_⟩
            rcases Nat.lt_or_ge (p.2.2 + 1) (b.xs + n) with h | h
            · exact h
            · exfalso
              apply e
              obtain ⟨p1, p2, p3⟩ := p
              simp only at a a2 c d h
              subst a
              simp only [Prod.mk.injEq, true_and]
              omega

theorem over_lines (g : Setting K) (d : Dim) (b : Box) (has : Bool) (hi : has = false → ∀ q ∈ g.initial, q.1 < g.dof) (L : List (ℕ × ℕ)) : ∀ st : State K, b.xm + 2 ≤ st.1.length →
    ∃ T s, L.foldlM (fun st kj => (List.range (b.xm + 2)).foldlM (pass g d b has kj) st) st = some (T, s) ∧ T.length = st.1.length ∧
      (∀ m, T[m]? = if m < b.xm + 2 then (L.getLast?.elim st.1[m]? fun kj => some (tempOf g d b kj m)) else st.1[m]?) ∧
      ∀ p, s p = if (p.1, p.2.1) ∈ L ∧ b.xs ≤ p.2.2 ∧ p.2.2 < b.xs + b.xm then value g d has p (g.temp (gridPosition g d p.1 p.2.1 p.2.2)) (st.2 p) else st.2 p := by
  induction L with
  | nil => intro st _; exact ⟨st.1, st.2, rfl, rfl, fun m => by simp, fun p => by simp⟩
  | cons kj L ih =>
    intro st hT
    obtain ⟨T, s, h, hl, hTm, hs⟩ := passes g d b has hi kj st hT _ le_rfl
    obtain ⟨T', s', h', hl', hTm', hs'⟩ := ih (T, s) (by simpa [hl] using hT)
    refine ⟨T', s', by rw [List.foldlM_cons, h]; exact h', hl'.trans hl, fun m => ?_, fun p => ?_⟩
    · rw [hTm']
      simp only [hTm]
      split
      · rename_i hm
        cases L with
        | nil => simp
        | cons a L => rw [List.getLast?_cons_cons]; cases e : (a :: L).getLast? with
          | none => simp at e
          | some v => rfl
      · rfl
    · rw [hs']
      simp only [hs, List.mem_cons]
      by_cases hx : b.xs ≤ p.2.2 ∧ p.2.2 < b.xs + b.xm
      · have hx3 : p.2.2 + 1 < b.xs + (b.xm + 2) := by omega
        by_cases e : (p.1, p.2.1) = kj
        · rw [if_pos (show (p.1, p.2.1) = kj ∧ b.xs ≤ p.2.2 ∧ p.2.2 < b.xs + b.xm ∧ p.2.2 + 1 < b.xs + (b.xm + 2) from ⟨e, hx.1, hx.2, hx3⟩),
            if_pos (show ((p.1, p.2.1) = kj ∨ (p.1, p.2.1) ∈ L) ∧ b.xs ≤ p.2.2 ∧ p.2.2 < b.xs + b.xm from ⟨.inl e, hx⟩), value_value, ite_self]
        · simp [e]
      · rw [if_neg (fun h => hx h.2), if_neg (fun h => hx ⟨h.2.1, h.2.2.1⟩), if_neg (fun h => hx h.2)]

theorem lines_owned (d : Dim) (hd : d ≠ .zero) (b : Box) (p : Place) : ((p.1, p.2.1) ∈ lines d b ∧ b.xs ≤ p.2.2 ∧ p.2.2 < b.xs + b.xm) ↔ owned d b p := by
  obtain ⟨k, j, i⟩ := p
  cases d
  · exact absurd rfl hd
  · simp [lines, owned]; tauto
  · simp only [lines, owned, List.mem_map, List.mem_range, Prod.mk.injEq]
    constructor
    · rintro ⟨⟨a, b, c, e⟩, f⟩; exact ⟨c.symm, by omega, by omega, f⟩
    · rintro ⟨a, a', c, e⟩; exact ⟨⟨j - b.ys, by omega, a.symm, by omega⟩, e⟩
  · simp only [lines, owned, List.mem_flatMap, List.mem_map, List.mem_range, Prod.mk.injEq]
    constructor
    · rintro ⟨⟨a, b, c, e, f, h⟩, i⟩; exact ⟨by omega, by omega, by omega, by omega, i⟩
    · rintro ⟨a, a', c, e, f⟩; exact ⟨⟨k - b.zs, by omega, j - b.ys, by omega, by omega, by omega⟩, f⟩

theorem lines_last (g : Setting K) (d : Dim) (b : Box) (hb : Inside g d b) : (lines d b).getLast? = some (lastLine d b) := by
  cases d
  · rfl
  · rfl
  · obtain ⟨y, -⟩ := hb.y (.inl rfl)
    obtain ⟨n, hn⟩ : ∃ n, b.ym = n + 1 := ⟨b.ym - 1, by omega⟩
    simp only [lines, lastLine, hn, List.range_succ, List.map_append, List.map_cons, List.map_nil, List.getLast?_append, List.getLast?_singleton, Option.some_or]
    congr 2
  · obtain ⟨y, -⟩ := hb.y (.inr rfl)
    obtain ⟨z, -⟩ := hb.z rfl
    obtain ⟨n, hn⟩ : ∃ n, b.ym = n + 1 := ⟨b.ym - 1, by omega⟩
    obtain ⟨m, hm⟩ : ∃ n, b.zm = n + 1 := ⟨b.zm - 1, by omega⟩
    simp only [lines, lastLine, hn, hm, List.range_succ, List.map_append, List.map_cons, List.map_nil, List.flatMap_append, List.flatMap_cons, List.flatMap_nil, List.append_nil, List.getLast?_append, List.getLast?_singleton,
      Option.some_or]
    congr 2

/-- How many entries the loops set. -/
def entries : Dim → Box → ℕ
  | .zero, _ => 1
  | _, b => b.xm + 2

/-- The temperature of the handler that an entry gets. -/
def firstTemp (g : Setting K) : Dim → Box → ℕ → K
  | .zero, _, _ => g.temp (0, 0, 0)
  | d, b, m => g.temp (gridPosition g d (lastLine d b).1 (lastLine d b).2 ((b.xs : ℤ) + m - 1))

/-- The entries of a first start: for a grid point of the last line the temperature at its middle, for the one before the grid the temperature at the first entry of the grid. -/
theorem firstTemp_eq (g : Setting K) (d : Dim) (hd : d ≠ .zero) (b : Box) : (∀ x m, b.xs + m = x + 1 → firstTemp g d b m = g.temp (center g d ((lastLine d b).1, (lastLine d b).2, x))) ∧
    (b.xs = 0 → firstTemp g d b 0 = g.temp ((g.grid 0 - g.grid ((if d = .one then 0 else g.surf (lastLine d b).1 (lastLine d b).2) + 1)) /
      (g.grid g.last - g.grid ((if d = .one then 0 else g.surf (lastLine d b).1 (lastLine d b).2) + 1)), (center g d ((lastLine d b).1, (lastLine d b).2, 0)).2)) := by
  constructor
  · intro x m h
    rw [← position_center]
    have : (b.xs : ℤ) + m - 1 = x := by omega
    cases d <;> first | exact absurd rfl hd | simp only [firstTemp, this]
  · intro h
    cases d <;> first | exact absurd rfl hd | simp [firstTemp, h, gridPosition, relative, center, lastLine]

theorem start_eq (g : Setting K) (d : Dim) (b : Box) (hb : Inside g d b) (has : Bool) (hi : has = false → ∀ q ∈ g.initial, q.1 < g.dof) (st : State K) (hT : entries d b ≤ st.1.length) :
    ∃ T s, start g d b has st = some (T, s) ∧ T.length = st.1.length ∧ (∀ m, T[m]? = if m < entries d b then some (firstTemp g d b m) else st.1[m]?) ∧
      (∀ p, owned d b p → s p = value g d has p (g.temp (gridPosition g d p.1 p.2.1 p.2.2)) (st.2 p)) ∧ ∀ p, ¬ owned d b p → s p = st.2 p := by
  by_cases hd : d = .zero
  · subst hd
    refine ⟨st.1.set 0 (g.temp (0, 0, 0)), Function.update st.2 (0, 0, 0) (value g .zero has (0, 0, 0) (g.temp (0, 0, 0)) (st.2 (0, 0, 0))), ?_, by simp, fun m => ?_, fun p hp => ?_, fun p hp => ?_⟩
    · simp only [start, gridPosition, Option.bind_eq_bind, Option.pure_def]
      rw [setAt_some _ _ _ (show 0 < st.1.length from hT), fresh_eq _ _ _ _ _ _ hi]
      rfl
    · simp only [entries] at hT
      rw [List.getElem?_set]
      by_cases e : 0 = m
      · subst e; rw [if_pos rfl, if_pos (by omega), if_pos (by simp [entries])]; rfl
      · rw [if_neg e, if_neg (by simp only [entries]; omega)]
    · cases hp; simp [gridPosition]
    · exact Function.update_of_ne hp _ _
  · have e1 : entries d b = b.xm + 2 := by cases d <;> first | rfl | exact absurd rfl hd
    have e2 : ∀ m, firstTemp g d b m = tempOf g d b (lastLine d b) m := fun m => by cases d <;> rfl
    obtain ⟨T, s, h, hl, hTm, hs⟩ := over_lines g d b has hi (lines d b) st (by rw [← e1]; exact hT)
    refine ⟨T, s, ?_, hl, fun m => ?_, fun p hp => ?_, fun p hp => ?_⟩
    · cases d <;> first | exact h | exact absurd rfl hd
    · rw [hTm, lines_last g d b hb, e1, e2]; rfl
    · rw [hs, if_pos ((lines_owned d hd b p).2 hp)]
    · rw [hs, if_neg (fun h => hp ((lines_owned d hd b p).1 h))]

theorem enlarge_length (d : Dim) (b : Box) (T : List K) : entries d b ≤ (enlarge d b T).length := by
  cases d <;> simp [entries, enlarge]

/-- **C96, a first start.** Every grid point of the rank has the temperature of the handler at its position and time 0; between the boundaries it has the concentrations of the options, the last one given for a cluster, and
0 for all others; outside it has 0 for all.  Other grid points are not touched.  The result does not depend on what was in the vector before nor on the other ranks. -/
theorem first_start (g : Setting K) (d : Dim) (b : Box) (hb : Inside g d b) (hf : Fits g d) (hi : ∀ q ∈ g.initial, q.1 < g.dof) (st : State K) :
    ∃ T s, initial g d b none st = some (T, s) ∧
      (∀ p, owned d b p → s p g.dof = g.temp (center g d p) ∧
        (Between g d p → ∀ n < g.dof, s p n = (lastOf g.initial n).getD 0) ∧ (¬ Between g d p → ∀ n < g.dof, s p n = 0)) ∧
      ∀ p, ¬ owned d b p → s p = st.2 p := by
  obtain ⟨T, s, h, -, -, h1, h2⟩ := start_eq g d b hb false (fun _ => hi) (enlarge d b st.1, st.2) (enlarge_length d b st.1)
  refine ⟨T, s, by simp [initial, h], fun p hp => ⟨?_, fun hg n hn => ?_, fun hg n hn => ?_⟩, h2⟩
  · rw [h1 p hp, ← position_center]; simp [value]
  · rw [h1 p hp]; simp [value, hn, (given_iff g d hf p).2 hg]
  · have : given g d p = false := by rw [← Bool.not_eq_true, given_iff g d hf]; exact hg
    rw [h1 p hp]; simp [value, hn, this]

/-- The vector of temperatures of a first start: that of the last line. -/
theorem first_temps (g : Setting K) (d : Dim) (b : Box) (hb : Inside g d b) (hi : ∀ q ∈ g.initial, q.1 < g.dof) (st : State K) :
    ∃ T s, initial g d b none st = some (T, s) ∧ T.length = (enlarge d b st.1).length ∧ ∀ m < entries d b, T[m]? = some (firstTemp g d b m) := by
  obtain ⟨T, s, h, hl, hT, -⟩ := start_eq g d b hb false (fun _ => hi) (enlarge d b st.1, st.2) (enlarge_length d b st.1)
  exact ⟨T, s, by simp [initial, h], hl, fun m hm => by rw [hT, if_pos hm]⟩

/-! ### With a restart file -/

/-- The values of the file over those before. -/
def over (file : Place → List (ℕ × K)) (p : Place) (u : ℕ → K) (n : ℕ) : K := (lastOf (file p) n).getD (u n)

theorem over_over (file : Place → List (ℕ × K)) (p : Place) (u : ℕ → K) : over file p (over file p u) = over file p u := by
  funext n
  unfold over
  cases lastOf (file p) n <;> rfl

/-- The temperature that the code takes from the pairs of a grid point. -/
def fileTemp (file : Place → List (ℕ × K)) (p : Place) : Option K := (file p).getLast?.map (·.2)

theorem reads (g : Setting K) (d : Dim) (b : Box) (file : Place → List (ℕ × K)) (L : List Place) : ∀ st : State K, (∀ p ∈ L, tempPlace d b p < st.1.length ∧ file p ≠ [] ∧ ∀ q ∈ file p, q.1 ≤ g.dof) →
    ∃ T s, L.foldlM (readPoint g d b file) st = some (T, s) ∧ T.length = st.1.length ∧ (∀ m, (∀ p ∈ L, tempPlace d b p ≠ m) → T[m]? = st.1[m]?) ∧
      (∀ R : Place → Place → Prop, L.Pairwise R → ∀ p ∈ L, (∀ q ∈ L, tempPlace d b q = tempPlace d b p → ¬ R p q) → T[tempPlace d b p]? = fileTemp file p) ∧
      ∀ p, s p = if p ∈ L then over file p (st.2 p) else st.2 p := by
  induction L with
  | nil => intro st _; exact ⟨st.1, st.2, rfl, rfl, fun m _ => rfl, fun R _ p hp => by simp at hp, fun p => by simp⟩
  | cons a L ih =>
    intro st h
    obtain ⟨a1, a2, a3⟩ := h a (by simp)
    obtain ⟨l, hl⟩ : ∃ l, (file a).getLast? = some l := by
      cases e : (file a).getLast? with
      | none => exact absurd (List.getLast?_eq_none_iff.1 e) a2
      | some l => exact ⟨l, rfl⟩
    have h1 : readPoint g d b file st a = some (st.1.set (tempPlace d b a) l.2, Function.update st.2 a (over file a (st.2 a))) := by
      simp only [readPoint, Option.bind_eq_bind, Option.pure_def]
      rw [write_last _ _ _ a3, hl]
      simp only [Option.bind_some]
      rw [setAt_some _ _ _ a1]
      rfl
    obtain ⟨T, s, h2, e1, e2, e3, e4⟩ := ih (st.1.set (tempPlace d b a) l.2, Function.update st.2 a (over file a (st.2 a))) fun p hp => by
      simpa using h p (by simp [hp])
    refine ⟨T, s, by rw [List.foldlM_cons, h1]; exact h2, by simpa using e1, fun m hm => ?_, fun R hR p hp hq => ?_, fun p => ?_⟩
    · rw [e2 m fun p hp => hm p (by simp [hp])]
      simp [hm a (by simp)]
    · obtain ⟨r1, r2⟩ := List.pairwise_cons.1 hR
      by_cases hpL : p ∈ L
      · exact e3 R r2 p hpL fun q hq' => hq q (by simp [hq'])
      · obtain rfl : p = a := by simpa [hpL] using hp
        rw [e2 _ fun q hq' e => hq q (by simp [hq']) e (r1 q hq')]
        simp [a1, fileTemp, hl]
    · rw [e4]
      by_cases e : p = a
      · subst e
        simp only [Function.update_self, over_over, ite_self, List.mem_cons, true_or, if_true]
      · simp only [Function.update_of_ne e, List.mem_cons, e, false_or]

/-- The order in which grid points are applied. -/
def Before (p q : Place) : Prop := p.1 < q.1 ∨ p.1 = q.1 ∧ (p.2.1 < q.2.1 ∨ p.2.1 = q.2.1 ∧ p.2.2 < q.2.2)

theorem row_pairwise (n k j : ℕ) (f : ℕ → ℕ) (hf : ∀ a b, a < b → f a < f b) : ((List.range n).map fun i => ((k, j, f i) : Place)).Pairwise Before := by
  rw [List.pairwise_map]
  exact List.pairwise_lt_range.imp fun h => .inr ⟨rfl, .inr ⟨rfl, hf _ _ h⟩⟩

theorem applied_pairwise (g : Setting K) (d : Dim) (b : Box) : (applied g d b).Pairwise Before := by
  have plane : ∀ k, ((List.range g.nY).flatMap fun j => (List.range g.nX).map fun i => ((k, j, i) : Place)).Pairwise Before := by
    intro k
    rw [List.pairwise_flatMap]
    refine ⟨fun j _ => row_pairwise _ k j (fun i => i) fun _ _ h => h, List.pairwise_lt_range.imp fun h x hx y hy => ?_⟩
    obtain ⟨_, -, rfl⟩ := List.mem_map.1 hx
    obtain ⟨_, -, rfl⟩ := List.mem_map.1 hy
    exact .inr ⟨rfl, .inl h⟩
  cases d
  · simp [applied]
  · exact row_pairwise _ 0 0 (fun i => b.xs + i) fun _ _ h => by omega
  · exact (plane 0).filter _
  · refine List.Pairwise.filter _ ?_
    rw [List.pairwise_flatMap]
    refine ⟨fun k _ => plane k, List.pairwise_lt_range.imp fun h x hx y hy => ?_⟩
    simp only [List.mem_flatMap, List.mem_map] at hx hy
    obtain ⟨_, -, _, -, rfl⟩ := hx
    obtain ⟨_, -, _, -, rfl⟩ := hy
    exact .inl h

theorem mem_applied (g : Setting K) (d : Dim) (b : Box) (hb : Inside g d b) (p : Place) : p ∈ applied g d b ↔ owned d b p := by
  obtain ⟨k, j, i⟩ := p
  cases d
  · simp [applied, owned]
  · simp only [applied, owned, List.mem_map, List.mem_range, Prod.mk.injEq]
    constructor
    · rintro ⟨a, h, e, e', e''⟩; exact ⟨e.symm, e'.symm, by omega, by omega⟩
    · rintro ⟨e, e', h, h'⟩; exact ⟨i - b.xs, by omega, e.symm, e'.symm, by omega⟩
  · have := (hb.x (by simp)).2
    have := (hb.y (.inl rfl)).2
    simp only [applied, owned, List.mem_filter, List.mem_flatMap, List.mem_map, List.mem_range, Prod.mk.injEq, decide_eq_true_eq]
    constructor
    · rintro ⟨⟨_, _, _, _, e, -⟩, h⟩; exact ⟨e.symm, by omega, by omega, by omega, by omega⟩
    · rintro ⟨e, h⟩; exact ⟨⟨j, by omega, i, by omega, e.symm, rfl, rfl⟩, by omega⟩
  · have := (hb.x (by simp)).2
    have := (hb.y (.inr rfl)).2
    have := (hb.z rfl).2
    simp only [applied, owned, List.mem_filter, List.mem_flatMap, List.mem_map, List.mem_range, Prod.mk.injEq, decide_eq_true_eq]
    constructor
    · rintro ⟨-, h⟩; omega
    · intro h; exact ⟨⟨k, by omega, j, by omega, i, by omega, rfl, rfl, rfl⟩, by omega⟩

theorem place_lt (d : Dim) (b : Box) (p : Place) (hp : owned d b p) : tempPlace d b p < entries d b := by
  cases d <;> simp only [tempPlace, entries, owned] at * <;> omega

/-- The grid point of the last line with a given first coordinate. -/
def lastAt (d : Dim) (b : Box) (x : ℕ) : Place := ((lastLine d b).1, (lastLine d b).2, x)

/-- What a restart does, all at once. -/
theorem restart_eq (g : Setting K) (d : Dim) (b : Box) (hb : Inside g d b) (file : Place → List (ℕ × K)) (hf : ∀ p, owned d b p → file p ≠ [] ∧ ∀ q ∈ file p, q.1 ≤ g.dof) (st : State K) :
    ∃ T s, initial g d b (some file) st = some (T, s) ∧ T.length = (enlarge d b st.1).length ∧
      (∀ p, owned d b p → ∀ n ≤ g.dof, s p n = (lastOf (file p) n).getD (if n = g.dof then g.temp (center g d p) else 0)) ∧
      (∀ p, ¬ owned d b p → s p = st.2 p) ∧
      (∀ m < entries d b, (∀ p, owned d b p → tempPlace d b p ≠ m) → T[m]? = some (firstTemp g d b m)) ∧
      ∀ x, owned d b (lastAt d b x) → T[tempPlace d b (lastAt d b x)]? = fileTemp file (lastAt d b x) := by
  obtain ⟨T, s, h, hl, hT, h1, h2⟩ := start_eq g d b hb true (fun h => by cases h) (enlarge d b st.1, st.2) (enlarge_length d b st.1)
  have hlen := enlarge_length d b st.1
  obtain ⟨T', s', h', hl', e2, e3, e4⟩ := reads g d b file (applied g d b) (T, s) fun p hp => by
    rw [mem_applied g d b hb] at hp
    refine ⟨?_, hf p hp⟩
    have := place_lt d b p hp
    simp only at hl ⊢
    omega
  have e4 : ∀ p, s' p = if p ∈ applied g d b then over file p (s p) else s p := e4
  refine ⟨T', s', by simp only [initial, Option.isSome_some, h]; exact h', hl'.trans hl, fun p hp n hn => ?_, fun p hp => ?_, fun m hm hp => ?_, fun x hx => ?_⟩
  · rw [e4, if_pos ((mem_applied g d b hb p).2 hp), h1 p hp, position_center]
    simp only [over, value, Bool.not_true, Bool.and_false, Bool.false_eq_true, if_false]
    congr 1
    by_cases e : n = g.dof
    · simp [e]
    · rw [if_pos (by omega), if_neg e]
  · rw [e4, if_neg (fun h => hp ((mem_applied g d b hb p).1 h)), h2 p hp]
  · refine (e2 m fun p hp' => hp p ((mem_applied g d b hb p).1 hp')).trans ?_
    rw [hT, if_pos hm]
  · refine e3 Before (applied_pairwise g d b) _ ((mem_applied g d b hb _).2 hx) fun q hq e hB => ?_
    rw [mem_applied g d b hb] at hq
    obtain ⟨k, j, i⟩ := q
    cases d <;> simp only [lastAt, lastLine, owned, tempPlace, Before, Prod.mk.injEq] at * <;> omega

/-- A file as it is written: for every grid point the values that are kept, in the order of the indices, the temperature among them. -/
structure Written (g : Setting K) (d : Dim) (b : Box) (u : Place → ℕ → K) (keep : Place → ℕ → Bool) (file : Place → List (ℕ × K)) : Prop where
  file : ∀ p, owned d b p → file p = ((List.range (g.dof + 1)).filter (keep p)).map fun n => (n, u p n)
  temp : ∀ p, owned d b p → keep p g.dof = true

theorem lastOf_kept (N : ℕ) (keep : ℕ → Bool) (u : ℕ → K) (n : ℕ) (hn : n < N) : lastOf (((List.range N).filter keep).map fun n => (n, u n)) n = if keep n then some (u n) else none := by
  unfold lastOf
  rw [List.filter_map, List.getLast?_map, Option.map_map, List.filter_filter]
  have e : (List.range N).filter (fun a => ((fun q : ℕ × K => q.1 == n) ∘ fun n => (n, u n)) a && keep a) = if keep n then [n] else [] := by
    have e1 : (List.range N).filter (fun a => ((fun q : ℕ × K => q.1 == n) ∘ fun n => (n, u n)) a && keep a) = (List.range N).filter fun a => a == n && keep n := by
      refine List.filter_congr fun a _ => ?_
      simp only [Function.comp]
      by_cases h : a = n
      · subst h; rfl
      · rw [beq_eq_false_iff_ne.2 h]; rfl
    rw [e1]
    cases keep n with
    | false => simp
    | true =>
      simp only [Bool.and_true, if_true]
      rw [List.filter_beq, List.count_eq_one_of_mem List.nodup_range (List.mem_range.2 hn)]
      rfl
  rw [e]
  split <;> simp

/-- **C96, a restart.** From a file written by the code, every grid point of the rank gets back the values that were kept and 0 for the others: neither the concentrations of the options nor what was in the vector before
matter.  The vector of temperatures has those of the last line in the file; the two entries that are not of the rank have the temperature of the handler at time 0. -/
theorem restart_written (g : Setting K) (d : Dim) (b : Box) (hb : Inside g d b) (u : Place → ℕ → K) (keep : Place → ℕ → Bool) (file : Place → List (ℕ × K)) (hw : Written g d b u keep file) (st : State K) :
    ∃ T s, initial g d b (some file) st = some (T, s) ∧ (∀ p, owned d b p → ∀ n ≤ g.dof, s p n = if keep p n then u p n else 0) ∧ (∀ p, ¬ owned d b p → s p = st.2 p) ∧
      (∀ x, owned d b (lastAt d b x) → T[tempPlace d b (lastAt d b x)]? = some (u (lastAt d b x) g.dof)) ∧
      (d ≠ .zero → T[0]? = some (firstTemp g d b 0) ∧ T[b.xm + 1]? = some (firstTemp g d b (b.xm + 1))) := by
  have split : ∀ p, owned d b p → file p = (((List.range g.dof).filter (keep p)).map fun n => (n, u p n)) ++ [(g.dof, u p g.dof)] := by
    intro p hp
    rw [hw.file p hp, List.range_succ, List.filter_append, List.map_append]
    simp [hw.temp p hp]
  obtain ⟨T, s, h, -, h1, h2, h3, h4⟩ := restart_eq g d b hb file (fun p hp => ⟨by rw [split p hp]; simp, fun q hq => by
    rw [hw.file p hp] at hq
    obtain ⟨n, hn, rfl⟩ := List.mem_map.1 hq
    have := List.mem_range.1 (List.mem_filter.1 hn).1
    simp only; omega⟩) st
  refine ⟨T, s, h, fun p hp n hn => ?_, h2, fun x hx => ?_, fun hd => ?_⟩
  · rw [h1 p hp n hn, hw.file p hp, lastOf_kept _ _ _ _ (by omega)]
    by_cases hk : keep p n = true
    · simp [hk]
    · rw [if_neg hk, if_neg hk, Option.getD_none, if_neg (fun e => hk (by rw [e]; exact hw.temp p hp))]
  · rw [h4 x hx, fileTemp, split _ hx]; simp
  · have e : entries d b = b.xm + 2 := by cases d <;> first | rfl | exact absurd rfl hd
    constructor
    · refine h3 0 (by omega) fun p _ => ?_
      cases d <;> first | exact absurd rfl hd | simp [tempPlace]
    · refine h3 _ (by omega) fun p hp => ?_
      cases d <;> simp only [tempPlace, owned] at hp ⊢ <;> first | exact absurd rfl hd | omega

/-- A grid point of the rank without pairs in the file: undefined. -/
theorem restart_empty (g : Setting K) (b : Box) (file : Place → List (ℕ × K)) (st : State K) (h : file (0, 0, 0) = []) : initial g .zero b (some file) st = none := by
  simp only [initial, Option.isSome_some, Option.bind_eq_bind]
  cases start g .zero b true (enlarge .zero b st.1, st.2) with
  | none => rfl
  | some st => simp [applied, readPoint, h, write]

/-! ### Several loops -/

/-- The vector after several calls. -/
def calls (g : Setting K) (d : Dim) (b : Box) : List (Option (Place → List (ℕ × K))) → State K → Option (State K)
  | [], st => some st
  | f :: fs, st => (initial g d b f st).bind (calls g d b fs)

/-- **C96, the size of the vector.** In one and two dimensions the vector has two entries more than the rank has grid points, however often the state is initialised; in three dimensions every call adds as many again. -/
theorem size_calls (g : Setting K) (d : Dim) (b : Box) (hb : Inside g d b) (hi : ∀ q ∈ g.initial, q.1 < g.dof) (fs : List (Option (Place → List (ℕ × K))))
    (hf : ∀ f, some f ∈ fs → ∀ p, owned d b p → f p ≠ [] ∧ ∀ q ∈ f p, q.1 ≤ g.dof) : ∀ st : State K, ∃ T s, calls g d b fs st = some (T, s) ∧
      T.length = match d with
        | .zero => st.1.length + fs.length
        | .three => st.1.length + fs.length * (b.xm + 2)
        | _ => if fs = [] then st.1.length else b.xm + 2 := by
  induction fs with
  | nil => intro st; refine ⟨st.1, st.2, rfl, ?_⟩; cases d <;> simp
  | cons f fs ih =>
    intro st
    obtain ⟨T, s, h, hl⟩ : ∃ T s, initial g d b f st = some (T, s) ∧ T.length = (enlarge d b st.1).length := by
      cases f with
      | none => obtain ⟨T, s, h, hl, -⟩ := first_temps g d b hb hi st; exact ⟨T, s, h, hl⟩
      | some f => obtain ⟨T, s, h, hl, -⟩ := restart_eq g d b hb f (hf f (by simp)) st; exact ⟨T, s, h, hl⟩
    obtain ⟨T', s', h', hl'⟩ := ih (fun f hf' => hf f (by simp [hf'])) (T, s)
    refine ⟨T', s', by simp only [calls, h, Option.bind_some]; exact h', ?_⟩
    rw [hl']
    cases d
    · simp only [hl, enlarge, List.length_append, List.length_cons, List.length_nil]; ring
    · simp only [hl, enlarge, List.length_replicate, reduceCtorEq, if_false, ite_self]
    · simp only [hl, enlarge, List.length_replicate, reduceCtorEq, if_false, ite_self]
    · simp only [hl, enlarge, List.length_append, List.length_cons, List.length_replicate]; ring

/-- The depths of a vector of the right size only read the grid, which has two entries more than grid points. -/
theorem depths_inside (g : Setting K) (b : Box) (h : b.xs + b.xm ≤ g.nX) (i : ℕ) (hi : i < b.xm + 2) : gridRead g b i < g.nX + 2 := by
  unfold gridRead
  split <;> omega

/-- The entry read for the depth of a temperature is the one after its own, but for the last entry of the last rank, which is the end of the grid. -/
theorem depth_entry (g : Setting K) (b : Box) (h : b.xs + b.xm ≤ g.nX) (i : ℕ) (hi : i < b.xm + 2) :
    (b.xs + i ≤ g.nX → gridRead g b i = b.xs + i + 1) ∧ (b.xs + b.xm = g.nX → i = b.xm + 1 → gridRead g b i = g.nX + 1) := by
  unfold gridRead
  constructor
  · intro h1; rw [if_neg (by omega)]
  · intro h1 h2; rw [if_pos (by omega)]; omega

/-- **C96 (negation).** The second time the state is initialised in three dimensions, the last entries of the vector ask for depths beyond the end of the grid, on every rank with the last grid point. -/
theorem again_outside (g : Setting K) (b : Box) (hb : Inside g .three b) (hl : b.xs + b.xm = g.nX) (hi : ∀ q ∈ g.initial, q.1 < g.dof) (st : State K) (h0 : st.1 = []) :
    ∃ T s, calls g .three b [none, none] st = some (T, s) ∧ T.length = 2 * (b.xm + 2) ∧ ∀ i, b.xm + 2 ≤ i → g.nX + 2 ≤ gridRead g b i := by
  obtain ⟨T, s, h, hl'⟩ := size_calls g .three b hb hi [none, none] (by simp) st
  refine ⟨T, s, h, by rw [hl', h0]; simp, fun i h1 => ?_⟩
  unfold gridRead
  split <;> omega

/-! ### Cases -/

/-- Two dimensions, four by three grid points, free surface, periodic in the second direction; one cluster, its concentration given twice; a grain boundary at the second grid point of the last line. -/
def exSetting : Setting ℚ :=
  { nX := 4, nY := 3, nZ := 1, left := 1, right := 1, bottom := 0, top := 0, front := 0, back := 0, surf := fun _ _ => 0, grid := fun i => i, last := 5, hy := 2, hz := 1, dof := 2,
    temp := fun x => 1000 - 100 * x.1 + x.2.1, initial := [(0, 3), (0, 5)], gb := [(2, 2, 0)] }

def exBox : Box := ⟨0, 4, 1, 2, 0, 1⟩

theorem ex_fits (d : Dim) (h : d ≠ .three) : Fits exSetting d := ⟨fun _ => by decide, fun _ => by decide, fun h' => absurd h' h⟩

theorem ex_inside (d : Dim) : Inside exSetting d exBox := ⟨fun _ => by decide, fun _ => by decide, fun _ => by decide⟩

example : ∃ T s, initial exSetting .two exBox none ([], fun _ _ => 7) = some (T, s) ∧ s (0, 1, 1) 0 = 5 ∧ s (0, 1, 1) 1 = 0 ∧ s (0, 1, 0) 0 = 0 ∧ s (0, 0, 1) 0 = 7 ∧ s (0, 2, 1) 2 = 991.5 ∧
    T = [1029, 1016.5, 991.5, 966.5, 941.5, 916.5] := by
  refine ⟨_, _, rfl, ?_⟩
  decide +kernel

example : Written exSetting .two exBox (fun p n => (p.2.2 + n : ℚ)) (fun _ n => decide (n ≠ 1)) (fun p => [(0, (p.2.2 : ℚ)), (2, p.2.2 + 2)]) := by
  refine ⟨fun p _ => ?_, fun p _ => rfl⟩
  simp [exSetting, List.range_succ]

/-- A reflective surface in one dimension: the first grid point keeps the concentration for ever, in the setting with two dimensions it does not. -/
example : given { exSetting with left := 0 } .one (0, 0, 0) = true ∧ skipped { exSetting with left := 0 } .one (0, 0, 0) = true ∧ skipped { exSetting with left := 0 } .two (0, 0, 0) = false := by decide

/-- A grain boundary gets the concentrations and is not computed. -/
example : given exSetting .two (0, 2, 2) = true ∧ skipped exSetting .two (0, 2, 2) = true ∧ OnBoundary exSetting .two (0, 2, 2) :=
  ⟨by decide, by decide, (2, 2, 0), by simp [exSetting], rfl, rfl⟩

example : ∃ T s, calls { exSetting with nZ := 1 } .three exBox [none, none] ([], fun _ _ => 0) = some (T, s) ∧ T.length = 12 ∧ gridRead exSetting exBox 11 = 12 := by
  refine ⟨_, _, rfl, ?_⟩
  decide +kernel

end Xolotl.Solver.Initial
