import Verif.Solver.Grid
import Verif.Transport.StencilProps
import Mathlib.Analysis.Convex.SpecificFunctions.Basic
import Mathlib.Tactic.Linarith
import Mathlib.Tactic.Positivity
import Mathlib.Tactic.FieldSimp
import Mathlib.Tactic.IntervalCases

set_option linter.unusedSectionVars false

/-!
# Depth grids: properties (C31)
-/

namespace Xolotl.Solver.Grid

variable {K : Type*} [Field K] [LinearOrder K] [IsStrictOrderedRing K]

/-- What C31 asks of a grid made for `nX` points. -/
def Good (nX : ℕ) (g : List K) : Prop := g.length = nX + 2 ∧ g[0]? = some 0 ∧ g.Pairwise (· < ·)

theorem pairwise_map_range {f : ℕ → K} (hf : ∀ l, f l < f (l + 1)) (n : ℕ) : ((List.range n).map f).Pairwise (· < ·) := by
  rw [List.pairwise_map]
  have hm : StrictMono f := strictMono_nat_of_lt_succ hf
  exact (List.pairwise_lt_range).imp fun h => hm h

/-! ### Uniform -/

/-- The uniform grid starts at zero, has two more points than requested, increases, and all its spacings are `hx`. -/
theorem uniform_good (nX : ℕ) (hx : K) (h : 0 < hx) : Good nX (uniform nX hx) ∧
    ∀ i, i < nX + 1 → (uniform nX hx)[i + 1]? = ((uniform nX hx)[i]?).map (· + hx) := by
  refine ⟨⟨by simp [uniform], by simp [uniform], pairwise_map_range (fun l => ?_) _⟩, fun i hi => ?_⟩
  · push_cast; nlinarith
  · unfold uniform
    rw [List.getElem?_map, List.getElem?_map, List.getElem?_range (by omega), List.getElem?_range (by omega)]
    simp only [Option.map_some, Option.some.injEq]; push_cast; ring

/-! ### The two loops -/

/-- The position of point `n` in the loop. -/
def pos (step : ℕ → K) (n : ℕ) : K := ∑ l ∈ Finset.range n, step l

theorem loop_spec (step : ℕ → K) (n : ℕ) : loop step n = ((List.range n).map (pos step), pos step n) := by
  induction n with
  | zero => simp [loop, pos]
  | succ n ih =>
    have : loop step (n + 1) = ((loop step n).1 ++ [(loop step n).2], (loop step n).2 + step n) := by
      unfold loop; rw [List.range_succ, List.foldl_append]; rfl
    rw [this, ih, List.range_succ, List.map_append]
    simp only [List.map_cons, List.map_nil, Prod.mk.injEq, true_and]
    unfold pos; rw [Finset.sum_range_succ]

theorem loop_good (step : ℕ → K) (hs : ∀ l, 0 < step l) (nX : ℕ) : Good nX (loop step (nX + 2)).1 := by
  rw [loop_spec]
  refine ⟨by simp, by simp [pos], pairwise_map_range (fun l => ?_) _⟩
  unfold pos; rw [Finset.sum_range_succ]; have := hs l; linarith

theorem stepNonuniform_pos (l : ℕ) : (0 : K) < stepNonuniform l := by
  have ite_pos : ∀ {p : Prop} [Decidable p] {a b : K}, 0 < a → 0 < b → 0 < (if p then a else b) := by
    intro p _ a b ha hb; split <;> assumption
  unfold stepNonuniform
  iterate 21 refine ite_pos (by positivity) ?_
  positivity

/-- The `nonuniform` grid is good for every number of points. -/
theorem nonuniform_good (nX : ℕ) : Good nX (nonuniform nX : List K) := loop_good _ stepNonuniform_pos nX

/-- The `geometric` grid is good for every number of points and every positive ratio. -/
theorem geometric_good (nX : ℕ) (r : K) (hr : 0 < r) : Good nX (geometric nX r) := by
  refine loop_good _ (fun l => ?_) nX
  unfold stepGeometric; split_ifs <;> positivity

/-- The spacings of the `geometric` grid: 0.1 before the surface and after it, then each one `r` times the one before. -/
theorem geometric_ratio (nX : ℕ) (r : K) (i : ℕ) (hi : i + 1 < nX + 2) :
    ∃ a b, (geometric nX r)[i]? = some a ∧ (geometric nX r)[i + 1]? = some b ∧ b - a = if i = 0 then 1 / 10 else 1 / 10 * r ^ (i - 1) := by
  unfold geometric; rw [loop_spec]
  refine ⟨pos (stepGeometric r) i, pos (stepGeometric r) (i + 1), ?_, ?_, ?_⟩
  · rw [List.getElem?_map, List.getElem?_range (by omega)]; rfl
  · rw [List.getElem?_map, List.getElem?_range (by omega)]; rfl
  · unfold pos; rw [Finset.sum_range_succ, add_sub_cancel_left]; unfold stepGeometric
    rcases Nat.eq_zero_or_pos i with h | h
    · simp [h]
    · rw [if_neg (by omega), if_neg (by omega)]

/-! ### The spacings announced by the comments of the `nonuniform` grid -/

/-- The spacing announced for a depth below the surface point, by the comments at xolotl/solver/src/handler/SolverHandler.cpp:209-295. -/
def announced (x : K) : K :=
  if x < 5 / 2 then 1 / 10
  else if x < 5 then 1 / 4
  else if x < 15 / 2 then 1 / 2
  else if x < 101 / 2 then 1
  else if x < 201 / 2 then 2
  else if x < 301 / 2 then 5
  else if x < 601 / 2 then 10
  else if x < 1001 / 2 then 20
  else if x < 2001 / 2 then 50
  else if x < 10001 / 2 then 100
  else if x < 20001 / 2 then 200
  else if x < 40001 / 2 then 500
  else if x < 60001 / 2 then 1000
  else if x < 100001 / 2 then 2000
  else if x < 200001 / 2 then 5000
  else if x < 400001 / 2 then 10000
  else if x < 1000001 / 2 then 20000
  else if x < 2000001 / 2 then 50000
  else if x < 4000001 / 2 then 100000
  else if x < 10000001 / 2 then 200000
  else if x < 20000001 / 2 then 500000
  else 1000000

theorem announced_table : ∀ l < 341, (stepNonuniform l : ℚ) = announced (pos stepNonuniform l - pos stepNonuniform 1) := by
  have h : ∀ n ≤ 341, ∀ l < n, (stepNonuniform l : ℚ) = announced ((loop stepNonuniform l).2 - 1 / 10) := by decide +kernel
  intro l hl
  have := h 341 le_rfl l hl
  rw [loop_spec] at this
  have h1 : pos (stepNonuniform : ℕ → ℚ) 1 = 1 / 10 := by simp [pos, stepNonuniform]
  rw [h1]; exact this

theorem announced_deep (x : ℚ) (hx : 20000001 / 2 ≤ x) : announced x = 1000000 := by
  have : ∀ c : ℚ, c ≤ 20000001 / 2 → ¬x < c := fun c hc => not_lt.mpr (hc.trans hx)
  unfold announced
  iterate 21 rw [if_neg (this _ (by norm_num))]

theorem step_deep (i : ℕ) (hi : 341 ≤ i) : (stepNonuniform i : ℚ) = 1000000 := by
  unfold stepNonuniform
  iterate 21 rw [if_neg (by omega)]

theorem pos_340 : (20000001 / 2 : ℚ) ≤ pos (stepNonuniform : ℕ → ℚ) 340 - pos stepNonuniform 1 := by
  have h : (20000001 / 2 : ℚ) ≤ (loop (stepNonuniform : ℕ → ℚ) 340).2 - (loop (stepNonuniform : ℕ → ℚ) 1).2 := by decide +kernel
  rw [loop_spec, loop_spec] at h; exact h

/-- Every spacing of the `nonuniform` grid is the one the comments announce for the depth at which it starts, for any number of points. -/
theorem nonuniform_announced (nX i : ℕ) (hi : i + 1 < nX + 2) :
    ∃ s a b, (nonuniform nX : List ℚ)[1]? = some s ∧ (nonuniform nX : List ℚ)[i]? = some a ∧ (nonuniform nX : List ℚ)[i + 1]? = some b ∧
      b - a = announced (a - s) := by
  unfold nonuniform; rw [loop_spec]
  refine ⟨pos stepNonuniform 1, pos stepNonuniform i, pos stepNonuniform (i + 1), ?_, ?_, ?_, ?_⟩
  · rw [List.getElem?_map, List.getElem?_range (by omega)]; rfl
  · rw [List.getElem?_map, List.getElem?_range (by omega)]; rfl
  · rw [List.getElem?_map, List.getElem?_range (by omega)]; rfl
  · have e : pos (stepNonuniform : ℕ → ℚ) (i + 1) - pos stepNonuniform i = stepNonuniform i := by unfold pos; rw [Finset.sum_range_succ, add_sub_cancel_left]
    rw [e]
    by_cases h : i < 341
    · exact announced_table i h
    · have hmono : pos (stepNonuniform : ℕ → ℚ) 340 ≤ pos stepNonuniform i := by
        unfold pos
        exact Finset.sum_le_sum_of_subset_of_nonneg (Finset.range_mono (by omega)) fun j _ _ => (stepNonuniform_pos j).le
      have := pos_340
      rw [step_deep i (by omega), announced_deep _ (by linarith)]

/-! ### A grid read from a file -/

/-- A file with at least two increasing non-negative numbers gives a good grid; the number of points is that of the file, plus one if the file does not start at zero. -/
theorem read_good (tokens : List K) (h2 : 2 ≤ tokens.length) (hinc : tokens.Pairwise (· < ·)) (h0 : ∀ t ∈ tokens, 0 ≤ t) :
    ∃ g, read tokens = some g ∧ Good (g.length - 2) g ∧ (g.length - 2 = tokens.length ∨ g.length - 2 = tokens.length + 1) := by
  obtain ⟨t0, t1, rest, rfl⟩ : ∃ t0 t1 rest, tokens = t0 :: t1 :: rest := by
    match tokens, h2 with
    | a :: b :: r, _ => exact ⟨a, b, r, rfl⟩
  have h01 : t0 < t1 := (List.pairwise_cons.mp hinc).1 t1 (by simp)
  have ht0 : 0 ≤ t0 := h0 t0 (by simp)
  set T := t0 :: t1 :: rest with hT
  have hl : T.length = rest.length + 2 := by simp [hT]
  have hz : T[T.length - 1]? = some (T[T.length - 1]'(by omega)) := List.getElem?_eq_getElem _
  have hy : T[T.length - 2]? = some (T[T.length - 2]'(by omega)) := List.getElem?_eq_getElem _
  have hyz : T[T.length - 2]'(by omega) < T[T.length - 1]'(by omega) := List.pairwise_iff_getElem.mp hinc _ _ _ _ (by omega)
  have hlast : ∀ t ∈ T, t ≤ T[T.length - 1]'(by omega) := by
    intro t ht
    obtain ⟨k, hk, rfl⟩ := List.getElem_of_mem ht
    rcases Nat.lt_or_ge k (T.length - 1) with h | h
    · exact (List.pairwise_iff_getElem.mp hinc _ _ _ _ h).le
    · have : k = T.length - 1 := by omega
      subst this; exact le_rfl
  generalize T[T.length - 1]'(by omega) = z at *
  generalize T[T.length - 2]'(by omega) = y at *
  have hr : read T = some ([0] ++ (if t0 > 0 then [t1 - t0] else []) ++ T.map (fun t => t + (t1 - t0)) ++ [2 * z - y + (t1 - t0)]) := by
    unfold read; rw [hz, hy]; rfl
  refine ⟨_, hr, ⟨?_, by simp, ?_⟩, ?_⟩
  · simp only [List.length_append, List.length_map, List.length_singleton, hl]; omega
  · have hmap : (T.map (fun t => t + (t1 - t0))).Pairwise (· < ·) := by
      rw [List.pairwise_map]; exact hinc.imp fun h => by linarith
    have hfirst : ∀ t ∈ T, t0 ≤ t := by
      intro t ht
      rcases List.mem_cons.mp ht with rfl | h
      · exact le_rfl
      · exact ((List.pairwise_cons.mp hinc).1 t h).le
    rw [List.pairwise_append, List.pairwise_append, List.pairwise_append]
    refine ⟨⟨⟨List.pairwise_singleton _ _, ?_, ?_⟩, hmap, ?_⟩, List.pairwise_singleton _ _, ?_⟩
    · split_ifs <;> simp
    · intro a ha b hb
      rw [List.mem_singleton] at ha; subst ha
      split_ifs at hb
      · rw [List.mem_singleton] at hb; subst hb; linarith
      · simp at hb
    · intro a ha b hb
      obtain ⟨t, ht, rfl⟩ := List.mem_map.mp hb
      have := hfirst t ht
      rcases List.mem_append.mp ha with ha | ha
      · rw [List.mem_singleton] at ha; subst ha; linarith
      · split_ifs at ha with hc
        · rw [List.mem_singleton] at ha; subst ha; linarith
        · simp at ha
    · intro a ha b hb
      rw [List.mem_singleton] at hb; subst hb
      have hz0 : t1 ≤ z := hlast t1 (by simp [hT])
      rcases List.mem_append.mp ha with ha | ha
      · rcases List.mem_append.mp ha with ha | ha
        · rw [List.mem_singleton] at ha; subst ha; linarith
        · split_ifs at ha with hc
          · rw [List.mem_singleton] at ha; subst ha; linarith
          · simp at ha
      · obtain ⟨t, ht, rfl⟩ := List.mem_map.mp ha
        have := hlast t ht; linarith
  · by_cases hc : t0 > 0
    · right; simp [hc]
    · left; simp [hc]

/-- A file with less than two numbers makes the code read past the end of its vector. -/
theorem read_short (tokens : List K) (h : tokens.length < 2) : read tokens = none := by
  unfold read
  have : tokens[1]? = none := List.getElem?_eq_none (by omega)
  rw [this]; split <;> simp_all

example : (read [(0 : ℚ), 1, 3]).isSome := by decide +kernel

/-! ### Chebyshev -/

/-- The Chebyshev grid has the right length but its first and its last two points coincide, so it is not strictly increasing and the left spacing of the first grid point is zero. -/
theorem cheby_zero_width (nX : ℕ) (h2 : 2 ≤ nX) (hx : ℝ) :
    ∃ g, cheby nX hx = some g ∧ g.length = nX + 2 ∧ g[0]? = some 0 ∧ g[1]? = some 0 ∧ g[nX]? = some hx ∧ g[nX + 1]? = some hx ∧ ¬g.Pairwise (· < ·) := by
  refine ⟨_, by unfold cheby; rw [if_neg (by omega)], ?_, rfl, rfl, ?_, ?_, ?_⟩
  · simp; omega
  · rw [List.getElem?_append_left (by simp; omega), List.getElem?_append_right (by simp; omega), List.getElem?_map]
    simp only [List.length_cons, List.length_nil]
    rw [List.getElem?_range (by omega)]
    have hne : ((nX - 1 : ℕ) : ℝ) ≠ 0 := by exact_mod_cast (by omega : nX - 1 ≠ 0)
    have e : nX - (0 + 1 + 1) + 1 = nX - 1 := by omega
    simp only [Option.map_some, Option.some.injEq, e]
    rw [mul_div_assoc, div_self hne, mul_one, Real.cos_pi]; ring
  · rw [List.getElem?_append_right (by simp; omega)]
    simp only [List.length_append, List.length_cons, List.length_nil, List.length_map, List.length_range]
    have : nX + 1 - (0 + 1 + 1 + (nX - 1)) = 0 := by omega
    rw [this]; rfl
  · intro h
    rw [List.cons_append, List.cons_append, List.cons_append, List.pairwise_cons] at h
    exact lt_irrefl (0 : ℝ) (h.1 0 (by simp))

/-- Between its first and its last grid point the Chebyshev grid is strictly increasing. -/
theorem cheby_inner_partial (nX : ℕ) (h2 : 2 ≤ nX) (hx : ℝ) (hpos : 0 < hx) (g : List ℝ) (hg : cheby nX hx = some g) :
    ∀ i, 1 ≤ i → i < nX → ∃ a b, g[i]? = some a ∧ g[i + 1]? = some b ∧ a < b := by
  unfold cheby at hg
  rw [if_neg (by omega), Option.some.injEq] at hg
  have hn : (0 : ℝ) < ((nX - 1 : ℕ) : ℝ) := by exact_mod_cast (by omega : 0 < nX - 1)
  have hval : ∀ k, k < nX → g[k + 1]? = some (hx / 2 * (1 - Real.cos (Real.pi * (k : ℝ) / ((nX - 1 : ℕ) : ℝ)))) := by
    intro k hk
    rw [← hg]
    rcases Nat.eq_zero_or_pos k with h0 | h0
    · subst h0; simp
    · rw [List.getElem?_append_left (by simp; omega), List.getElem?_append_right (by simp; omega), List.getElem?_map]
      simp only [List.length_cons, List.length_nil]
      rw [List.getElem?_range (by omega)]
      have e : k + 1 - (0 + 1 + 1) + 1 = k := by omega
      simp only [Option.map_some, e]
  intro i hi1 hi2
  have ha := hval (i - 1) (by omega)
  rw [show i - 1 + 1 = i by omega] at ha
  refine ⟨_, _, ha, hval i hi2, ?_⟩
  have hlt : Real.cos (Real.pi * (i : ℝ) / ((nX - 1 : ℕ) : ℝ)) < Real.cos (Real.pi * ((i - 1 : ℕ) : ℝ) / ((nX - 1 : ℕ) : ℝ)) := by
    have hp := Real.pi_pos
    apply Real.cos_lt_cos_of_nonneg_of_le_pi
    · positivity
    · rw [div_le_iff₀ hn]
      have : (i : ℝ) ≤ ((nX - 1 : ℕ) : ℝ) := by exact_mod_cast (by omega : i ≤ nX - 1)
      nlinarith
    · apply div_lt_div_of_pos_right _ hn
      apply mul_lt_mul_of_pos_left _ hp
      exact_mod_cast (by omega : i - 1 < i)
  have : 0 < hx / 2 := by linarith
  nlinarith

/-- No point requested: the loop bound wraps. -/
theorem cheby_none (hx : ℝ) : cheby 0 hx = none := rfl

/-- On a Chebyshev grid the left spacing used at grid point 0 is zero. -/
theorem cheby_hxLeft (nX : ℕ) (h2 : 2 ≤ nX) (hx : ℝ) (g : List ℝ) (hg : cheby nX hx = some g) : Transport.hxLeft (fun i => g.getD i 0) 0 = 0 := by
  obtain ⟨g', hg', _, h0, h1, _⟩ := cheby_zero_width nX h2 hx
  rw [hg] at hg'; obtain rfl := Option.some.inj hg'
  unfold Transport.hxLeft
  simp [List.getD, h0, h1]

theorem getD_some (g : List K) (i : ℕ) (h : i < g.length) : g.getD i 0 = g[i] := by simp [List.getD, h]

/-- For every other type the spacings are positive at every grid point. -/
theorem good_spacings (nX : ℕ) (g : List K) (hg : Good nX g) (xi : ℕ) (hxi : xi < nX) :
    0 < Transport.hxLeft (fun i => g.getD i 0) xi ∧ 0 < Transport.hxRight nX (fun i => g.getD i 0) xi := by
  obtain ⟨hl, -, hp⟩ := hg
  have key : ∀ i j, i < j → j < nX + 2 → g.getD i 0 < g.getD j 0 := by
    intro i j hij hj
    rw [getD_some g _ (by omega), getD_some g _ (by omega)]
    exact List.pairwise_iff_getElem.mp hp _ _ _ _ hij
  unfold Transport.hxLeft Transport.hxRight
  constructor
  · split_ifs with h
    · exact sub_pos.mpr (key _ _ (by omega) (by omega))
    · exact div_pos (sub_pos.mpr (key _ _ (by omega) (by omega))) two_pos
  · split_ifs with h h
    · exact div_pos (sub_pos.mpr (key _ _ (by omega) (by omega))) two_pos
    · exact div_pos (sub_pos.mpr (key _ _ (by omega) (by omega))) two_pos
    · exact sub_pos.mpr (key _ _ (by omega) (by omega))

example : 0 < Transport.hxLeft (fun i => (nonuniform 5 : List ℚ).getD i 0) 3 := (good_spacings 5 _ (nonuniform_good 5) 3 (by norm_num)).1

/-! ### The temperature grid -/

theorem tempH_pos (width power : ℝ) (size : ℕ) (hw : 0 < width) (hs : 4 ≤ size) : 0 < tempH width power size := by
  unfold tempH
  refine div_pos (Real.rpow_pos_of_pos hw _) ?_
  have : (2 : ℝ) ≤ ((size - 2 : ℕ) : ℝ) := by exact_mod_cast (by omega : 2 ≤ size - 2)
  linarith

/-- The temperature grid starts at zero and increases. -/
theorem tempGrid_increasing (newH power : ℝ) (hh : 0 < newH) (hp : 0 < power) : tempGrid newH power 0 = 0 ∧ StrictMono (tempGrid newH power) := by
  refine ⟨rfl, strictMono_nat_of_lt_succ fun i => ?_⟩
  have h1 : 0 < newH ^ power := Real.rpow_pos_of_pos hh _
  unfold tempGrid
  rcases i with _ | _ | i
  · simpa using h1
  · simp only [zero_add, one_ne_zero, if_false, if_true, show ¬(1 + 1 = 0) by norm_num, show ¬(1 + 1 = 1) by norm_num]
    norm_num [h1]
  · simp only [show ¬(i + 1 + 1 = 0) by omega, show ¬(i + 1 + 1 = 1) by omega, show ¬(i + 1 + 1 + 1 = 0) by omega, show ¬(i + 1 + 1 + 1 = 1) by omega, if_false]
    have : (((i + 1 + 1 - 1 : ℕ) : ℝ) * newH) ^ power < (((i + 1 + 1 + 1 - 1 : ℕ) : ℝ) * newH) ^ power := by
      apply Real.rpow_lt_rpow (by positivity) _ hp
      apply mul_lt_mul_of_pos_right _ hh
      exact_mod_cast (by omega : i + 1 + 1 - 1 < i + 1 + 1 + 1 - 1)
    linarith

/-- With power one or more, the last location of the temperature grid is at least as deep as that of the cluster grid. -/
theorem tempGrid_covers (width power : ℝ) (size : ℕ) (hw : 0 < width) (hp : 1 ≤ power) (hs : 4 ≤ size) :
    width ≤ tempWidth (tempGrid (tempH width power size) power) size := by
  obtain ⟨n, rfl⟩ : ∃ n, size = n + 4 := ⟨size - 4, by omega⟩
  have hp0 : 0 < power := by linarith
  have hh := tempH_pos width power (n + 4) hw hs
  have hm : (0 : ℝ) < (n : ℝ) + 1 / 2 := by positivity
  have hH : ((n : ℝ) + 1 / 2) * tempH width power (n + 4) = width ^ (1 / power) := by
    unfold tempH
    have : ((n + 4 - 2 : ℕ) : ℝ) - 3 / 2 = (n : ℝ) + 1 / 2 := by rw [show n + 4 - 2 = n + 2 by omega]; push_cast; ring
    rw [this, mul_div_cancel₀ _ hm.ne']
  set H := tempH width power (n + 4)
  have hwid : width = (((n : ℝ) + 1 / 2) * H) ^ power := by
    rw [hH, ← Real.rpow_mul hw.le, one_div, inv_mul_cancel₀ hp0.ne', Real.rpow_one]
  have hx0 : (n : ℝ) * H ∈ Set.Ici (0 : ℝ) := by simp only [Set.mem_Ici]; positivity
  have hy0 : ((n : ℝ) + 1) * H ∈ Set.Ici (0 : ℝ) := by simp only [Set.mem_Ici]; positivity
  have hconv := (convexOn_rpow hp).2 hx0 hy0 (show (0 : ℝ) ≤ 1 / 2 by norm_num) (show (0 : ℝ) ≤ 1 / 2 by norm_num) (by norm_num)
  simp only [smul_eq_mul] at hconv
  have earg : 1 / 2 * ((n : ℝ) * H) + 1 / 2 * (((n : ℝ) + 1) * H) = ((n : ℝ) + 1 / 2) * H := by ring
  rw [earg, ← hwid] at hconv
  unfold tempWidth tempGrid
  simp only [show n + 4 - 3 = n + 1 by omega, show n + 4 - 2 = n + 2 by omega, show ¬(n + 2 = 0) by omega, show ¬(n + 2 = 1) by omega, show ¬(n + 1 = 0) by omega,
    show n + 2 - 1 = n + 1 by omega, one_ne_zero, if_false, if_true]
  rcases Nat.eq_zero_or_pos n with h0 | h0
  · subst h0
    simp only [zero_add, if_true] at *
    have hz : (0 : ℝ) ^ power = 0 := Real.zero_rpow hp0.ne'
    have e0 : ((0 : ℕ) : ℝ) * H = 0 := by simp
    rw [e0, hz] at hconv
    have : (((0 : ℕ) : ℝ) + 1) = ((1 : ℕ) : ℝ) := by norm_num
    rw [this] at hconv
    linarith
  · simp only [show ¬(n + 1 = 1) by omega, if_false, show n + 1 - 1 = n by omega]
    have : ((n : ℝ) + 1) = ((n + 1 : ℕ) : ℝ) := by push_cast; ring
    rw [this] at hconv
    linarith

/-- On a uniform cluster grid of at least three points, with a power above one, the first spacing of the temperature grid is smaller than that of the cluster grid. -/
theorem tempGrid_first (hx power : ℝ) (n : ℕ) (hh : 0 < hx) (hp : 1 < power) (hn : 3 ≤ n) :
    tempGrid (tempH (((n : ℝ) - 3 / 2) * hx) power (n + 2)) power 1 < hx := by
  have hm : (1 : ℝ) < (n : ℝ) - 3 / 2 := by
    have : (3 : ℝ) ≤ n := by exact_mod_cast hn
    linarith
  have hm0 : (0 : ℝ) < (n : ℝ) - 3 / 2 := by linarith
  unfold tempGrid tempH
  simp only [one_ne_zero, if_false, if_true, show n + 2 - 2 = n by omega]
  rw [Real.div_rpow (by positivity) hm0.le, ← Real.rpow_mul (by positivity), one_div, inv_mul_cancel₀ (by linarith), Real.rpow_one,
    div_lt_iff₀ (Real.rpow_pos_of_pos hm0 _), mul_comm]
  apply mul_lt_mul_of_pos_left _ hh
  calc (n : ℝ) - 3 / 2 = ((n : ℝ) - 3 / 2) ^ (1 : ℝ) := (Real.rpow_one _).symm
    _ < _ := Real.rpow_lt_rpow_of_exponent_lt hm hp

end Xolotl.Solver.Grid
