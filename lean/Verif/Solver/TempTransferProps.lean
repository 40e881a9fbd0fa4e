import Verif.Solver.TempTransfer
import Verif.Solver.GridProps
import Mathlib.Tactic.Linarith
import Mathlib.Tactic.Ring
import Mathlib.Tactic.Positivity

set_option linter.unusedSectionVars false

/-!
# Temperatures on the cluster grid: properties (C33)
-/

namespace Xolotl.Solver.TempTransfer

variable {K : Type*} [Field K] [LinearOrder K] [IsStrictOrderedRing K]

/-! ### What the ranks receive -/

/-- The ranks of a distribution that starts at grid point `xs`: each has its first grid point, its number of grid points and its part of the temperature vector `T`, whose entry 0 and last entry are ghosts. -/
def decompose (T : ℕ → K) : ℕ → List ℕ → List (ℕ × ℕ × (ℕ → K))
  | _, [] => []
  | xs, m :: l => (xs, m, fun i => T (xs + i)) :: decompose T (xs + m) l

theorem gathered_tail (T : ℕ → K) (nX : ℕ) (l : List ℕ) (hl : ∀ m ∈ l, 0 < m) (hne : l ≠ []) : ∀ xs, 0 < xs → xs + l.sum = nX →
    gathered nX (decompose T xs l) = (List.range' (xs + 1) (l.sum + 1)).map T := by
  induction l with
  | nil => exact absurd rfl hne
  | cons m l ih =>
    intro xs hxs hsum
    have hm := hl m (by simp)
    rw [List.sum_cons] at hsum
    have hval : ∀ c, values nX xs m (fun i => T (xs + i)) = (List.range' (xs + 1) c).map T ↔ toSend nX xs m = c := by
      intro c
      unfold values
      have e : (List.range (toSend nX xs m)).map (fun i => if xs = 0 then T (xs + i) else T (xs + (i + 1))) = (List.range' (xs + 1) (toSend nX xs m)).map T := by
        rw [List.range'_eq_map_range, List.map_map]
        refine List.map_congr_left fun i _ => ?_
        simp only [Function.comp_apply, if_neg (by omega : ¬xs = 0)]; congr 1; omega
      rw [e]
      constructor
      · intro h; have := congrArg List.length h; simpa using this
      · intro h; rw [h]
    simp only [decompose, gathered, List.flatMap_cons]
    cases l with
    | nil =>
      simp only [decompose, List.flatMap_nil, List.append_nil]
      rw [List.sum_nil] at hsum
      rw [(hval (m + 1)).mpr]
      · simp
      · unfold toSend
        rw [if_pos (Or.inr (by omega)), if_neg (by omega)]
    | cons m' l' =>
      have hm' := hl m' (by simp)
      have := ih (fun x hx => hl x (by simp [hx])) (by simp) (xs + m) (by omega) (by omega)
      unfold gathered at this
      rw [this, (hval m).mpr]
      · rw [← List.map_append, List.sum_cons, List.sum_cons]
        congr 1
        rw [show xs + m + 1 = xs + 1 + m by omega, List.range'_append_1]
        congr 1
      · rw [List.sum_cons] at hsum
        unfold toSend
        rw [if_neg (by omega), if_neg (by omega), Nat.add_zero]

/-- However the grid points are distributed over the ranks, every rank receives the whole temperature vector with both ghosts. -/
theorem gathered_all (T : ℕ → K) (nX : ℕ) (l : List ℕ) (hl : ∀ m ∈ l, 0 < m) (hne : l ≠ []) (hsum : l.sum = nX) :
    gathered nX (decompose T 0 l) = (List.range (nX + 2)).map T := by
  cases l with
  | nil => exact absurd rfl hne
  | cons m l =>
    have hm := hl m (by simp)
    rw [List.sum_cons] at hsum
    simp only [decompose, gathered, List.flatMap_cons, Nat.zero_add]
    have hval : values nX 0 m (fun i => T i) = (List.range (toSend nX 0 m)).map T := by
      unfold values; refine List.map_congr_left fun i _ => ?_; simp
    rw [hval]
    cases l with
    | nil =>
      rw [List.sum_nil] at hsum
      simp only [decompose, List.flatMap_nil, List.append_nil]
      unfold toSend
      rw [if_pos (Or.inl rfl), if_pos ⟨rfl, by omega⟩]
      congr 2; omega
    | cons m' l' =>
      have hm' := hl m' (by simp)
      have ht := gathered_tail T nX (m' :: l') (fun x hx => hl x (by simp [hx])) (by simp) m hm hsum
      unfold gathered at ht
      rw [ht]
      have hs : toSend nX 0 m = m + 1 := by
        rw [List.sum_cons] at hsum
        unfold toSend
        rw [if_pos (Or.inl rfl), if_neg (by omega)]
      rw [hs, ← List.map_append]
      congr 1
      have hn : nX + 2 = (m + 1) + ((m' :: l').sum + 1) := by omega
      rw [List.range_eq_range', List.range_eq_range', hn, ← List.range'_append_1 (s := 0) (m := m + 1), Nat.zero_add]

example : gathered 5 (decompose (fun i => (i : ℚ)) 0 [2, 1, 2]) = [0, 1, 2, 3, 4, 5, 6] := by
  rw [gathered_all _ 5 [2, 1, 2] (by simp) (by simp) rfl]; simp [List.range_succ]

/-- When the grid has gained or lost points while the ranks still hold their old parts, as when `generateTemperatureGrid` is called for a surface that moved, no rank sends the right ghost: at most `old + 1` values arrive for an array of `nX + 2`. -/
theorem stale_gather (T : ℕ → K) (nX : ℕ) (l : List ℕ) (hl : ∀ m ∈ l, 0 < m) (hne : l ≠ []) (hstale : l.sum < nX) :
    (gathered nX (decompose T 0 l)).length = l.sum + 1 := by
  have tail : ∀ (l : List ℕ) (xs : ℕ), 0 < xs → xs + l.sum < nX → (gathered nX (decompose T xs l)).length = l.sum := by
    intro l
    induction l with
    | nil => intro xs _ _; rfl
    | cons m l ih =>
      intro xs hxs hs
      rw [List.sum_cons] at hs
      have := ih (xs + m) (by omega) (by omega)
      simp only [decompose, gathered, List.flatMap_cons, List.length_append] at this ⊢
      rw [this]
      have : toSend nX xs m = m := by unfold toSend; rw [if_neg (by omega), if_neg (by omega), Nat.add_zero]
      simp [values, this]
  cases l with
  | nil => exact absurd rfl hne
  | cons m l =>
    have hm := hl m (by simp)
    rw [List.sum_cons] at hstale
    have := tail l m hm (by omega)
    simp only [decompose, gathered, List.flatMap_cons, List.length_append, Nat.zero_add] at this ⊢
    rw [this]
    have : toSend nX 0 m = m + 1 := by unfold toSend; rw [if_pos (Or.inl rfl), if_neg (by omega)]
    simp [values, this]; omega

/-! ### The interpolation -/

theorem loc_strictMono (g : ℕ → K) (hg : StrictMono g) : StrictMono (loc g) := by
  refine strictMono_nat_of_lt_succ fun i => ?_
  unfold loc
  have h1 := hg (Nat.lt_succ_self i)
  simp only [Nat.succ_eq_add_one] at h1
  rcases Nat.eq_zero_or_pos i with h | h
  · subst h; simp only [if_true, zero_add, one_ne_zero, if_false, Nat.sub_self]; linarith
  · have h2 := hg (show i - 1 < i by omega)
    rw [if_neg (by omega), if_neg (by omega), show i + 1 - 1 = i by omega]
    linarith

theorem interpAt_seg (nX : ℕ) (tg : ℕ → K) (hg : StrictMono tg) (T : ℕ → K) (other l : K) (j : ℕ) (hj : j ≤ nX) (h1 : loc tg j ≤ l) (h2 : l < loc tg (j + 1)) :
    interpAt nX tg T other l = T j + (l - loc tg j) / (loc tg (j + 1) - loc tg j) * (T (j + 1) - T j) := by
  have hm := loc_strictMono tg hg
  unfold interpAt
  cases hf : (List.range (nX + 1)).find? fun j => decide (loc tg j ≤ l) && decide (l < loc tg (j + 1)) with
  | none =>
    rw [List.find?_eq_none] at hf
    exact absurd (hf j (List.mem_range.mpr (by omega))) (by simp [h1, h2])
  | some k =>
    have hk := List.find?_some hf
    simp only [Bool.and_eq_true, decide_eq_true_eq] at hk
    have : k = j := by
      rcases Nat.lt_trichotomy k j with h | h | h
      · have := hm.monotone (show k + 1 ≤ j by omega); linarith [hk.2]
      · exact h
      · have := hm.monotone (show j + 1 ≤ k by omega); linarith [hk.1]
    subst this; rfl

theorem find_seg (tg : ℕ → K) (l : K) (h0 : loc tg 0 ≤ l) : ∀ n, l < loc tg n → ∃ j, j < n ∧ loc tg j ≤ l ∧ l < loc tg (j + 1) := by
  intro n
  induction n with
  | zero => intro h; linarith
  | succ n ih =>
    intro h
    by_cases hc : loc tg n ≤ l
    · exact ⟨n, by omega, hc, h⟩
    · obtain ⟨j, hj, h1, h2⟩ := ih (not_le.mp hc)
      exact ⟨j, by omega, h1, h2⟩

/-- Inside the temperature grid the result lies between the temperatures of the two neighbouring places. -/
theorem interp_between (nX : ℕ) (tg : ℕ → K) (hg : StrictMono tg) (T : ℕ → K) (other l : K) (h0 : loc tg 0 ≤ l) (h1 : l < loc tg (nX + 1)) :
    ∃ j ≤ nX, loc tg j ≤ l ∧ l < loc tg (j + 1) ∧ min (T j) (T (j + 1)) ≤ interpAt nX tg T other l ∧ interpAt nX tg T other l ≤ max (T j) (T (j + 1)) := by
  obtain ⟨j, hj, ha, hb⟩ := find_seg tg l h0 (nX + 1) h1
  refine ⟨j, by omega, ha, hb, ?_⟩
  rw [interpAt_seg nX tg hg T other l j (by omega) ha hb]
  have hpos : 0 < loc tg (j + 1) - loc tg j := sub_pos.mpr (loc_strictMono tg hg (Nat.lt_succ_self j))
  set t := (l - loc tg j) / (loc tg (j + 1) - loc tg j) with ht
  have ht0 : 0 ≤ t := div_nonneg (by linarith) hpos.le
  have ht1 : t ≤ 1 := by rw [ht, div_le_one hpos]; linarith
  have e : T j + t * (T (j + 1) - T j) = (1 - t) * T j + t * T (j + 1) := by ring
  rw [e]
  have ha := min_le_left (T j) (T (j + 1))
  have hb := min_le_right (T j) (T (j + 1))
  have hc := le_max_left (T j) (T (j + 1))
  have hd := le_max_right (T j) (T (j + 1))
  constructor <;> nlinarith

/-- At the places of the temperature grid the result is the temperature there; for the last place this needs the value outside to be the last temperature. -/
theorem interp_exact (nX : ℕ) (tg : ℕ → K) (hg : StrictMono tg) (T : ℕ → K) (other : K) (j : ℕ) (hj : j ≤ nX) : interpAt nX tg T other (loc tg j) = T j := by
  have := loc_strictMono tg hg (Nat.lt_succ_self j)
  rw [interpAt_seg nX tg hg T other _ j hj le_rfl this]; simp

/-- From the last place of the temperature grid on, and before its first place, the value is the one for no match. -/
theorem interp_outside (nX : ℕ) (tg : ℕ → K) (hg : StrictMono tg) (T : ℕ → K) (other l : K) (h : l < loc tg 0 ∨ loc tg (nX + 1) ≤ l) :
    interpAt nX tg T other l = other := by
  have hm := loc_strictMono tg hg
  unfold interpAt
  have : ((List.range (nX + 1)).find? fun j => decide (loc tg j ≤ l) && decide (l < loc tg (j + 1))) = none := by
    rw [List.find?_eq_none]
    intro j hj hc
    simp only [Bool.and_eq_true, decide_eq_true_eq] at hc
    rw [List.mem_range] at hj
    rcases h with h | h
    · have := hm.monotone (Nat.zero_le j); linarith [hc.1]
    · have := hm.monotone (show j + 1 ≤ nX + 1 by omega); linarith [hc.2]
  rw [this]

/-- Places not before the first place of the temperature grid: between the neighbours, or the last temperature beyond the end.  Missing from the full claim: before the first place the code returns the last temperature instead of the first (`left_gets_last`). -/
theorem interpolate_partial (nX : ℕ) (grid tg : ℕ → K) (hg : StrictMono tg) (T : ℕ → K) (xs xm k : ℕ) (hk : k < xm + 2) (h0 : loc tg 0 ≤ loc grid (xs + k)) :
    ∃ v, (interpolate nX grid tg T xs xm)[k]? = some v ∧
      ((loc tg (nX + 1) ≤ loc grid (xs + k) ∧ v = T (nX + 1)) ∨
        ∃ j ≤ nX, loc tg j ≤ loc grid (xs + k) ∧ loc grid (xs + k) < loc tg (j + 1) ∧ min (T j) (T (j + 1)) ≤ v ∧ v ≤ max (T j) (T (j + 1))) := by
  refine ⟨_, by unfold interpolate; rw [List.getElem?_map, List.getElem?_range hk, Option.map_some], ?_⟩
  by_cases hc : loc tg (nX + 1) ≤ loc grid (xs + k)
  · left; exact ⟨hc, interp_outside nX tg hg T _ _ (Or.inr hc)⟩
  · right
    obtain ⟨j, hj, a, b, c⟩ := interp_between nX tg hg T (T (nX + 1)) _ h0 (not_le.mp hc)
    exact ⟨j, hj, a, b, c⟩

/-- On identical grids nothing changes, ghosts included. -/
theorem interpolate_same (nX : ℕ) (grid : ℕ → K) (hg : StrictMono grid) (T : ℕ → K) (xs xm : ℕ) (hle : xs + xm ≤ nX) :
    interpolate nX grid grid T xs xm = (List.range (xm + 2)).map fun k => T (xs + k) := by
  unfold interpolate
  refine List.map_congr_left fun k hk => ?_
  rw [List.mem_range] at hk
  by_cases h : xs + k ≤ nX
  · exact interp_exact nX grid hg T _ _ h
  · rw [show xs + k = nX + 1 by omega]
    exact interp_outside nX grid hg T _ _ (Or.inr le_rfl)

/-- What a rank computes is its part of what a single rank computes. -/
theorem interpolate_independent (nX : ℕ) (grid tg : ℕ → K) (T : ℕ → K) (xs xm : ℕ) (hle : xs + xm ≤ nX) :
    interpolate nX grid tg T xs xm = ((interpolate nX grid tg T 0 nX).drop xs).take (xm + 2) := by
  apply List.ext_getElem
  · simp [interpolate]; omega
  · intro k h1 h2
    simp [interpolate]

/-- Before the first place of the temperature grid the code returns the temperature at the other end. -/
theorem left_gets_last (nX : ℕ) (grid tg : ℕ → K) (hg : StrictMono tg) (T : ℕ → K) (xm : ℕ) (h : tg 1 - tg 0 < grid 1 - grid 0) :
    (interpolate nX grid tg T 0 xm)[0]? = some (T (nX + 1)) := by
  unfold interpolate
  rw [List.getElem?_map, List.getElem?_range (by omega), Option.map_some, Nat.zero_add]
  congr 1
  refine interp_outside nX tg hg T _ _ (Or.inl ?_)
  unfold loc; simp only [if_true]; linarith

/-- This happens with the temperature grid the code builds on every uniform grid of at least three points and every power above one (the default is 2.5): the left ghost receives the temperature of the right ghost. -/
theorem uniform_left_gets_last (hx power : ℝ) (n : ℕ) (hh : 0 < hx) (hp : 1 < power) (hn : 3 ≤ n) (T : ℕ → ℝ) (xm : ℕ) :
    let grid : ℕ → ℝ := fun i => i * hx
    (interpolate n grid (Grid.tempGrid (Grid.tempH (Grid.tempWidth grid (n + 2)) power (n + 2)) power) T 0 xm)[0]? = some (T (n + 1)) := by
  intro grid
  have hw : Grid.tempWidth grid (n + 2) = ((n : ℝ) - 3 / 2) * hx := by
    unfold Grid.tempWidth
    simp only [grid, show n + 2 - 3 = n - 1 by omega, show n + 2 - 2 = n by omega]
    rw [Nat.cast_sub (by omega)]; push_cast; ring
  have hpos : 0 < Grid.tempWidth grid (n + 2) := by
    rw [hw]
    have : (3 : ℝ) ≤ n := by exact_mod_cast hn
    exact mul_pos (by linarith) hh
  have hH := Grid.tempH_pos (Grid.tempWidth grid (n + 2)) power (n + 2) hpos (by omega)
  have hinc := Grid.tempGrid_increasing _ power hH (by linarith)
  refine left_gets_last n grid _ hinc.2 T xm ?_
  rw [hinc.1, sub_zero, hw]
  have := Grid.tempGrid_first hx power n hh hp hn
  simp only [grid]; push_cast; linarith

/-- When the temperature grid is rebuilt unchanged, the right ghost receives the temperature of its neighbour. -/
theorem regrid_last (nX : ℕ) (grid : ℕ → K) (hg : StrictMono grid) (T : ℕ → K) (xs xm : ℕ) (hle : xs + xm = nX) :
    (regrid nX grid grid T xs xm).length = xm + 2 ∧ (regrid nX grid grid T xs xm)[xm + 1]? = some (T nX) ∧ ∀ k ≤ xm, (regrid nX grid grid T xs xm)[k]? = some (T (xs + k)) := by
  unfold regrid
  refine ⟨by simp, ?_, ?_⟩
  · rw [List.getElem?_map, List.getElem?_range (by omega), Option.map_some, show xs + (xm + 1) = nX + 1 by omega]
    rw [interp_outside nX grid hg T _ _ (Or.inr le_rfl)]
  · intro k hk
    rw [List.getElem?_map, List.getElem?_range (by omega), Option.map_some, interp_exact nX grid hg T _ _ (by omega)]

example : interpolate 3 (fun i : ℕ => (i : ℚ)) (fun i : ℕ => (2 * i : ℚ)) (fun i : ℕ => (i * i : ℚ)) 0 3 = [1, 7 / 4, 13 / 4, 21 / 4, 31 / 4] := by decide +kernel

end Xolotl.Solver.TempTransfer
