import Mathlib.Tactic.Linarith
import Mathlib.Tactic.NormNum
import Mathlib.Tactic.Ring
import Verif.Solver.Depths
import Verif.Solver.TempTransfer

/-!
# Properties of the depths and of the temperature of trap mutation (C92)
-/

set_option linter.unusedSectionVars false

namespace Xolotl.Solver.Depths

open Xolotl.Network

variable {K : Type*} [Field K] [LinearOrder K] [IsStrictOrderedRing K]

/-- The index is that of the first depth greater than 0.01, the size if there is none. -/
theorem tempIndex_spec (d : List K) : (∀ j x, d[j]? = some x → j < tempIndex d → x ≤ 1 / 100) ∧ (∀ x, d[tempIndex d]? = some x → x > 1 / 100) ∧ tempIndex d ≤ d.length := by
  induction d with
  | nil => simp [tempIndex]
  | cons a d ih =>
    unfold tempIndex
    split
    · next h =>
      refine ⟨fun j x _ hj => absurd hj (Nat.not_lt_zero _), fun x hx => ?_, Nat.zero_le _⟩
      cases hx
      exact h
    · next h =>
      refine ⟨fun j x hx hj => ?_, fun x hx => ih.2.1 x hx, by simpa using ih.2.2⟩
      cases j with
      | zero => cases hx; exact not_lt.1 h
      | succ j => exact ih.1 j x hx (by omega)

theorem tempIndex_lt (d : List K) : tempIndex d < d.length ↔ ∃ x ∈ d, x > 1 / 100 := by
  constructor
  · intro h
    exact ⟨_, List.getElem_mem h, (tempIndex_spec d).2.1 _ (List.getElem?_eq_getElem h)⟩
  · rintro ⟨x, hx, h⟩
    by_contra hc
    obtain ⟨j, hj, rfl⟩ := List.getElem_of_mem hx
    exact absurd ((tempIndex_spec d).1 j _ (List.getElem?_eq_getElem hj) (by omega)) (not_le.2 h)

/-- A temperature is found exactly if some depth is greater than 0.01; otherwise the read is outside of the vector. -/
theorem defined_iff (temps d : List K) (h : temps.length = d.length) : (trapTemp temps d).isSome ↔ ∃ x ∈ d, x > 1 / 100 := by
  rw [trapTemp, ← tempIndex_lt, ← h, isSome_getElem?]

/-- Without trap mutation nothing happens. -/
theorem disabled (m : TmMaterial) (old) (temps d : List K) : update false m old temps d = some old := rfl

/-- Without dimension the only temperature is taken. -/
theorem zero_dimension (T : K) : trapTemp [T] (depths0 : List K) = some T := by
  have : (1 : K) > 1 / 100 := by norm_num
  rw [trapTemp, depths0, tempIndex, if_pos this]
  rfl

/-- Full claim violated: without solver the only depth is 0, and with trap mutation the temperature is read after the end of the vector. -/
theorem noSolve_outside (m : TmMaterial) (old) (T : K) : update true m old [T] (depthsNoSolve : List K) = none := by
  have : ¬(0 : K) > 1 / 100 := by norm_num
  rw [update, if_pos rfl, trapTemp, depthsNoSolve, tempIndex, if_neg this]
  rfl

/-! ### The depths of a rank -/

theorem length_depths (nX : ℕ) (grid : ℕ → K) (surf xs xm : ℕ) : (depths nX grid surf xs xm).length = xm + 2 := by simp [depths]

theorem depths_get (nX : ℕ) (grid : ℕ → K) (surf xs xm i : ℕ) (h : i < xm + 2) : (depths nX grid surf xs xm)[i]? = some (depth nX grid surf (xs + i)) := by simp [depths, h]

/-- The grid is read at existing places only. -/
theorem in_grid (nX : ℕ) (g g' : ℕ → K) (surf xs xm : ℕ) (hr : xs + xm ≤ nX) (hs : surf ≤ nX) (h : ∀ i ≤ nX + 1, g i = g' i) : depths nX g surf xs xm = depths nX g' surf xs xm := by
  apply List.map_congr_left
  intro i hi
  have hi := List.mem_range.1 hi
  unfold depth
  split
  · rw [h (xs + i) (by omega), h (surf + 1) (by omega)]
  · rw [h (xs + i) (by omega), h (xs + i + 1) (by omega), h (surf + 1) (by omega)]

theorem depth_mono (nX : ℕ) (grid : ℕ → K) (surf : ℕ) (hg : ∀ i j, i ≤ j → grid i ≤ grid j) (k l : ℕ) (h : k ≤ l) (hl : l ≤ nX + 1) : depth nX grid surf k ≤ depth nX grid surf l := by
  unfold depth
  have h1 := hg k l h
  have h2 := hg (k + 1) (l + 1) (by omega)
  rcases Nat.lt_or_ge k (nX + 1) with h3 | h3
  · rw [if_neg (by omega)]
    split
    · have h4 := hg (k + 1) l (by omega)
      linarith
    · linarith
  · have : k = l := by omega
    subst this
    exact le_refl _

/-- A rank finds a temperature exactly if its last depth is greater than 0.01. -/
theorem defined_last (nX : ℕ) (grid : ℕ → K) (surf xs xm : ℕ) (temps : List K) (hg : ∀ i j, i ≤ j → grid i ≤ grid j) (hr : xs + xm ≤ nX) (ht : temps.length = xm + 2) :
    (trapTemp temps (depths nX grid surf xs xm)).isSome ↔ depth nX grid surf (xs + xm + 1) > 1 / 100 := by
  rw [defined_iff _ _ (ht.trans (length_depths ..).symm)]
  constructor
  · rintro ⟨x, hx, h⟩
    obtain ⟨i, hi, rfl⟩ := List.mem_map.1 hx
    have hi := List.mem_range.1 hi
    exact lt_of_lt_of_le h (depth_mono nX grid surf hg _ _ (by omega) (by omega))
  · intro h
    exact ⟨_, List.mem_map.2 ⟨xm + 1, List.mem_range.2 (by omega), rfl⟩, h⟩

/-- Full claim violated: a rank that lies above the surface reads after the end. -/
theorem vacuum_outside (nX : ℕ) (grid : ℕ → K) (surf xs xm : ℕ) (temps : List K) (m : TmMaterial) (old) (hg : ∀ i j, i ≤ j → grid i ≤ grid j) (hr : xs + xm ≤ nX) (ht : temps.length = xm + 2)
    (hs : xs + xm + 1 ≤ surf) : update true m old temps (depths nX grid surf xs xm) = none := by
  have h1 : ¬(trapTemp temps (depths nX grid surf xs xm)).isSome := by
    rw [defined_last nX grid surf xs xm temps hg hr ht]
    have h2 := hg (xs + xm + 1) (surf + 1) (by omega)
    have h3 := hg (xs + xm + 1 + 1) (surf + 1) (by omega)
    have h4 : (0 : K) < 1 / 100 := by norm_num
    unfold depth
    split <;> · rw [gt_iff_lt, not_lt]; linarith
  have h5 : trapTemp temps (depths nX grid surf xs xm) = none := by simpa using h1
  simp [update, h5]

/-- The rank with the surface takes its second entry, the temperature of the first grid point. -/
theorem first_rank (nX : ℕ) (grid : ℕ → K) (xm : ℕ) (temps : List K) (h0 : grid 0 ≤ grid 1) (h1 : (grid 2 - grid 1) / 2 > 1 / 100) (hx : 1 ≤ nX) :
    trapTemp temps (depths nX grid 0 0 xm) = temps[1]? := by
  have hd : depths nX grid 0 0 xm = depth nX grid 0 0 :: depth nX grid 0 1 :: (List.range xm).map fun i => depth nX grid 0 (i + 2) := by
    unfold depths
    rw [List.range_succ_eq_map, List.range_succ_eq_map]
    simp [Function.comp_def]
  have a : ¬depth nX grid 0 0 > 1 / 100 := by
    have h4 : (0 : K) < 1 / 100 := by norm_num
    rw [depth, if_neg (by omega), gt_iff_lt, not_lt]
    simp only [Nat.zero_add]
    linarith
  have b : depth nX grid 0 1 > 1 / 100 := by
    rw [depth, if_neg (by omega)]
    simp only [Nat.zero_add, Nat.reduceAdd]
    linarith
  rw [trapTemp, hd, tempIndex, if_neg a, tempIndex, if_pos b]

/-- Every other rank takes its first entry, the temperature of its neighbour's last grid point. -/
theorem later_rank (nX : ℕ) (grid : ℕ → K) (xs xm : ℕ) (temps : List K) (h : depth nX grid 0 xs > 1 / 100) : trapTemp temps (depths nX grid 0 xs xm) = temps[0]? := by
  have hd : depths nX grid 0 xs xm = depth nX grid 0 xs :: (List.range (xm + 1)).map fun i => depth nX grid 0 (xs + (i + 1)) := by
    unfold depths
    rw [List.range_succ_eq_map]
    simp [Function.comp_def]
  rw [trapTemp, hd, tempIndex, if_pos h]

/-- The depth given for an entry of the temperatures is the place that `interpolateTemperature` uses for the next entry. -/
theorem shifted (nX : ℕ) (grid : ℕ → K) (k : ℕ) (h : k ≤ nX) : depth nX grid 0 k = TempTransfer.loc grid (k + 1) := by
  rw [depth, if_neg (by omega), TempTransfer.loc, if_neg (by omega), Nat.add_sub_cancel]
  ring

/-- So it is greater than the place of its own entry. -/
theorem shifted_lt (nX : ℕ) (grid : ℕ → K) (hg : ∀ i, grid i < grid (i + 1)) (k : ℕ) (h : k ≤ nX + 1) : TempTransfer.loc grid k < depth nX grid 0 k := by
  cases k with
  | zero =>
    rw [shifted nX grid 0 (by omega)]
    simp only [TempTransfer.loc]
    have := hg 0
    simp
    linarith
  | succ k =>
    rw [TempTransfer.loc, if_neg (by omega), depth]
    have h1 := hg k
    have h2 := hg (k + 1)
    split
    · simp only [Nat.add_sub_cancel, Nat.zero_add]
      linarith
    · simp only [Nat.add_sub_cancel, Nat.zero_add]
      linarith

/-- Another position of the surface moves all depths by the distance; in two and three dimensions the position of the first line of the rank is used for all its lines. -/
theorem line_offset (nX : ℕ) (grid : ℕ → K) (s s' k : ℕ) : depth nX grid s k - depth nX grid s' k = grid (s' + 1) - grid (s + 1) := by
  unfold depth
  split <;> ring

/-! ### Ranks -/

/-- If all temperatures are on one side of 1066.5, every rank that finds one has the same tables. -/
theorem agree (m : TmMaterial) (old) (cold : Bool) (temps temps' d d' : List K) (h : ∀ T ∈ temps, decide (T < 2133 / 2) = cold) (h' : ∀ T ∈ temps', decide (T < 2133 / 2) = cold)
    (hd : temps.length = d.length) (hd' : temps'.length = d'.length) (hx : ∃ x ∈ d, x > 1 / 100) (hx' : ∃ x ∈ d', x > 1 / 100) :
    update true m old temps d = some (m.table cold) ∧ update true m old temps' d' = some (m.table cold) := by
  have key : ∀ t d : List K, (∀ T ∈ t, decide (T < 2133 / 2) = cold) → t.length = d.length → (∃ x ∈ d, x > 1 / 100) → update true m old t d = some (m.table cold) := by
    intro t d h hd hx
    obtain ⟨T, hT⟩ := Option.isSome_iff_exists.1 ((defined_iff t d hd).2 hx)
    have := h T (List.mem_of_getElem? hT)
    simp [update, hT, TmMaterial.updateData, this]
  exact ⟨key _ _ h hd hx, key _ _ h' hd' hx'⟩

/-- The temperatures of a rank: two more than its grid points, the neighbours' at both ends. -/
def rankTemps (T : ℕ → K) (xs xm : ℕ) : List K := (List.range (xm + 2)).map fun i => T (xs + i)

/-- Full claim violated: the tables at a grid point depend on how the grid is divided.  Grid with spacing 0.5 nm, the temperature falls below 1066.5 K at the second grid point: on one rank the grid points have the tables
of the hot material, on two ranks those from the third on have the tables of the cold one. -/
theorem ranks_differ : ∃ (nX : ℕ) (grid T : ℕ → ℚ) (x : ℕ), ∀ old,
    update true .w100 old (rankTemps T 0 nX) (depths nX grid 0 0 nX) = some (TmMaterial.w100.table false) ∧
    update true .w100 old (rankTemps T 0 x) (depths nX grid 0 0 x) = some (TmMaterial.w100.table false) ∧
    update true .w100 old (rankTemps T x (nX - x)) (depths nX grid 0 x (nX - x)) = some (TmMaterial.w100.table true) ∧ TmMaterial.w100.table false ≠ TmMaterial.w100.table true := by
  refine ⟨6, fun i => i / 2, fun i => if i < 2 then 1067 else 1066, 2, fun old => ?_⟩
  refine ⟨?_, ?_, ?_, ?_⟩
  · rw [update, if_pos rfl, first_rank _ _ _ _ (by norm_num) (by norm_num) (by norm_num)]
    simp [rankTemps, TmMaterial.updateData]
    norm_num
  · rw [update, if_pos rfl, first_rank _ _ _ _ (by norm_num) (by norm_num) (by norm_num)]
    simp [rankTemps, TmMaterial.updateData]
    norm_num
  · rw [update, if_pos rfl, later_rank _ _ _ _ _ (by simp only [depth]; norm_num)]
    simp [rankTemps, TmMaterial.updateData]
    norm_num
  · intro h
    have : (4 / 100 : ℚ) = 19 / 100 := (congrArg (fun t => t.2.2.2) h).symm
    norm_num at this

/-! ### Examples -/

/-- The hypotheses hold of a grid with three points. -/
example : let grid : ℕ → ℚ := fun i => i
    trapTemp [900, 901, 902, 903, 904] (depths 3 grid 0 0 3) = some 901 := by
  intro grid
  rw [first_rank 3 grid 3 _ (by norm_num [grid]) (by norm_num [grid]) (by norm_num)]
  rfl

/-- A rank with two grid points above a surface at 5. -/
example : let grid : ℕ → ℚ := fun i => i
    update true .w111 (TmMaterial.w111.table true) [900, 900, 900, 900] (depths 9 grid 5 0 2) = none := by
  intro grid
  exact vacuum_outside 9 grid 5 0 2 _ _ _ (fun i j h => by simp only [grid]; exact_mod_cast h) (by norm_num) rfl (by norm_num)

end Xolotl.Solver.Depths
