import Verif.Util.Interp
import Mathlib.Tactic.IntervalCases

/-!
# Properties of the tabulated profiles (C24)
-/

set_option linter.unusedSectionVars false

namespace Xolotl.Util.Interp

variable {K : Type*} [Field K] [LinearOrder K] [IsStrictOrderedRing K]

/-- The times are in order, repetitions allowed. -/
def Sorted (time : List K) : Prop := ∀ i j (hj : j < time.length) (hij : i ≤ j), time[i] ≤ time[j]

/-- The loop, from turn `k` on, finds the first interval containing the time. -/
theorem search_spec (time vals : List K) (t : K) (hl : time.length = vals.length) :
    ∀ fuel k j, k ≤ j → j < k + fuel → k + fuel + 1 ≤ time.length → ∀ (hj : j + 1 < time.length),
      (∀ i, (hi : i < j) → k ≤ i → t < time[i] ∨ time[i + 1] < t) →
      time[j] ≤ t → t ≤ time[j + 1] →
      search time vals t fuel k = linear time[j] time[j + 1] (vals[j]'(by omega)) (vals[j + 1]'(by omega)) t := by
  intro fuel
  induction fuel with
  | zero => intro k j h1 h2; omega
  | succ fuel ih =>
    intro k j h1 h2 h3 hj hfirst hlo hhi
    have hk0 : k < time.length := by omega
    have hk1 : k + 1 < time.length := by omega
    simp only [search, List.getElem?_eq_getElem hk0, List.getElem?_eq_getElem hk1]
    rcases Nat.lt_or_ge k j with h | h
    · have step : search time vals t fuel (k + 1) = _ :=
        ih (k + 1) j (by omega) (by omega) (by omega) hj (fun i hi hki => hfirst i hi (by omega)) hlo hhi
      rcases hfirst k h le_rfl with a | a
      · rw [if_pos a, step]
      · by_cases b : t < time[k]
        · rw [if_pos b, step]
        · rw [if_neg b, if_pos a, step]
    · obtain rfl : k = j := by omega
      rw [if_neg (not_lt.mpr hlo), if_neg (not_lt.mpr hhi), List.getElem?_eq_getElem (hl ▸ hk0), List.getElem?_eq_getElem (hl ▸ hk1)]

/-- Any time strictly inside the table lies in a first interval, and that interval has positive width. -/
theorem first_interval (time : List K) (t : K) (h0 : 0 < time.length) (hlo : time[0] < t)
    (hhi : t < time[time.length - 1]) :
    ∃ j, ∃ hj : j + 1 < time.length, time[j] < t ∧ t ≤ time[j + 1] ∧
      ∀ i, (hi : i < j) → t < time[i] ∨ time[i + 1] < t := by
  have hex : ∃ j, ∃ hj : j < time.length, t ≤ time[j] := ⟨time.length - 1, by omega, hhi.le⟩
  classical
  obtain ⟨hm, hmt⟩ := Nat.find_spec hex
  have hmin := fun i => Nat.find_min (m := i) hex
  generalize Nat.find hex = m at *
  have hlow : ∀ i, i < m → ∀ hi : i < time.length, time[i] < t := fun i h hi =>
    not_le.mp fun hle => hmin i h ⟨hi, hle⟩
  cases m with
  | zero => exact absurd hmt (not_le.mpr hlo)
  | succ j => exact ⟨j, hm, hlow j (by omega) (by omega), hmt, fun i hi => Or.inr (hlow (i + 1) (by omega) (by omega))⟩

/-- **C24, inside.** At any time strictly between the first and the last stored time the value is the linear interpolation on an interval of positive width that contains the time: nothing is read outside the vectors and nothing is divided by zero.  Times may be repeated, and need not even be in order. -/
theorem inside (time vals : List K) (hl : time.length = vals.length) (t : K) (h0 : 0 < time.length)
    (hlo : time[0] < t) (hhi : t < time[time.length - 1]) :
    ∃ j, ∃ hj : j + 1 < time.length, time[j] < t ∧ t ≤ time[j + 1] ∧
      interp time vals t = some (vals[j]'(by omega) + (vals[j + 1]'(by omega) - vals[j]'(by omega)) * (t - time[j]) / (time[j + 1] - time[j])) := by
  obtain ⟨j, hj, h1, h2, hf⟩ := first_interval time t h0 hlo hhi
  refine ⟨j, hj, h1, h2, ?_⟩
  have hl' : time.length - 1 < time.length := by omega
  simp only [interp, List.getElem?_eq_getElem h0, List.getElem?_eq_getElem hl']
  rw [if_neg (not_le.mpr hlo), if_neg (not_le.mpr hhi),
    search_spec time vals t hl (time.length - 1) 0 j (by omega) (by omega) (by omega) hj (fun i hi _ => hf i hi) h1.le h2, linear, if_neg]
  exact sub_ne_zero.mpr (lt_of_lt_of_le h1 h2).ne'

/-- **C24, before the table.** Up to the first stored time the first value is returned. -/
theorem before (time vals : List K) (hl : time.length = vals.length) (t : K) (h0 : 0 < time.length) (h : t ≤ time[0]) :
    interp time vals t = some (vals[0]'(by omega)) := by
  have hl' : time.length - 1 < time.length := by omega
  simp only [interp, List.getElem?_eq_getElem h0, List.getElem?_eq_getElem hl']
  rw [if_pos h, List.getElem?_eq_getElem (by omega)]

/-- **C24, after the table.** From the last stored time on the last value is returned (for a table with one entry this agrees with the first value). -/
theorem after (time vals : List K) (hl : time.length = vals.length) (t : K) (h0 : 0 < time.length)
    (h : time[time.length - 1] ≤ t) (h1 : time[0] < t ∨ time.length = 1) :
    interp time vals t = some (vals[vals.length - 1]'(by omega)) := by
  have hl' : time.length - 1 < time.length := by omega
  simp only [interp, List.getElem?_eq_getElem h0, List.getElem?_eq_getElem hl']
  by_cases c : t ≤ time[0]
  · have : time.length = 1 := h1.resolve_left (not_lt.mpr c)
    rw [if_pos c, List.getElem?_eq_getElem (by omega)]
    congr 2; omega
  · rw [if_neg c, if_pos h, List.getElem?_eq_getElem (by omega)]
    congr 2; omega

/-- **C24, defined everywhere.** A non-empty table has a value at every time; the times may be repeated or out of order. -/
theorem defined (time vals : List K) (hl : time.length = vals.length) (t : K) (h0 : 0 < time.length) :
    ∃ v, interp time vals t = some v := by
  by_cases c : t ≤ time[0]
  · exact ⟨_, before time vals hl t h0 c⟩
  · by_cases d : time[time.length - 1] ≤ t
    · exact ⟨_, after time vals hl t h0 d (Or.inl (not_le.mp c))⟩
    · obtain ⟨j, hj, -, -, e⟩ := inside time vals hl t h0 (not_le.mp c) (not_le.mp d)
      exact ⟨_, e⟩

/-- **C24, exact at the stored times** when these are strictly increasing. -/
theorem exact_at (time vals : List K) (hl : time.length = vals.length)
    (hs : ∀ i j (hj : j < time.length) (hij : i < j), time[i] < time[j]) (k : ℕ) (hk : k < time.length) :
    interp time vals time[k] = some (vals[k]'(by omega)) := by
  have hs' : Sorted time := fun i j hj hij => by
    rcases Nat.lt_or_ge i j with h | h
    · exact (hs i j hj h).le
    · obtain rfl : i = j := by omega
      exact le_rfl
  by_cases c : time[k] ≤ time[0]
  · have : k = 0 := by
      by_contra hne
      exact absurd (hs 0 k hk (by omega)) (not_lt.mpr c)
    subst this
    exact before time vals hl _ hk le_rfl
  by_cases d : time[time.length - 1] ≤ time[k]
  · have : k = time.length - 1 := by
      by_contra hne
      exact absurd (hs k (time.length - 1) (by omega) (by omega)) (not_lt.mpr d)
    rw [after time vals hl _ (by omega) d (Or.inl (not_le.mp c))]
    congr 2; omega
  · obtain ⟨j, hj, h1, h2, e⟩ := inside time vals hl _ (by omega) (not_le.mp c) (not_le.mp d)
    have hjk : j < k := by
      by_contra hc
      exact absurd h1 (not_lt.mpr (hs' k j (by omega) (by omega)))
    have hkj : k ≤ j + 1 := by
      by_contra hc
      exact absurd h2 (not_le.mpr (hs (j + 1) k hk (by omega)))
    obtain rfl : k = j + 1 := by omega
    rw [e]
    have hne : time[j + 1] - time[j] ≠ 0 := sub_ne_zero.mpr h1.ne'
    congr 1
    field_simp
    ring

/-- **C24, linear between neighbours.** On every interval of positive width of a strictly increasing table the value is the straight line through the two stored points, at the ends of the interval included. -/
theorem linear_between (time vals : List K) (hl : time.length = vals.length)
    (hs : ∀ i j (hj : j < time.length) (hij : i < j), time[i] < time[j]) (k : ℕ) (hk : k + 1 < time.length) (t : K)
    (h1 : time[k] ≤ t) (h2 : t ≤ time[k + 1]) :
    interp time vals t = some (vals[k]'(by omega) + (vals[k + 1]'(by omega) - vals[k]'(by omega)) * (t - time[k]) / (time[k + 1] - time[k])) := by
  have hw : time[k + 1] - time[k] ≠ 0 := sub_ne_zero.mpr (hs k (k + 1) hk (by omega)).ne'
  rcases h1.lt_or_eq with h1 | rfl
  · rcases h2.lt_or_eq with h2 | rfl
    · have hs' : Sorted time := fun i j hj hij => by
        rcases Nat.lt_or_ge i j with h | h
        · exact (hs i j hj h).le
        · obtain rfl : i = j := by omega
          exact le_rfl
      obtain ⟨j, hj, a, b, e⟩ := inside time vals hl t (by omega)
        (lt_of_le_of_lt (hs' 0 k (by omega) (by omega)) h1) (lt_of_lt_of_le h2 (hs' (k + 1) (time.length - 1) (by omega) (by omega)))
      have e1 : j < k + 1 := by
        by_contra hc
        exact absurd (h2.trans_le (hs' (k + 1) j (by omega) (by omega))) (not_lt.mpr a.le)
      have e2 : k < j + 1 := by
        by_contra hc
        exact absurd (h1.trans_le b) (not_lt.mpr (hs' (j + 1) k (by omega) (by omega)))
      obtain rfl : j = k := by omega
      exact e
    · rw [exact_at time vals hl hs (k + 1) hk]
      congr 1; field_simp; ring
  · rw [exact_at time vals hl hs k (by omega)]
    simp

/-- A value on a segment lies between the values at its ends. -/
theorem line_between {t0 t1 v0 v1 t : K} (hw : t0 < t1) (h0 : t0 ≤ t) (h1 : t ≤ t1) :
    min v0 v1 ≤ v0 + (v1 - v0) * (t - t0) / (t1 - t0) ∧ v0 + (v1 - v0) * (t - t0) / (t1 - t0) ≤ max v0 v1 := by
  have hp : 0 < t1 - t0 := sub_pos.mpr hw
  have ha : 0 ≤ (t - t0) / (t1 - t0) := div_nonneg (sub_nonneg.mpr h0) hp.le
  have hb : (t - t0) / (t1 - t0) ≤ 1 := (div_le_one hp).mpr (by linarith)
  rw [mul_div_assoc]
  generalize (t - t0) / (t1 - t0) = s at ha hb
  rcases le_total v0 v1 with h | h
  · rw [min_eq_left h, max_eq_right h]
    constructor <;> nlinarith
  · rw [min_eq_right h, max_eq_left h]
    constructor <;> nlinarith

/-- **C24, bounded by the table.** Every value returned lies between two stored values, hence within any bounds that hold for the table. -/
theorem within (time vals : List K) (hl : time.length = vals.length) (t : K) (h0 : 0 < time.length)
    (lo hi : K) (hlo : ∀ v ∈ vals, lo ≤ v) (hhi : ∀ v ∈ vals, v ≤ hi) :
    ∃ v, interp time vals t = some v ∧ lo ≤ v ∧ v ≤ hi := by
  by_cases c : t ≤ time[0]
  · exact ⟨_, before time vals hl t h0 c, hlo _ (List.getElem_mem _), hhi _ (List.getElem_mem _)⟩
  · by_cases d : time[time.length - 1] ≤ t
    · exact ⟨_, after time vals hl t h0 d (Or.inl (not_le.mp c)), hlo _ (List.getElem_mem _), hhi _ (List.getElem_mem _)⟩
    · obtain ⟨j, hj, h1, h2, e⟩ := inside time vals hl t h0 (not_le.mp c) (not_le.mp d)
      obtain ⟨a, b⟩ := line_between (v0 := vals[j]'(by omega)) (v1 := vals[j + 1]'(by omega)) (lt_of_lt_of_le h1 h2) h1.le h2
      exact ⟨_, e, (le_min (hlo _ (List.getElem_mem _)) (hlo _ (List.getElem_mem _))).trans a,
        b.trans (max_le (hhi _ (List.getElem_mem _)) (hhi _ (List.getElem_mem _)))⟩

/-- **C24, what an empty table does.** With no stored time the first read is already outside the vector: a profile file that is missing or has only comments leads to undefined behaviour. -/
theorem empty_undefined (vals : List K) (t : K) : interp ([] : List K) vals t = none := rfl

/-- **C24, values lost.** With the times kept and the values cleared, as `CustomFitFluxHandler::initializeFluxHandler` does (xolotl/core/include/xolotl/core/flux/CustomFitFluxHandler.h:101), every time from the first stored time backwards, from the last one on, or strictly inside reads outside the vector. -/
theorem cleared_undefined (time : List K) (t : K) : interp time [] t = none := by
  rcases Nat.eq_zero_or_pos time.length with h | h0
  · rw [List.eq_nil_of_length_eq_zero h]; rfl
  have hl' : time.length - 1 < time.length := by omega
  simp only [interp, List.getElem?_eq_getElem h0, List.getElem?_eq_getElem hl']
  by_cases c : t ≤ time[0]
  · rw [if_pos c]; rfl
  by_cases d : time[time.length - 1] ≤ t
  · rw [if_neg c, if_pos d]; rfl
  rw [if_neg c, if_neg d]
  obtain ⟨j, hj, h1, h2, -⟩ := first_interval time t h0 (not_le.mp c) (not_le.mp d)
  have key : ∀ fuel k, k ≤ j → j < k + fuel → k + fuel + 1 ≤ time.length → search time [] t fuel k = none := by
    intro fuel
    induction fuel with
    | zero => intro k a b; omega
    | succ fuel ih =>
      intro k a b hb
      have hk0 : k < time.length := by omega
      have hk1 : k + 1 < time.length := by omega
      simp only [search, List.getElem?_eq_getElem hk0, List.getElem?_eq_getElem hk1]
      by_cases e : k = j
      · subst e
        rw [if_neg (not_lt.mpr h1.le), if_neg (not_lt.mpr h2)]
        rfl
      · have r := ih (k + 1) (by omega) (by omega) (by omega)
        split_ifs
        · exact r
        · exact r
        · rfl
  exact key _ 0 (by omega) (by omega) (by omega)

example : interp [(0 : ℚ), 1, 1, 3] [2, 4, 6, 10] (1 / 2) = some 3 ∧ interp [(0 : ℚ), 1, 1, 3] [2, 4, 6, 10] 1 = some 4 ∧
    interp [(0 : ℚ), 1, 1, 3] [2, 4, 6, 10] 2 = some 8 ∧ interp [(0 : ℚ), 1, 1, 3] [2, 4, 6, 10] 7 = some 10 ∧
    interp [(0 : ℚ), 1, 1, 3] [2, 4, 6, 10] (-7) = some 2 := by decide +kernel

example : ∃ v, interp [(0 : ℚ), 3, 3, 1, 5] [1, 2, 0, 4, 1] 2 = some v ∧ 0 ≤ v ∧ v ≤ 4 :=
  within [(0 : ℚ), 3, 3, 1, 5] [1, 2, 0, 4, 1] rfl 2 (by decide) 0 4 (by decide +kernel) (by decide +kernel)

example : interp [(0 : ℚ), 1, 3] [2, 4, 10] 2 = some 7 := by
  have h := linear_between [(0 : ℚ), 1, 3] [2, 4, 10] rfl (fun i j hj hij => by
    have h3 : j < 3 := hj
    interval_cases j <;> interval_cases i <;> simp) 1 (by decide) 2 (by simp) (by simp; norm_num)
  rw [h]; norm_num

end Xolotl.Util.Interp
