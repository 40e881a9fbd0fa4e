import Mathlib.Tactic.Linarith
import Mathlib.Tactic.NormNum
import Mathlib.Tactic.FinCases
import Mathlib.Analysis.SpecialFunctions.Exp
import Verif.Solver.Lines
import Verif.Solver.MoveProps
import Verif.Solver.SweepProps

/-!
# Properties of the lines of the two- and three-dimensional solvers
-/

set_option linter.unusedSectionVars false

namespace Xolotl.Solver.Lines

open Xolotl.Solver.Sweep Xolotl.Solver.Move

variable {K : Type*} [Field K] [LinearOrder K] [IsStrictOrderedRing K] {L : Type*} [DecidableEq L]

/-! ### Attenuation -/

/-- The helium near the surface of a line: the sum over its points under the surface, at most 2 nm deep, outside the offsets. -/
def trapped (G : Geometry K L) (c : L → ℕ → K) (y : L) : K :=
  ∑ x ∈ (Finset.range (G.nX - G.right)).filter (fun x => G.surf y + G.left ≤ x ∧ (G.grid x + G.grid (x + 1)) / 2 ≤ G.grid (G.surf y + 1) + 2), c y x * (G.grid (x + 1) - G.grid x)

theorem foldl_sum (l : List ℕ) (far here : ℕ → Prop) [DecidablePred far] [DecidablePred here] (f : ℕ → K) (a : K) :
    l.foldl (fun a x => if far x then a else if here x then a + f x else a) a = a + (l.map fun x => if ¬ far x ∧ here x then f x else 0).sum := by
  induction l generalizing a with
  | nil => simp
  | cons x l ih =>
    rw [List.foldl_cons, ih, List.map_cons, List.sum_cons]
    by_cases h1 : far x
    · simp [h1]
    · by_cases h2 : here x
      · simp [h1, h2]; ring
      · simp [h1, h2]

/-- The loop is the sum over the points under the surface that are near and pass the test. -/
theorem collect_eq (G : Geometry K L) (here : ℕ → Bool) (c : ℕ → K) (y : L) :
    collect G here c y = ∑ x ∈ (Finset.range (G.nX - G.right)).filter (fun x => G.surf y + G.left ≤ x ∧ (G.grid x + G.grid (x + 1)) / 2 ≤ G.grid (G.surf y + 1) + 2),
      if here x = true then c x * (G.grid (x + 1) - G.grid x) else 0 := by
  unfold collect
  rw [foldl_sum (K := K) _ (fun x => (G.grid x + G.grid (x + 1)) / 2 - G.grid (G.surf y + 1) > 2) (fun x => here x = true) (fun x => c x * (G.grid (x + 1) - G.grid x)), zero_add]
  have h1 : ∀ (f : ℕ → K) (n a : ℕ), ((List.range' a n).map f).sum = ∑ x ∈ (Finset.range (a + n)).filter (fun x => a ≤ x), f x := by
    intro f n
    induction n with
    | zero => intro a; rw [Finset.sum_eq_zero]; · simp
              intro x hx; simp at hx; omega
    | succ n ih =>
      intro a
      rw [List.range'_concat, List.map_append, List.sum_append, ih, ← Nat.add_assoc, Finset.range_add_one, Finset.filter_insert, if_pos (by omega), Finset.sum_insert (by simp)]
      simp [add_comm]
  rw [h1]
  by_cases h : G.surf y + G.left ≤ G.nX - G.right
  · rw [Nat.add_sub_cancel' h, Finset.sum_filter, Finset.sum_filter]
    apply Finset.sum_congr rfl
    intro x _
    by_cases ha : G.surf y + G.left ≤ x
    · by_cases hb : (G.grid x + G.grid (x + 1)) / 2 ≤ G.grid (G.surf y + 1) + 2
      · have : ¬ ((G.grid x + G.grid (x + 1)) / 2 - G.grid (G.surf y + 1) > 2) := by push Not; linarith
        simp only [ha, hb, this]; simp
      · have : (G.grid x + G.grid (x + 1)) / 2 - G.grid (G.surf y + 1) > 2 := by push Not at hb; linarith
        simp only [ha, hb, this]; simp
    · simp only [ha]; simp
  · rw [Finset.sum_eq_zero, Finset.sum_eq_zero]
    · intro x hx; simp at hx; omega
    · intro x hx; simp at hx; omega

theorem sum_owners {np : ℕ} (own : Fin np → ℕ → Prop) [∀ r, DecidablePred (own r)] (s : Finset ℕ) (f : ℕ → K) (h : ∀ x ∈ s, ∃! r, own r x) :
    ∑ r, ∑ x ∈ s, (if own r x then f x else 0) = ∑ x ∈ s, f x := by
  rw [Finset.sum_comm]
  apply Finset.sum_congr rfl
  intro x hx
  obtain ⟨r, hr, hu⟩ := h x hx
  rw [Finset.sum_eq_single r]
  · rw [if_pos hr]
  · intro q _ hq; exact if_neg fun h => hq (hu q h)
  · intro h; exact absurd (Finset.mem_univ r) h

/-- Right hand side: if every point belongs to exactly one process, all processes know the helium near the surface of every line, however the points are divided. -/
theorem flux_trapped (G : Geometry K L) (c : L → ℕ → K) {np : ℕ} (ps : Fin np → Proc L) (h : ∀ y ∈ G.inner, ∀ x < G.nX, ∃! r, (ps r).xs ≤ x ∧ x < (ps r).xs + (ps r).xm ∧ y ∈ (ps r).lines) :
    totalsF G c ps = G.inner.map (trapped G c) := by
  unfold totalsF
  apply List.map_congr_left
  intro y hy
  unfold trapped
  rw [← sum_owners (fun r x => (ps r).xs ≤ x ∧ x < (ps r).xs + (ps r).xm ∧ y ∈ (ps r).lines)]
  · apply Finset.sum_congr rfl
    intro r _
    unfold shareF
    rw [collect_eq]
    apply Finset.sum_congr rfl
    intro x _
    simp
  · intro x hx
    simp only [Finset.mem_filter, Finset.mem_range] at hx
    exact h y hy x (by omega)

/-- Jacobian: the same if the processes divide the lines among each other only along the first direction. -/
theorem jacobian_trapped (G : Geometry K L) (c : L → ℕ → K) {n : ℕ} (ps : Fin (n + 1) → Proc L) (ls : List L) (hls : ∀ r, (ps r).lines = ls) (h : ∀ x < G.nX, ∃! r, (ps r).xs ≤ x ∧ x < (ps r).xs + (ps r).xm) :
    totalsJ G c ps = some (ls.map fun y => if y ∈ G.inner then trapped G c y else 0) := by
  unfold totalsJ
  simp only [hls, implies_true, if_true]
  congr 1
  apply List.ext_getElem (by simp)
  intro k h1 h2
  have hk : k < ls.length := by simpa using h1
  simp only [List.getElem_map, List.getElem_range, List.getElem?_eq_getElem hk, Option.map_some, Option.getD_some]
  by_cases hy : ls[k] ∈ G.inner
  · rw [if_pos hy]
    unfold trapped
    rw [← sum_owners (fun r x => (ps r).xs ≤ x ∧ x < (ps r).xs + (ps r).xm)]
    · apply Finset.sum_congr rfl
      intro r _
      unfold shareJ
      rw [collect_eq]
      apply Finset.sum_congr rfl
      intro x _
      simp [hy]
    · intro x hx
      simp only [Finset.mem_filter, Finset.mem_range] at hx
      exact h x (by omega)
  · rw [if_neg hy, Finset.sum_eq_zero]
    intro r _
    unfold shareJ
    rw [collect_eq, Finset.sum_eq_zero]
    intro x _
    simp [hy]

/-- So right hand side and Jacobian then agree on the inner lines. -/
theorem consistent_partial (G : Geometry K L) (c : L → ℕ → K) {n : ℕ} (ps : Fin (n + 1) → Proc L) (hls : ∀ r, (ps r).lines = G.inner) (h : ∀ x < G.nX, ∃! r, (ps r).xs ≤ x ∧ x < (ps r).xs + (ps r).xm) :
    totalsJ G c ps = some (totalsF G c ps) := by
  rw [jacobian_trapped G c ps G.inner hls h, flux_trapped]
  · congr 1; apply List.map_congr_left; intro y hy; rw [if_pos hy]
  · intro y hy x hx
    obtain ⟨r, hr, hu⟩ := h x hx
    exact ⟨r, ⟨hr.1, hr.2, by rw [hls]; exact hy⟩, fun q hq => hu q ⟨hq.1, hq.2.1⟩⟩

/-- If every process owns whole lines, the same number of them, each line gets the helium of the lines with the same local number on all processes. -/
theorem jacobian_mixes (G : Geometry K L) (c : L → ℕ → K) {n : ℕ} (ps : Fin (n + 1) → Proc L) (m : ℕ) (hm : ∀ r, (ps r).lines.length = m) (hin : ∀ r, ∀ y ∈ (ps r).lines, y ∈ G.inner)
    (h : ∀ r, (ps r).xs = 0 ∧ (ps r).xm = G.nX) :
    ∃ t, totalsJ G c ps = some t ∧ t.length = m ∧ ∀ k < m, ∃ ys : Fin (n + 1) → L, (∀ r, (ps r).lines[k]? = some (ys r)) ∧ t[k]? = some (∑ r, trapped G c (ys r)) := by
  refine ⟨(List.range m).map fun k => ∑ r : Fin (n + 1), ((ps r).lines[k]?.map (shareJ G c (ps r))).getD 0, ?_, ?_, ?_⟩
  · unfold totalsJ; dsimp only; rw [if_pos (by intro r; rw [hm, hm]), hm]
  · simp
  · intro k hk
    refine ⟨fun r => (ps r).lines[k]'(by rw [hm]; exact hk), fun r => List.getElem?_eq_getElem _, ?_⟩
    rw [List.getElem?_map, List.getElem?_range hk, Option.map_some]
    congr 1
    apply Finset.sum_congr rfl
    intro r _
    have hk' : k < (ps r).lines.length := by rw [hm]; exact hk
    rw [List.getElem?_eq_getElem hk', Option.map_some, Option.getD_some]
    unfold shareJ trapped
    rw [collect_eq]
    apply Finset.sum_congr rfl
    intro x hx
    simp only [Finset.mem_filter, Finset.mem_range] at hx
    rw [if_pos]
    simp only [decide_eq_true_eq]
    exact ⟨by rw [(h r).1]; omega, by rw [(h r).1, (h r).2]; omega, hin r _ (List.getElem_mem hk')⟩

/-- In that case a line gets too much as soon as there is helium on a line with the same local number of another process. -/
theorem jacobian_exceeds (G : Geometry K L) (c : L → ℕ → K) {n : ℕ} (ps : Fin (n + 1) → Proc L) (m : ℕ) (hm : ∀ r, (ps r).lines.length = m) (hin : ∀ r, ∀ y ∈ (ps r).lines, y ∈ G.inner)
    (h : ∀ r, (ps r).xs = 0 ∧ (ps r).xm = G.nX) (h0 : ∀ y, 0 ≤ trapped G c y) (k : ℕ) (r q : Fin (n + 1)) (hrq : r ≠ q) (y z : L) (hy : (ps r).lines[k]? = some y) (hz : (ps q).lines[k]? = some z)
    (hpos : 0 < trapped G c z) (t : List K) (ht : totalsJ G c ps = some t) : ∃ v, t[k]? = some v ∧ trapped G c y < v := by
  obtain ⟨t', ht', -, hall⟩ := jacobian_mixes G c ps m hm hin h
  rw [ht] at ht'
  obtain rfl := Option.some.inj ht'
  have hk : k < m := by
    rw [← hm r]
    exact (List.getElem?_eq_some_iff.mp hy).1
  obtain ⟨ys, hys, hv⟩ := hall k hk
  refine ⟨_, hv, ?_⟩
  have e1 : ys r = y := by have := hys r; rw [hy] at this; exact (Option.some.inj this).symm
  have e2 : ys q = z := by have := hys q; rw [hz] at this; exact (Option.some.inj this).symm
  have h2 : ∑ r ∈ ({r, q} : Finset (Fin (n + 1))), trapped G c (ys r) ≤ ∑ r, trapped G c (ys r) :=
    Finset.sum_le_sum_of_subset_of_nonneg (Finset.subset_univ _) fun i _ _ => h0 _
  rw [Finset.sum_pair hrq, e1, e2] at h2
  linarith

/-- Processes with different numbers of lines wait forever in the Jacobian. -/
theorem jacobian_waits (G : Geometry K L) (c : L → ℕ → K) {n : ℕ} (ps : Fin (n + 1) → Proc L) (r q : Fin (n + 1)) (h : (ps r).lines.length ≠ (ps q).lines.length) : totalsJ G c ps = none := by
  unfold totalsJ
  dsimp only
  rw [if_neg]
  intro hh
  exact h ((hh r).trans (hh q).symm)

/-- All processes get the same number of lines exactly if their number divides the number of lines. -/
theorem split_equal (n m : ℕ) (hm : 0 < m) : (∀ i < m, split n m i = split n m 0) ↔ m ∣ n := by
  unfold split
  constructor
  · intro h
    have h1 := h (m - 1) (by omega)
    have h2 : n % m < m := Nat.mod_lt _ hm
    rw [if_neg (by omega)] at h1
    by_cases h3 : n % m > 0
    · rw [if_pos h3] at h1; omega
    · exact Nat.dvd_of_mod_eq_zero (by omega)
  · intro h i _
    rw [Nat.mod_eq_zero_of_dvd h]
    simp

/-- The points are all given out. -/
theorem split_sum (n m : ℕ) (hm : 0 < m) : ∑ i ∈ Finset.range m, split n m i = n := by
  unfold split
  rw [Finset.sum_add_distrib, Finset.sum_const, Finset.card_range, smul_eq_mul, ← Finset.sum_filter, Finset.sum_const, smul_eq_mul, mul_one]
  have : (Finset.range m).filter (fun i => n % m > i) = Finset.range (n % m) := by
    ext i; simp only [Finset.mem_filter, Finset.mem_range]; have := Nat.mod_lt n hm; omega
  rw [this, Finset.card_range]
  exact Nat.div_add_mod n m

/-- A rate that falls with the helium, as it does, is too small then.  xolotl/core/include/xolotl/core/network/impl/PSIReactionNetwork.tpp:303-317. -/
theorem rate_below (a b : ℝ) (h : a < b) : Real.exp (-4 * b) < Real.exp (-4 * a) := Real.exp_lt_exp.mpr (by linarith)

/-! ### Temperatures -/

/-- After the lines of a process the temperatures are those of the last line, to a tenth of a kelvin. -/
theorem last_line (len : ℕ) (ts : List (ℕ → K)) (t : ℕ → K) (st : Held K) (i : ℕ) (hi : i < len) : |(lineSteps len (ts ++ [t]) st).temp i - t i| ≤ 1 / 10 := by
  unfold lineSteps
  rw [List.foldl_append, List.foldl_cons, List.foldl_nil]
  simp only [lineStep, if_pos hi]
  exact refresh_close t _ i

/-- The network has the temperatures of the process. -/
theorem network_same (len : ℕ) (ts : List (ℕ → K)) (st : Held K) (h : ∀ i < len, st.net i = st.temp i) : ∀ i < len, (lineSteps len ts st).net i = (lineSteps len ts st).temp i := by
  unfold lineSteps
  induction ts generalizing st with
  | nil => exact h
  | cons t ts ih =>
    rw [List.foldl_cons]
    apply ih
    intro i hi
    simp only [lineStep, if_pos hi]
    by_cases ha : (List.range len).any (differs t st.temp) = true
    · rw [if_pos ha]; simp only [if_pos hi]
    · rw [if_neg ha, h i hi]
      have : differs t st.temp i = false := by
        by_contra hc
        exact ha (List.any_eq_true.mpr ⟨i, List.mem_range.mpr hi, by simpa using hc⟩)
      simp [refresh, this]

/-- If all lines have the same temperatures, the rates used for them are right to a tenth of a kelvin. -/
theorem rates_partial (len : ℕ) (ts : List (ℕ → K)) (hne : ts ≠ []) (st : Held K) (h : ∀ i < len, st.net i = st.temp i) (t : ℕ → K) (hs : ∀ u ∈ ts, ∀ i < len, u i = t i) (i : ℕ) (hi : i < len) :
    |(lineSteps len ts st).net i - t i| ≤ 1 / 10 := by
  rw [network_same len ts st h i hi]
  obtain ⟨l, u, rfl⟩ : ∃ l u, ts = l ++ [u] := ⟨_, _, (List.dropLast_append_getLast hne).symm⟩
  rw [← hs u (by simp) i hi]
  exact last_line len l u st i hi

/-- In general the rates of every line are those of the last line: they are off by the difference between the lines. -/
theorem rates_other (len : ℕ) (ts : List (ℕ → K)) (t u : ℕ → K) (st : Held K) (h : ∀ i < len, st.net i = st.temp i) (i : ℕ) (hi : i < len) :
    |u i - t i| - 1 / 10 ≤ |(lineSteps len (ts ++ [t]) st).net i - u i| := by
  rw [network_same len _ st h i hi]
  have h1 := last_line len ts t st i hi
  have h2 := abs_sub_le (u i) ((lineSteps len (ts ++ [t]) st).temp i) (t i)
  rw [abs_sub_comm (u i) ((lineSteps len (ts ++ [t]) st).temp i)] at h2
  linarith

/-- One line: a second evaluation of the same state changes nothing. -/
theorem again_one (len : ℕ) (t : ℕ → K) (st : Held K) : lineSteps len [t] (lineSteps len [t] st) = lineSteps len [t] st := by
  have hd : ∀ i < len, differs t (lineStep len st t).temp i = false := by
    intro i hi
    have := refresh_close t st.temp i
    simp only [differs, lineStep, if_pos hi, decide_eq_false_iff_not]
    push Not; exact this
  show lineStep len (lineStep len st t) t = lineStep len st t
  have ha : (List.range len).any (differs t (lineStep len st t).temp) = false := by
    rw [List.any_eq_false]
    intro i hi
    rw [hd i (List.mem_range.mp hi)]; simp
  ext i
  · show (if i < len then refresh t (lineStep len st t).temp i else (lineStep len st t).temp i) = _
    by_cases hi : i < len
    · rw [if_pos hi, refresh, hd i hi]; simp
    · rw [if_neg hi]
  · show (if (List.range len).any (differs t (lineStep len st t).temp) = true then _ else (lineStep len st t).net) i = _
    rw [ha]; simp

/-- Three lines: the second evaluation of the same state uses other rates than the first. -/
theorem again_three : ∃ (ts : List (ℕ → ℚ)) (st : Held ℚ), ts.length = 3 ∧ st.net = st.temp ∧ (lineSteps 1 ts st).net 0 ≠ (lineSteps 1 ts (lineSteps 1 ts st)).net 0 := by
  refine ⟨[fun _ => 1000 + 18 / 100, fun _ => 1000 + 5 / 100, fun _ => 1000], ⟨fun _ => 1000 + 12 / 100, fun _ => 1000 + 12 / 100⟩, rfl, rfl, ?_⟩
  have h : (lineSteps 1 [fun _ => 1000 + 18 / 100, fun _ => 1000 + 5 / 100, fun _ => 1000] (⟨fun _ => 1000 + 12 / 100, fun _ => 1000 + 12 / 100⟩ : Held ℚ)).net 0 = 1000 := by decide +kernel
  have h2 : (lineSteps 1 [fun _ => 1000 + 18 / 100, fun _ => 1000 + 5 / 100, fun _ => 1000] (lineSteps 1 [fun _ => 1000 + 18 / 100, fun _ => 1000 + 5 / 100, fun _ => 1000] (⟨fun _ => 1000 + 12 / 100, fun _ => 1000 + 12 / 100⟩ : Held ℚ))).net 0 = 1000 + 5 / 100 := by decide +kernel
  rw [h, h2]
  norm_num

/-- The second coordinate is 0 for every line. -/
theorem yFraction_zero (nY yj : ℕ) (h : yj < nY) : yFraction nY yj = (0 : K) := by unfold yFraction; rw [Nat.div_eq_of_lt h]; simp

/-- At the beginning it is 0 only for the first. -/
theorem yPosition_zero (hY : K) (h : 0 < hY) (yj : ℕ) : yPosition hY yj = 0 ↔ yj = 0 := by
  unfold yPosition
  rw [mul_eq_zero]
  constructor
  · rintro (h1 | h1)
    · exact_mod_cast h1
    · exact absurd h1 h.ne'
  · rintro rfl; left; simp

/-! ### A new grid -/

/-- Lines that are not left out: from the second point below the surface on, the new value is the one interpolated on the same line. -/
theorem renewed_inside (S : Change K L) (c : L → ℕ → K) (origin y : L) (hy : S.skipped y = false) (x : ℕ) (h2 : 2 ≤ x) (hx : x < S.nX) (hsize : 3 < S.oldSize) (hd : 0 ≤ distance S.new S.newSize x) :
    some (renewed S c origin y x) = transfer S.old S.oldSize (c y) (distance S.new S.newSize x) := by
  unfold renewed interpolated
  rw [if_neg (by omega), if_neg (by omega), if_neg (by omega), if_pos ⟨hy, by omega, hx⟩]
  obtain ⟨i, hi, -⟩ := segment_defined S.old S.oldSize hsize (distance S.new S.newSize x) hd
  rw [transfer, hi]
  rfl

/-- Every new value is made from values of the same line, apart from the origin. -/
theorem renewed_line (S : Change K L) (c c' : L → ℕ → K) (origin y : L) (hy : y ≠ origin) (h : c y = c' y) (x : ℕ) : renewed S c origin y x = renewed S c' origin y x := by
  unfold renewed interpolated
  rw [if_neg (fun h => hy h.1), if_neg (c := y = origin ∧ x = 0) (fun h => hy h.1), h]

/-- The lines that are left out lose everything, concentrations and temperature. -/
theorem renewed_lost (S : Change K L) (c : L → ℕ → K) (origin y : L) (hy : S.skipped y = true) (x : ℕ) (h : y ≠ origin ∨ x ≠ 0) : renewed S c origin y x = S.fresh := by
  unfold renewed interpolated
  rw [if_neg (by tauto), if_neg (by simp [hy]), if_neg (by simp [hy]), if_neg (by simp [hy])]

/-- On the other lines the first point keeps only its temperature. -/
theorem renewed_surface (S : Change K L) (c : L → ℕ → K) (origin y : L) (hy : S.skipped y = false) (ho : y ≠ origin) (hn : 1 < S.nX) :
    renewed S c origin y 0 = if S.isTemp = true then interpolated S c y 1 else S.fresh := by
  unfold renewed
  rw [if_neg (fun h => ho h.1)]
  by_cases ht : S.isTemp = true
  · rw [if_pos ⟨hy, rfl, ht⟩, if_pos ht]
  · rw [if_neg (fun h => ht h.2.2), if_neg ht, if_neg (by omega), interpolated, if_neg (by omega)]

/-- The first point below the surface gets the initial concentration. -/
theorem renewed_initial (S : Change K L) (c : L → ℕ → K) (origin y : L) (hy : S.skipped y = false) (v : K) (hv : S.init = some v) : renewed S c origin y 1 = v := by
  unfold renewed
  rw [if_neg (by omega), if_neg (by omega), if_pos ⟨hy, rfl⟩, hv]
  rfl

/-- One line is left out in two dimensions. -/
theorem skipped2_iff (y : ℕ) : skipped2 y = true ↔ y = 0 := by unfold skipped2; simp

/-- In three dimensions `nY + nZ - 1` lines are left out of `nY * nZ`. -/
theorem skipped3_count (nY nZ : ℕ) (hy : 0 < nY) (hz : 0 < nZ) : ((Finset.range nY ×ˢ Finset.range nZ).filter fun y => skipped3 y = true).card = nY + nZ - 1 := by
  have h1 : ((Finset.range nY ×ˢ Finset.range nZ).filter fun y => ¬ skipped3 y = true) = Finset.Ico 1 nY ×ˢ Finset.Ico 1 nZ := by
    ext ⟨a, b⟩
    simp only [Finset.mem_filter, Finset.mem_product, Finset.mem_range, Finset.mem_Ico, skipped3, decide_eq_true_eq, not_not]
    omega
  have h2 := Finset.card_filter_add_card_filter_not (s := Finset.range nY ×ˢ Finset.range nZ) (fun y => skipped3 y = true)
  rw [h1, Finset.card_product, Finset.card_product, Nat.card_Ico, Nat.card_Ico, Finset.card_range, Finset.card_range] at h2
  obtain ⟨a, rfl⟩ := Nat.exists_eq_add_of_lt hy
  obtain ⟨b, rfl⟩ := Nat.exists_eq_add_of_lt hz
  simp only [Nat.zero_add, Nat.add_sub_cancel] at h2 ⊢
  have h3 : (a + 1) * (b + 1) = a * b + a + b + 1 := by ring
  rw [h3] at h2
  omega

/-- A process reads only its own points exactly if it owns all lines from the second on. -/
theorem ownsRead_iff (nY ys ym xm : ℕ) (hn : 2 ≤ nY) (hx : 0 < xm) : ownsRead nY ys ym xm = true ↔ ys ≤ 1 ∧ nY ≤ ys + ym := by
  unfold ownsRead
  rw [List.all_eq_true]
  simp only [List.mem_range'_1, Bool.or_eq_true, decide_eq_true_eq]
  constructor
  · intro h
    have h1 := h 1 (by omega)
    have h2 := h (nY - 1) (by omega)
    omega
  · intro h y hy
    right; omega

/-- So with more than one process in the second direction, some process reads what it does not own. -/
theorem ownsRead_divided (nY m xm : ℕ) (hx : 0 < xm) (hm : 2 ≤ m) (hn : 2 ≤ nY) (ys ym : ℕ → ℕ) (hcover : ∀ y < nY, ∃! i, i < m ∧ ys i ≤ y ∧ y < ys i + ym i) :
    ∃ i < m, ownsRead nY (ys i) (ym i) xm = false := by
  by_contra hc
  push Not at hc
  have h0 : ∀ i < m, ys i ≤ 1 ∧ nY ≤ ys i + ym i := by
    intro i hi
    have := hc i hi
    rw [← ownsRead_iff nY (ys i) (ym i) xm hn hx]
    simpa using this
  obtain ⟨r, _, hu⟩ := hcover (nY - 1) (by omega)
  have a0 := hu 0 ⟨by omega, by have := h0 0 (by omega); omega, by have := h0 0 (by omega); omega⟩
  have a1 := hu 1 ⟨by omega, by have := h0 1 (by omega); omega, by have := h0 1 (by omega); omega⟩
  omega

/-! ### Concrete cases -/

/-- Four points 1 nm apart, two lines. -/
def exG : Geometry ℚ ℕ := ⟨fun i => i, 4, 1, 1, fun _ => 0, [0, 1]⟩

/-- Twice as much helium on the second line. -/
def exC : ℕ → ℕ → ℚ := fun y x => (y + 1) * x

/-- Two processes that divide the points of the lines. -/
def exX : Fin 2 → Proc ℕ := fun r => ⟨2 * r, 2, [0, 1]⟩

/-- Two processes with a line each. -/
def exY : Fin 2 → Proc ℕ := fun r => ⟨0, 4, [r]⟩

example : totalsF exG exC exX = [3, 6] ∧ totalsF exG exC exY = [3, 6] ∧ totalsJ exG exC exX = some [3, 6] ∧ totalsJ exG exC exY = some [9] := by decide +kernel

example : totalsF exG exC exY = [trapped exG exC 0, trapped exG exC 1] :=
  flux_trapped exG exC exY (by
    intro y hy x hx
    have hy' : y = 0 ∨ y = 1 := by simpa [exG] using hy
    have hx' : x < 4 := hx
    rcases hy' with rfl | rfl
    · exact ⟨0, by simp [exY]; omega, fun r hr => by fin_cases r <;> simp_all [exY]⟩
    · exact ⟨1, by simp [exY]; omega, fun r hr => by fin_cases r <;> simp_all [exY]⟩)

example : ∃ v, ([9] : List ℚ)[0]? = some v ∧ trapped exG exC 0 < v :=
  jacobian_exceeds exG exC exY 1 (fun _ => rfl) (by intro r y hy; fin_cases r <;> simp_all [exY, exG]) (fun _ => ⟨rfl, rfl⟩)
    (by intro y; unfold trapped; apply Finset.sum_nonneg; intro x _; have : (0:ℚ) ≤ exC y x := by unfold exC; positivity
        simp [exG, this])
    0 0 1 (by decide) 0 1 rfl rfl (by have h : trapped exG exC 1 = 6 := by decide +kernel
                                      rw [h]; norm_num) [9] (by decide +kernel)

example : totalsJ exG exC (fun r : Fin 2 => ⟨0, 4, List.range (2 - r)⟩ : Fin 2 → Proc ℕ) = none := jacobian_waits _ _ _ 0 1 (by decide)

example : split 7 2 0 = 4 ∧ split 7 2 1 = 3 ∧ ¬ 2 ∣ 7 := by decide

example : (lineSteps 1 [fun _ => (1000 : ℚ), fun _ => 900] ⟨fun _ => 950, fun _ => 950⟩).net 0 = 900 := by decide +kernel

example : |(lineSteps 2 [fun _ => (1000 : ℚ), fun _ => 1000] ⟨fun _ => 950, fun _ => 950⟩).net 1 - 1000| ≤ 1 / 10 :=
  rates_partial 2 _ (by simp) _ (fun _ _ => rfl) (fun _ => 1000) (by intro u hu i _; simp at hu; rw [hu]) 1 (by norm_num)

/-- A surface that has grown by a cell. -/
def exS : Change ℚ ℕ := ⟨fun i => i, 6, fun i => i, 7, 5, skipped2, 0, false, none⟩

example : renewed exS (fun _ x => x) 0 1 2 = 1 ∧ renewed exS (fun _ x => x) 0 1 3 = 2 ∧ renewed exS (fun _ x => x) 0 1 0 = 0 ∧ renewed exS (fun _ x => x) 0 0 3 = 0 := by decide +kernel

example : some (renewed exS (fun _ x => x) 0 1 2) = transfer exS.old 6 (fun x => (x : ℚ)) (distance exS.new 7 2) := renewed_inside exS (fun _ x => x) 0 1 rfl 2 (by norm_num) (by decide) (by decide) (by norm_num [distance, exS])

example : ((Finset.range 3 ×ˢ Finset.range 4).filter fun y => skipped3 y = true).card = 6 := skipped3_count 3 4 (by norm_num) (by norm_num)

example : ownsRead 4 0 4 2 = true ∧ ownsRead 4 0 2 2 = false ∧ ownsRead 4 2 2 2 = false := by decide

end Xolotl.Solver.Lines
