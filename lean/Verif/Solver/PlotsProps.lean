import Verif.Solver.Plots
import Verif.Solver.MoveProps
import Mathlib.Algebra.BigOperators.Intervals
import Mathlib.Tactic.Ring
import Mathlib.Tactic.Linarith
import Mathlib.Tactic.NormNum
import Mathlib.Tactic.SplitIfs
import Mathlib.Algebra.Order.Ring.Rat
import Mathlib.Algebra.Field.Rat

/-!
# Theorems about the plots and the file of the surface (property C103)
-/

set_option linter.unusedSectionVars false

namespace Xolotl.Solver.Plots

open Finset

variable {K : Type*} [Field K] [LinearOrder K] [IsStrictOrderedRing K]

/-- The ranks share the grid: every point is held by exactly one of them. -/
def Shared (ranks : List Box) (Mx My Mz : ℕ) : Prop :=
  ∀ i < Mx, ∀ j < My, ∀ k < Mz,
    (ranks.filter fun b => decide ((b.xs ≤ i ∧ i < b.xs + b.xm) ∧ (b.ys ≤ j ∧ j < b.ys + b.ym) ∧ (b.zs ≤ k ∧ k < b.zs + b.zm))).length = 1

lemma owns_eq (b : Box) (i j k : ℕ) :
    b.owns i j k = decide ((b.xs ≤ i ∧ i < b.xs + b.xm) ∧ (b.ys ≤ j ∧ j < b.ys + b.ym) ∧ (b.zs ≤ k ∧ k < b.zs + b.zm)) := by
  rw [Bool.eq_iff_iff]
  simp only [Box.owns, Bool.and_eq_true, decide_eq_true_eq]
  constructor <;> intro h <;> omega

lemma Shared.owns {ranks : List Box} {Mx My Mz : ℕ} (h : Shared ranks Mx My Mz) (i : ℕ) (hi : i < Mx) (j : ℕ) (hj : j < My) (k : ℕ) (hk : k < Mz) :
    (ranks.filter fun b => b.owns i j k).length = 1 := by
  simp only [owns_eq]; exact h i hi j hj k hk

lemma fold_if {α : Type*} (p : α → Bool) (f : α → K) : ∀ (l : List α) (s : K),
    l.foldl (fun s k => if p k then s + f k else s) s = s + (l.map fun k => if p k then f k else 0).sum
  | [], s => by simp
  | a :: l, s => by
    rw [List.foldl_cons, fold_if p f l, List.map_cons, List.sum_cons]
    by_cases h : p a <;> simp [h, add_assoc]

lemma sum_swap {α β : Type*} (f : α → β → K) : ∀ (l : List α) (m : List β),
    (l.map fun a => (m.map (f a)).sum).sum = (m.map fun b => (l.map fun a => f a b).sum).sum
  | [], m => by simp
  | a :: l, m => by
    rw [List.map_cons, List.sum_cons, sum_swap f l m, ← List.sum_map_add]
    simp

lemma sum_owned (x : K) (p : Box → Bool) : ∀ l : List Box, (l.map fun b => if p b then x else 0).sum = ((l.filter p).length : K) * x
  | [] => by simp
  | b :: l => by
    rw [List.map_cons, List.sum_cons, sum_owned x p l, List.filter_cons]
    by_cases h : p b <;> simp [h]
    ring

lemma map_range_sum (n : ℕ) (f : ℕ → K) : ((List.range n).map f).sum = ∑ k ∈ range n, f k := by
  induction n with
  | zero => simp
  | succ n ih => rw [List.range_succ, List.map_append, List.sum_append, ih, sum_range_succ]; simp

/-- The value at a point of the plane XY is the sum over Z, whatever the ranks. -/
theorem xy_value {ranks : List Box} {Mx My Mz : ℕ} (h : Shared ranks Mx My Mz) (c : ℕ → ℕ → ℕ → K) (i j : ℕ) (hi : i < Mx) (hj : j < My) :
    (ranks.map fun b => alongZ Mz b c i j).sum = ∑ k ∈ range Mz, c k j i := by
  have e : ∀ b : Box, alongZ Mz b c i j = ((List.range Mz).map fun k => if b.owns i j k then c k j i else 0).sum := by
    intro b
    rw [alongZ, fold_if (fun k => b.owns i j k) (fun k => c k j i)]; simp
  simp only [e]
  rw [sum_swap (fun (b : Box) k => if b.owns i j k then c k j i else 0), map_range_sum]
  refine sum_congr rfl fun k hk => ?_
  rw [sum_owned (c k j i) (fun b => b.owns i j k), h.owns i hi j hj k (mem_range.1 hk)]
  simp

/-- The value at a point of the plane XZ is the sum over Y. -/
theorem xz_value {ranks : List Box} {Mx My Mz : ℕ} (h : Shared ranks Mx My Mz) (c : ℕ → ℕ → ℕ → K) (i k : ℕ) (hi : i < Mx) (hk : k < Mz) :
    (ranks.map fun b => alongY My b c i k).sum = ∑ j ∈ range My, c k j i := by
  have e : ∀ b : Box, alongY My b c i k = ((List.range My).map fun j => if b.owns i j k then c k j i else 0).sum := by
    intro b
    rw [alongY, fold_if (fun j => b.owns i j k) (fun j => c k j i)]; simp
  simp only [e]
  rw [sum_swap (fun (b : Box) j => if b.owns i j k then c k j i else 0), map_range_sum]
  refine sum_congr rfl fun j hj => ?_
  rw [sum_owned (c k j i) (fun b => b.owns i j k), h.owns i hi j (mem_range.1 hj) k hk]
  simp

lemma flat_get {α : Type*} (n : ℕ) (f : ℕ → ℕ → α) : ∀ (m : ℕ) (j i : ℕ), j < m → i < n →
    ((List.range m).flatMap fun j => (List.range n).map (f j))[j * n + i]? = some (f j i) := by
  intro m
  induction m with
  | zero => intro j i hj; omega
  | succ m ih =>
    intro j i hj hi
    have hl : ((List.range m).flatMap fun j => (List.range n).map (f j)).length = m * n := by
      clear ih hj
      induction m with
      | zero => simp
      | succ m ih => rw [List.range_succ, List.flatMap_append, List.length_append, ih]; simp; ring
    rw [List.range_succ, List.flatMap_append]
    by_cases h : j < m
    · rw [List.getElem?_append_left, ih j i h hi]
      rw [hl]
      calc j * n + i < j * n + n := by omega
        _ = (j + 1) * n := by ring
        _ ≤ m * n := Nat.mul_le_mul_right _ h
    · have : j = m := by omega
      subst this
      rw [List.getElem?_append_right (by rw [hl]; omega), hl]
      simp [hi]

/-- **The plot of the plane XY**: one point for every point of the plane, in the order of Y and then X, at the
middle of the cell below the first face, and with the sum of the concentrations over Z. -/
theorem xy_points {ranks : List Box} {Mx My Mz : ℕ} (h : Shared ranks Mx My Mz) (grid : ℕ → K) (hy : K) (c : ℕ → ℕ → ℕ → K) :
    (planeXY Mx My Mz grid hy ranks c).length = My * Mx ∧
    ∀ i < Mx, ∀ j < My, (planeXY Mx My Mz grid hy ranks c)[j * Mx + i]? =
      some ⟨(grid i + grid (i + 1)) / 2 - grid 1, (j : K) * hy, ∑ k ∈ range Mz, c k j i⟩ := by
  constructor
  · simp [planeXY]
  · intro i hi j hj
    rw [planeXY, flat_get Mx (fun (j i : ℕ) => (⟨depth grid i, (j : K) * hy, (ranks.map fun b => alongZ Mz b c i j).sum⟩ : Point K)) My j i hj hi,
      xy_value h c i j hi hj]
    rfl

/-- **The plot of the plane XZ**. -/
theorem xz_points {ranks : List Box} {Mx My Mz : ℕ} (h : Shared ranks Mx My Mz) (grid : ℕ → K) (hz : K) (c : ℕ → ℕ → ℕ → K) :
    (planeXZ Mx My Mz grid hz ranks c).length = Mz * Mx ∧
    ∀ i < Mx, ∀ k < Mz, (planeXZ Mx My Mz grid hz ranks c)[k * Mx + i]? =
      some ⟨(grid i + grid (i + 1)) / 2 - grid 1, (k : K) * hz, ∑ j ∈ range My, c k j i⟩ := by
  constructor
  · simp [planeXZ]
  · intro i hi k hk
    rw [planeXZ, flat_get Mx (fun (k i : ℕ) => (⟨depth grid i, (k : K) * hz, (ranks.map fun b => alongY My b c i k).sum⟩ : Point K)) Mz k i hk hi,
      xz_value h c i k hi hk]
    rfl

/-- Two ranks that share a grid of 2 × 2 × 3 points. -/
example : Shared [⟨0, 2, 0, 2, 0, 1⟩, ⟨0, 2, 0, 2, 1, 2⟩] 2 2 3 := by
  unfold Shared; decide

example : (planeXY 2 1 3 (fun i => (i : ℚ)) 1 [⟨0, 2, 0, 1, 0, 1⟩, ⟨0, 2, 0, 1, 1, 2⟩] fun k _ i => (k : ℚ) + 10 * i).map (fun p => (p.x, p.y, p.value)) =
    [(-1 / 2, 0, 3), (1 / 2, 0, 33)] := by decide +kernel

/-- **The value is not the integral** that the comments of the code speak of: a uniform concentration `a` on a width
`L` gives `Mz * a`, whatever `L`, so that with twice the points the plot shows twice the amount.  Times the step it
is the integral. -/
theorem not_integral {ranks : List Box} {Mx My Mz : ℕ} (h : Shared ranks Mx My Mz) (a hz L : K) (hL : L = Mz * hz) (i j : ℕ) (hi : i < Mx) (hj : j < My) :
    (ranks.map fun b => alongZ Mz b (fun _ _ _ => a) i j).sum = Mz * a ∧
    (ranks.map fun b => alongZ Mz b (fun _ _ _ => a) i j).sum * hz = L * a := by
  rw [xy_value h _ i j hi hj]
  simp only [sum_const, card_range, nsmul_eq_mul]
  exact ⟨trivial, by rw [hL]; ring⟩

/-- The same material with the same concentration on 2 and on 4 points. -/
theorem twice_the_points :
    ((planeXY 1 1 2 (fun i => (i : ℚ)) 1 [⟨0, 1, 0, 1, 0, 2⟩] fun _ _ _ => 5).map Point.value,
     (planeXY 1 1 4 (fun i => (i : ℚ)) 1 [⟨0, 1, 0, 1, 0, 4⟩] fun _ _ _ => 5).map Point.value) = ([10], [20]) := by
  decide +kernel

/-! ## The scatter plot -/

/-- The points of the scatter plot are those `(j, value of cluster i)` with `j` in the interval of xenon of
cluster `i`. -/
theorem scatter_mem (cs : List Cl) (conc : ℕ → K) (j : ℕ) (v : K) :
    (j, v) ∈ scatter cs conc ↔ ∃ i r, cs[i]? = some r ∧ r.b ≤ j ∧ j < r.e ∧ v = conc i := by
  unfold scatter
  rw [List.mem_flatMap]
  constructor
  · rintro ⟨i, hi, h⟩
    rw [List.mem_range] at hi
    rw [List.getElem?_eq_getElem hi] at h
    simp only [List.mem_map, List.mem_range'_1, Prod.mk.injEq] at h
    obtain ⟨j', ⟨h1, h2⟩, rfl, rfl⟩ := h
    exact ⟨i, cs[i], List.getElem?_eq_getElem hi, h1, by omega, rfl⟩
  · rintro ⟨i, r, hr, h1, h2, rfl⟩
    have hi : i < cs.length := by
      by_contra hge
      rw [List.getElem?_eq_none (by omega)] at hr
      simp at hr
    refine ⟨i, List.mem_range.2 hi, ?_⟩
    rw [hr]
    simp only [List.mem_map, List.mem_range'_1, Prod.mk.injEq]
    exact ⟨j, ⟨h1, by omega⟩, rfl, trivial⟩

/-- **A network of xenon alone** whose intervals do not overlap: every size has at most one value, the mean of its
cluster, and a cluster of one size has its concentration. -/
theorem scatter_xenon (cs : List Cl) (conc : ℕ → K)
    (hd : ∀ (i i' : ℕ) (r r' : Cl), cs[i]? = some r → cs[i']? = some r' → ∀ j, r.b ≤ j → j < r.e → r'.b ≤ j → j < r'.e → i = i')
    (i : ℕ) (r : Cl) (hr : cs[i]? = some r) (j : ℕ) (h1 : r.b ≤ j) (h2 : j < r.e) (v : K) :
    (j, v) ∈ scatter cs conc ↔ v = conc i := by
  rw [scatter_mem]
  constructor
  · rintro ⟨i', r', hr', h1', h2', rfl⟩
    rw [hd i i' r r' hr hr' j h1 h2 h1' h2']
  · rintro rfl; exact ⟨i, r, hr, h1, h2, rfl⟩

example : scatter [⟨1, 2, 0, 1⟩, ⟨2, 3, 0, 1⟩, ⟨3, 6, 0, 1⟩] (fun i => ([7, 8, 9] : List ℚ).getD i 0) = [(1, 7), (2, 8), (3, 9), (4, 9), (5, 9)] := by
  decide +kernel

/-- The concentration of all compositions with `j` xenon atoms: each cluster has one for every number of its
vacancies. -/
def ofSize (cs : List Cl) (conc : ℕ → K) (j : ℕ) : K :=
  ∑ i ∈ range cs.length, match cs[i]? with
    | none => 0
    | some r => if r.b ≤ j ∧ j < r.e then ((r.ve - r.vb : ℕ) : K) * conc i else 0

/-- **With vacancies the plot is no size distribution**: xenon with no vacancy and with one to four of them give two
points at the same place, and neither their values nor their sum is the concentration of this size. -/
theorem scatter_vacancies :
    scatter [⟨1, 2, 0, 1⟩, ⟨1, 2, 1, 5⟩] (fun i => ([3, 2] : List ℚ).getD i 0) = [(1, 3), (1, 2)] ∧
      ofSize [⟨1, 2, 0, 1⟩, ⟨1, 2, 1, 5⟩] (fun i => ([3, 2] : List ℚ).getD i 0) 1 = 11 := by
  constructor
  · decide +kernel
  · decide +kernel

/-- Vacancies and interstitials without xenon are drawn as clusters of size zero. -/
theorem scatter_zero : scatter [⟨0, 1, 1, 2⟩, ⟨0, 1, 0, 1⟩] (fun i => ([3, 2] : List ℚ).getD i 0) = [(0, 3), (0, 2)] := by decide +kernel

/-- Exactly one of the ranks that share a line draws, at every two-hundredth step. -/
theorem draws_one (ranks : List Box) (Mx t : ℕ) (h0 : 0 < Mx) (hy : ∀ b ∈ ranks, b.ys = 0 ∧ b.ym = 1 ∧ b.zs = 0 ∧ b.zm = 1) (h : Shared ranks Mx 1 1) :
    (ranks.filter (draws1 Mx t)).length = if t % 200 = 0 then 1 else 0 := by
  by_cases ht : t % 200 = 0
  · rw [if_pos ht, ← h.owns (Mx / 2) (Nat.div_lt_self h0 (by decide)) 0 (by decide) 0 (by decide)]
    congr 1
    refine List.filter_congr fun b hb => ?_
    obtain ⟨h1, h2, h3, h4⟩ := hy b hb
    simp [draws1, Box.owns, ht, h1, h2, h3, h4]
  · rw [if_neg ht]
    have : ∀ b ∈ ranks, draws1 Mx t b = false := by intro b _; simp [draws1, ht]
    rw [List.filter_eq_nil_iff.2 (by intro b hb; simp [this b hb])]
    rfl

example : ([⟨0, 3, 0, 1, 0, 1⟩, ⟨3, 2, 0, 1, 0, 1⟩] : List Box).filter (draws1 5 400) = [⟨0, 3, 0, 1, 0, 1⟩] := by decide

/-! ## The file of the surface -/

/-- A row in two dimensions: one number for every line, the depth of its surface below the first face of the
present grid. -/
theorem row2_get (grid : ℕ → K) (My : ℕ) (surf : ℕ → ℕ) :
    (row2 grid My surf).length = My ∧ ∀ j < My, (row2 grid My surf)[j]? = some (grid (surf j + 1) - grid 1) := by
  refine ⟨by simp [row2], fun j hj => ?_⟩
  simp [row2, hj]

/-- A row in three dimensions: three numbers for every line, in the order of Y and then Z. -/
theorem row3_get (grid : ℕ → K) (hy hz : K) (My Mz : ℕ) (surf : ℕ → ℕ → ℕ) :
    (row3 grid hy hz My Mz surf).length = 3 * (My * Mz) ∧
    ∀ j < My, ∀ k < Mz, (row3 grid hy hz My Mz surf)[3 * (j * Mz + k)]? = some ((j : K) * hy) ∧
      (row3 grid hy hz My Mz surf)[3 * (j * Mz + k) + 1]? = some ((k : K) * hz) ∧
      (row3 grid hy hz My Mz surf)[3 * (j * Mz + k) + 2]? = some (grid (surf j k + 1) - grid 1) := by
  have e : row3 grid hy hz My Mz surf = ((List.range My).flatMap fun (j : ℕ) => (List.range Mz).map fun (k : ℕ) => [(j : K) * hy, (k : K) * hz, grid (surf j k + 1) - grid 1]).flatten := by
    unfold row3
    rw [List.flatMap_def, List.flatMap_def, List.flatten_flatten, List.map_map]
    rfl
  have get3 : ∀ (L : List (List K)), (∀ l ∈ L, l.length = 3) → ∀ n l, L[n]? = some l → ∀ m < 3, L.flatten[3 * n + m]? = l[m]? := by
    intro L
    induction L with
    | nil => intro _ n l h; simp at h
    | cons a L ih =>
      intro hl n l h m hm
      have ha := hl a List.mem_cons_self
      cases n with
      | zero =>
        simp only [List.getElem?_cons_zero, Option.some.injEq] at h
        subst h
        rw [List.flatten_cons, List.getElem?_append_left (by omega)]
        simp
      | succ n =>
        rw [List.getElem?_cons_succ] at h
        rw [List.flatten_cons, List.getElem?_append_right (by omega), ha, show 3 * (n + 1) + m - 3 = 3 * n + m by omega]
        exact ih (fun l hl' => hl l (List.mem_cons_of_mem _ hl')) n l h m hm
  constructor
  · simp [row3]; ring
  · intro j hj k hk
    have hL : ∀ l ∈ ((List.range My).flatMap fun (j : ℕ) => (List.range Mz).map fun (k : ℕ) => [(j : K) * hy, (k : K) * hz, grid (surf j k + 1) - grid 1]), l.length = 3 := by
      intro l hl
      simp only [List.mem_flatMap, List.mem_map] at hl
      obtain ⟨_, _, _, _, rfl⟩ := hl
      rfl
    have hg := flat_get Mz (fun (j k : ℕ) => [(j : K) * hy, (k : K) * hz, grid (surf j k + 1) - grid 1]) My j k hj hk
    rw [e]
    refine ⟨?_, ?_, ?_⟩
    · have := get3 _ hL _ _ hg 0 (by decide); simpa using this
    · have := get3 _ hL _ _ hg 1 (by decide); simpa using this
    · have := get3 _ hL _ _ hg 2 (by decide); simpa using this

example : row3 (fun i => (i : ℚ) * 2) 1 10 2 2 (fun j k => j + k) = [0, 0, 0, 0, 10, 2, 1, 0, 2, 1, 10, 4] := by decide +kernel

/-- **The height has two meanings.**  In two and three dimensions it is the depth of the surface, which is larger where
more material has been lost … -/
theorem height_depth (grid : ℕ → K) (hg : StrictMono grid) (My : ℕ) (surf surf' : ℕ → ℕ) (j : ℕ) (hj : j < My) (h : surf j < surf' j) :
    ∃ a b, (row2 grid My surf)[j]? = some a ∧ (row2 grid My surf')[j]? = some b ∧ a < b :=
  ⟨_, _, (row2_get grid My surf).2 j hj, (row2_get grid My surf').2 j hj, by have := hg (show surf j + 1 < surf' j + 1 by omega); linarith⟩

/-- … and in one dimension it is the thickness of the material, which falls by the depth of the points that are
removed. -/
theorem height_thickness (g g' : List K) (hg : g.Pairwise (· < ·)) (n : ℕ) (hn : n < g.length) (h : Move.retract g n = some g') (h4 : 4 ≤ g'.length) (h3 : 3 ≤ g.length) :
    row1 g'.length (fun i => g'.getD i 0) = (row1 g.length fun i => g.getD i 0).map (· - (g.getD n 0 - g.getD 0 0)) := by
  have hs := Move.retract_spec g hg h3 n hn
  split_ifs at hs with hc
  · obtain ⟨g'', e, _, _, _, hpre, hu, _⟩ := hs
    rw [h] at e
    simp only [Option.some.injEq] at e
    subst e
    have get : ∀ i < 2, g'.getD i 0 = g.getD i 0 := by
      intro i hi
      obtain ⟨t, ht⟩ := hpre
      rw [← ht]
      simp only [List.getD_eq_getElem?_getD]
      rw [List.getElem?_append_left (by simp; omega), List.getElem?_take_of_lt (by omega)]
    have h0 := get 0 (by decide)
    have h1 := get 1 (by decide)
    simp only [row1, List.map_cons, List.map_nil, h1]
    unfold Move.used at hu
    rw [h0] at hu
    congr 1
    linarith
  · rw [h] at hs; simp at hs

example : Move.retract [(0 : ℚ), 1, 2, 4, 8, 16] 1 = some [0, 1, 2, 4, 7, 10] ∧
    row1 6 (fun i => [(0 : ℚ), 1, 2, 4, 8, 16].getD i 0) = [7] ∧ row1 6 (fun i => [(0 : ℚ), 1, 2, 4, 7, 10].getD i 0) = [6] := by
  decide +kernel

end Xolotl.Solver.Plots
