import Verif.Solver.Sweep
import Verif.Network.SimpleProps

/-!
# Properties of the temperatures of the one-dimensional solver
-/

set_option linter.unusedSectionVars false

namespace Xolotl.Solver.Sweep

open Xolotl.Network

variable {K : Type*} [Field K] [LinearOrder K] [IsStrictOrderedRing K]

/-! ### The heat equation -/

/-- **C66, heat equation.** Full claim: it is applied exactly once at every point, except for a bulk of fixed temperature.  Proved for a free surface, without grain boundaries, if at the bulk there is either a Robin condition or no free surface. -/
theorem calls_partial (nX : ℕ) (hn : 2 ≤ nX) (right : ℕ) (robin : Bool) (h : right = 1 ∧ robin = true ∨ right = 0 ∧ robin = false) (xi : ℕ) (hx : xi < nX) :
    calls nX 1 right robin (fun _ => false) xi = 1 := by
  unfold calls
  rcases h with ⟨rfl, rfl⟩ | ⟨rfl, rfl⟩
  · simp only [and_true, Bool.false_eq_true, if_false]; split_ifs <;> omega
  · simp only [and_false, or_false, Bool.false_eq_true, if_false]; split_ifs <;> omega

/-- With a free surface at the bulk and no Robin condition the temperature of the last point is fixed and all others are as claimed. -/
theorem calls_fixed (nX : ℕ) (hn : 2 ≤ nX) (xi : ℕ) (hx : xi < nX) : calls nX 1 1 false (fun _ => false) xi = if xi = nX - 1 then 0 else 1 := by
  unfold calls
  simp only [and_false, or_false, Bool.false_eq_true, if_false]; split_ifs <;> omega

/-- **C66, what fails.** At interior points the heat equation is applied once, but not at all on a grain boundary; -/
theorem calls_interior (nX left right : ℕ) (hl : left ≤ 1) (hr : right ≤ 1) (robin : Bool) (gb : ℕ → Bool) (xi : ℕ) (h0 : 0 < xi) (h1 : xi + 1 < nX) :
    calls nX left right robin gb xi = if gb xi then 0 else 1 := by
  unfold calls
  rw [if_neg (by omega), if_neg (by omega)]; omega

/-- at a reflecting surface it is applied twice, -/
theorem calls_surface (nX right : ℕ) (robin : Bool) (gb : ℕ → Bool) (hg : gb 0 = false) : calls nX 0 right robin gb 0 = 2 := by
  unfold calls
  rw [if_pos (Or.inl rfl), if_neg (by omega), hg]; rfl

/-- and at a reflecting bulk with a Robin condition as well. -/
theorem calls_bulk (nX left : ℕ) (hl : left < nX) (gb : ℕ → Bool) (hg : gb (nX - 1) = false) : calls nX left 0 true gb (nX - 1) = 2 := by
  unfold calls
  rw [if_pos (Or.inr ⟨rfl, rfl⟩), if_neg (by omega), hg]; rfl

/-! ### Refreshing the temperatures -/

theorem refresh_close (t T : ℕ → K) (i : ℕ) : |refresh t T i - t i| ≤ 1 / 10 := by
  unfold refresh differs
  split_ifs with h
  · simp
  · simpa using h

theorem evaluate_sync (np : ℕ) (len : ℕ → ℕ) (t : ℕ → ℕ → K) (st : ℕ → Held K) (h : ∀ r < np, ∀ i < len r, (st r).net i = (st r).temp i) (r : ℕ) (hr : r < np) (i : ℕ) (hi : i < len r) :
    (evaluate np len t st r).net i = (evaluate np len t st r).temp i ∧ |(evaluate np len t st r).net i - t r i| ≤ 1 / 10 := by
  have key : (evaluate np len t st r).temp i = refresh (t r) (st r).temp i := by simp [evaluate, hi]
  have e : (evaluate np len t st r).net i = (evaluate np len t st r).temp i := by
    rw [key]
    unfold evaluate
    dsimp only
    split_ifs with hany
    · simp [hi]
    · rw [h r hr i hi]
      have : differs (t r) (st r).temp i = false := by
        simp only [List.any_eq_true, not_exists, not_and] at hany
        have := hany r (List.mem_range.2 hr) i (List.mem_range.2 hi)
        simpa using this
      simp [refresh, this]
  exact ⟨e, by rw [e, key]; exact refresh_close _ _ _⟩

/-- **C66, temperatures.** After any sequence of evaluations, on every process the network computes its rates with the temperatures of the solver, none of which is off by more than a tenth of a degree from what the handler last returned. -/
theorem evaluations_fresh (np : ℕ) (len : ℕ → ℕ) (ts : List (ℕ → ℕ → K)) (t : ℕ → ℕ → K) (st : ℕ → Held K) (h : ∀ r < np, ∀ i < len r, (st r).net i = (st r).temp i)
    (r : ℕ) (hr : r < np) (i : ℕ) (hi : i < len r) :
    (evaluations np len (ts ++ [t]) st r).net i = (evaluations np len (ts ++ [t]) st r).temp i ∧ |(evaluations np len (ts ++ [t]) st r).net i - t r i| ≤ 1 / 10 := by
  have inv : ∀ (ts : List (ℕ → ℕ → K)) (st : ℕ → Held K), (∀ r < np, ∀ i < len r, (st r).net i = (st r).temp i) →
      ∀ r < np, ∀ i < len r, (evaluations np len ts st r).net i = (evaluations np len ts st r).temp i := by
    intro ts
    induction ts with
    | nil => intro st h; exact h
    | cons a ts ih => intro st h; exact ih _ fun r hr i hi => (evaluate_sync np len a st h r hr i hi).1
  have : evaluations np len (ts ++ [t]) st = evaluate np len t (evaluations np len ts st) := by simp [evaluations, List.foldl_append]
  rw [this]
  exact evaluate_sync np len t _ (inv ts st h) r hr i hi

/-- A temperature that never strays by more than a tenth from the one in use is never replaced, and the network is not updated. -/
theorem evaluate_quiet (np : ℕ) (len : ℕ → ℕ) (t : ℕ → ℕ → K) (st : ℕ → Held K) (h : ∀ r < np, ∀ i < len r, |(st r).temp i - t r i| ≤ 1 / 10) (r : ℕ) (hr : r < np) :
    evaluate np len t st r = st r := by
  have hd : ∀ r < np, ∀ i < len r, differs (t r) (st r).temp i = false := by
    intro r hr i hi; simpa [differs] using h r hr i hi
  unfold evaluate
  dsimp only
  rw [if_neg]
  · ext i
    · dsimp only
      split_ifs with hi
      · simp [refresh, hd r hr i hi]
      · rfl
    · rfl
  · simp only [List.any_eq_true, not_exists, not_and]
    intro r hr i hi
    rw [hd r (List.mem_range.1 hr) i (List.mem_range.1 hi)]; simp

/-- **C66, temperatures.** Processes that share a point (one of them as a ghost) and began with the same temperature for it keep the same. -/
theorem evaluations_shared (np : ℕ) (len : ℕ → ℕ) (ts : List (ℕ → ℕ → K)) (r q i j : ℕ) (hi : i < len r) (hj : j < len q) : ∀ (st : ℕ → Held K), (st r).temp i = (st q).temp j →
    (∀ t ∈ ts, t r i = t q j) → (evaluations np len ts st r).temp i = (evaluations np len ts st q).temp j := by
  induction ts with
  | nil => intro st h _; exact h
  | cons a ts ih =>
    intro st h ht
    refine ih _ ?_ fun t hm => ht t (List.mem_cons_of_mem _ hm)
    simp only [evaluate, hi, hj, if_true, refresh, differs, h, ht a (List.mem_cons_self ..)]
    rfl

example : ((evaluations 2 (fun _ => 3) [fun _ _ => (1001 / 10 : ℚ), fun _ _ => 102] (fun _ => ⟨fun _ => 100, fun _ => 100⟩)) 1).net 2 = 102 := by decide +kernel

/-! ### Depths and trap mutation -/

/-- **C66, what fails.** Except at the end of the grid, the depth handed over with a temperature is not that of its point but that of the next. -/
theorem depths_next (g : ℕ → K) (nX xs surf len i : ℕ) (hi : i < len) (hend : xs + i ≠ nX + 1) :
    (depths g nX xs surf len)[i]? = some (depth g surf (xs + i)) ∧ pointOf xs i = (xs + i : ℕ) - 1 := by
  constructor
  · unfold depths
    rw [List.getElem?_map, List.getElem?_range hi, Option.map_some, if_neg hend, depth, add_comm (g (xs + i + 1))]
  · simp [pointOf]

/-- **C66, what fails.** On the process that holds the surface, in one dimension, trap mutation is given the temperature of point 0, which lies above the surface, instead of the first point below it. -/
theorem surface_index (g : ℕ → K) (hg : StrictMono g) (nX xm : ℕ) (hn : 1 ≤ nX) (hcell : 1 / 50 < g 2 - g 1) :
    tempId (depths g nX 0 0 (xm + 2)) = 1 ∧ pointOf 0 1 = 0 ∧ depth g 0 0 < 0 ∧ 1 / 100 < depth g 0 1 := by
  have h01 := hg (show 0 < 1 by omega)
  have e0 : depth g 0 0 < 0 := by unfold depth; simp only [Nat.zero_add]; linarith
  have e1 : 1 / 100 < depth g 0 1 := by unfold depth; simp only [Nat.zero_add, Nat.reduceAdd]; linarith
  refine ⟨?_, rfl, e0, e1⟩
  unfold tempId depths
  rw [show xm + 2 = (xm + 1) + 1 by omega, List.range_succ_eq_map, List.map_cons, List.map_map, List.range_succ_eq_map, List.map_cons, List.findIdx_cons, List.findIdx_cons]
  have a : ¬ (1 / 100 : K) < (g (0 + 0 + 1) + g (0 + 0)) / 2 - g (0 + 1) := by
    unfold depth at e0; simp only [Nat.zero_add] at e0 ⊢; intro h
    have : (0 : K) < 1 / 100 := by norm_num
    linarith
  have b : (1 / 100 : K) < (if (0 + Nat.succ 0) = nX + 1 then g (0 + Nat.succ 0) - g (0 + 1) else (g (0 + Nat.succ 0 + 1) + g (0 + Nat.succ 0)) / 2 - g (0 + 1)) := by
    rw [if_neg (by omega)]
    unfold depth at e1; simp only [Nat.zero_add, Nat.reduceAdd, Nat.succ_eq_add_one] at e1 ⊢; linarith
  rw [if_neg (by omega)]
  have a' : decide ((g (0 + 0 + 1) + g (0 + 0)) / 2 - g (0 + 1) > (1 / 100 : K)) = false := decide_eq_false a
  rw [a']
  simp only [Function.comp, cond_false]
  have b' : decide ((if (0 + Nat.succ 0) = nX + 1 then g (0 + Nat.succ 0) - g (0 + 1) else (g (0 + Nat.succ 0 + 1) + g (0 + Nat.succ 0)) / 2 - g (0 + 1)) > (1 / 100 : K)) = true := decide_eq_true b
  rw [b']
  rfl

/-- **C66, what fails.** In two dimensions, a process all of whose points lie above the surface reads outside the vector of temperatures. -/
theorem above_undefined (m : TmMaterial) (g : ℕ → K) (hg : StrictMono g) (nX xs surf : ℕ) (temps : List K) (h : xs + temps.length ≤ surf + 1) (hs : surf ≤ nX) :
    tables m temps (depths g nX xs surf temps.length) = none := by
  unfold tables tempId
  have hz : ∀ d ∈ depths g nX xs surf temps.length, ¬ d > 1 / 100 := by
    intro d hd
    unfold depths at hd
    rw [List.mem_map] at hd
    obtain ⟨i, hi, rfl⟩ := hd
    have hi' := List.mem_range.1 hi
    rw [if_neg (by omega)]
    have m1 := hg.monotone (show xs + i + 1 ≤ surf + 1 by omega)
    have m2 := hg.monotone (show xs + i ≤ surf + 1 by omega)
    have : (0 : K) < 1 / 100 := by norm_num
    intro hc; linarith
  rw [List.findIdx_eq_length_of_false]
  · simp [depths]
  · intro d hd; simpa using hz d hd

/-- **C66, trap mutation.** Full claim: all processes use the tables for the temperature at the surface.  Proved if the temperature is on the same side of 1066.5 K everywhere. -/
theorem tables_same_partial (m : TmMaterial) (temps temps' ds ds' : List K) (h : tempId ds < temps.length) (h' : tempId ds' < temps'.length)
    (hs : (∀ t ∈ temps, t < 2133 / 2) ∧ (∀ t ∈ temps', t < 2133 / 2) ∨ (∀ t ∈ temps, 2133 / 2 ≤ t) ∧ ∀ t ∈ temps', 2133 / 2 ≤ t) :
    ∃ x, tables m temps ds = some x ∧ tables m temps' ds' = some x := by
  unfold tables
  rw [List.getElem?_eq_getElem h, List.getElem?_eq_getElem h', Option.map_some, Option.map_some]
  refine ⟨_, rfl, ?_⟩
  unfold TmMaterial.updateData
  rcases hs with ⟨a, b⟩ | ⟨a, b⟩
  · rw [decide_eq_true (a _ (List.getElem_mem h)), decide_eq_true (b _ (List.getElem_mem h'))]
  · rw [decide_eq_false (not_lt.2 (a _ (List.getElem_mem h))), decide_eq_false (not_lt.2 (b _ (List.getElem_mem h')))]

/-- Two processes, the second below the surface: with 1100 degrees at the surface and 1000 further below they use different tables. -/
theorem tables_differ : ∃ (g : ℕ → ℚ) (a b : List ℚ), StrictMono g ∧ a = [1100, 1100, 1100, 1000] ∧ b = [1100, 1000, 1000, 1000].tail ∧
    tables .w100 a (depths g 3 0 0 4) ≠ tables .w100 b (depths g 3 2 0 3) := by
  refine ⟨fun n => n, _, _, fun a b h => (Nat.cast_lt.2 h : (a : ℚ) < b), rfl, rfl, ?_⟩
  have e1 : tempId (depths (fun n : ℕ => (n : ℚ)) 3 0 0 4) = 1 := by decide +kernel
  have e2 : tempId (depths (fun n : ℕ => (n : ℚ)) 3 2 0 3) = 0 := by decide +kernel
  unfold tables
  rw [e1, e2]
  intro h
  simp only [List.tail_cons, List.getElem?_cons_succ, List.getElem?_cons_zero, Option.map_some, Option.some.injEq, TmMaterial.updateData, TmMaterial.table] at h
  rw [decide_eq_false (by norm_num), decide_eq_true (by norm_num)] at h
  simp at h

/-! ### Trap mutation over the grid -/

theorem select_unique (t : TmData K) (x : ℕ → K) (hx : StrictMono x) (l : Fin 7) (hfar : ∀ i, 1 / 100 ≤ |t.depths l - x i|) (i j : ℕ)
    (hi : (t.select (x (i + 1)) (x (i + 1) - x i)).enabled l = true) (hj : (t.select (x (j + 1)) (x (j + 1) - x j)).enabled l = true) : i = j := by
  have key : ∀ i, (t.select (x (i + 1)) (x (i + 1) - x i)).enabled l = true → x i < t.depths l ∧ t.depths l < x (i + 1) := by
    intro i h
    rw [tm_select_iff] at h
    obtain ⟨-, a, b⟩ := h
    constructor
    · have := hfar i
      rcases le_abs'.1 this with c | c <;> linarith
    · have := hfar (i + 1)
      rcases le_abs'.1 this with c | c <;> linarith
  by_contra hne
  rcases lt_or_gt_of_ne hne with h | h
  · have := hx.monotone (show i + 1 ≤ j from h); linarith [(key i hi).2, (key j hj).1]
  · have := hx.monotone (show j + 1 ≤ i from h); linarith [(key j hj).2, (key i hi).1]

/-- **C66, trap mutation.** A depth of the tables that lies in the grid and is not within a hundredth of a point is selected at exactly one point. -/
theorem select_once (t : TmData K) (x : ℕ → K) (hx : StrictMono x) (l : Fin 7) (h0 : t.depths l ≠ 0) (n : ℕ) (hn : 0 < n) (hlo : x 0 ≤ t.depths l) (hhi : t.depths l ≤ x n)
    (hfar : ∀ i, 1 / 100 ≤ |t.depths l - x i|) : ∃! i, i < n ∧ (t.select (x (i + 1)) (x (i + 1) - x i)).enabled l = true := by
  obtain ⟨i, hi, h⟩ := tm_select_covered t x n l h0 hlo hhi hn
  exact ⟨i, ⟨hi, h⟩, fun j hj => select_unique t x hx l hfar j i hj.2 h⟩

/-- Near a point it is selected at two. -/
example : ∃ t : TmData ℚ, (t.select 1 1).enabled 0 = true ∧ (t.select 2 1).enabled 0 = true :=
  ⟨⟨none, 0, 0, 0, fun _ => 1, fun _ => 0, fun _ => false⟩, by decide +kernel, by decide +kernel⟩

end Xolotl.Solver.Sweep
