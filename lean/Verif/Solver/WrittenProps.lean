import Verif.Solver.Written
import Verif.Solver.TempTransferProps
import Verif.Network.TotalsProps
import Mathlib.Tactic.Linarith
import Mathlib.Tactic.Ring
import Mathlib.Tactic.NormNum

/-!
# Properties of the rows and lines that the monitors write
-/

set_option linter.unusedSectionVars false

namespace Xolotl.Solver.Written

open Xolotl.Network Xolotl.Network.Totals Xolotl.Solver.TempTransfer

variable {K : Type*} [Field K] [LinearOrder K] [IsStrictOrderedRing K] {R : Type*}

/-- The ranks have the points one after the other from `a` on; `b` comes after the last. -/
def Consecutive : ℕ → List (ℕ × ℕ) → ℕ → Prop
  | a, [], b => a = b
  | a, r :: l, b => r.1 = a ∧ Consecutive (a + r.2) l b

theorem consecutive_le : ∀ (l : List (ℕ × ℕ)) (a b : ℕ), Consecutive a l b → a ≤ b
  | [], _, _, h => le_of_eq h
  | r :: l, a, b, h => le_trans (Nat.le_add_right _ _) (consecutive_le l (a + r.2) b h.2)

/-! ## TRIDYN -/

/-- Where a rank writes: for each of its points that is not left of the offset, the row `xi - left`; nowhere else. -/
theorem write_eq (left xs xm : ℕ) (row : ℕ → R) (f : ℕ → Option R) (j : ℕ) :
    write left xs xm row f j = if xs ≤ j + left ∧ j + left < xs + xm then some (row (j + left)) else f j := by
  unfold write numPoints firstIdx
  dsimp only
  by_cases h : xs ≤ j + left ∧ j + left < xs + xm
  · rw [if_pos h, if_pos]
    · congr 2
      omega
    · split <;> omega
  · rw [if_neg h, if_neg]
    split <;> omega

theorem file_go (left : ℕ) (row : ℕ × ℕ → ℕ → R) (j : ℕ) : ∀ (l : List (ℕ × ℕ)) (a b : ℕ), Consecutive a l b → ∀ f : ℕ → Option R,
    (j + left < a → l.foldl (fun f r => write left r.1 r.2 (row r) f) f j = f j) ∧
    (b ≤ j + left → l.foldl (fun f r => write left r.1 r.2 (row r) f) f j = f j) ∧
    (a ≤ j + left → j + left < b → ∃ r ∈ l, r.1 ≤ j + left ∧ j + left < r.1 + r.2 ∧
      l.foldl (fun f r => write left r.1 r.2 (row r) f) f j = some (row r (j + left)))
  | [], a, b, h, f => by
    refine ⟨fun _ => rfl, fun _ => rfl, fun h1 h2 => ?_⟩
    have : a = b := h
    omega
  | r :: l, a, b, h, f => by
    obtain ⟨ha, hl⟩ := h
    have hle := consecutive_le l _ _ hl
    have ih := file_go left row j l (a + r.2) b hl (write left r.1 r.2 (row r) f)
    rw [List.foldl_cons]
    refine ⟨fun h1 => ?_, fun h1 => ?_, fun h1 h2 => ?_⟩
    · rw [ih.1 (by omega), write_eq, if_neg (by omega)]
    · rw [ih.2.1 h1, write_eq, if_neg (by omega)]
    · by_cases hr : j + left < a + r.2
      · refine ⟨r, List.mem_cons_self, by omega, by omega, ?_⟩
        rw [ih.1 hr, write_eq, if_pos (by omega)]
      · obtain ⟨q, hq, h3, h4, h5⟩ := ih.2.2 (by omega) h2
        exact ⟨q, List.mem_cons_of_mem _ hq, h3, h4, h5⟩

/-- **Every row is written, once, by the rank that has the point**, and nothing is written outside of the `nX - left` rows of the file. -/
theorem file_rows (left nX : ℕ) (ranks : List (ℕ × ℕ)) (hr : Consecutive 0 ranks nX) (row : ℕ × ℕ → ℕ → R) (j : ℕ) :
    (j + left < nX → ∃ r ∈ ranks, r.1 ≤ j + left ∧ j + left < r.1 + r.2 ∧ file left ranks row j = some (row r (j + left))) ∧
    (nX ≤ j + left → file left ranks row j = none) := by
  have := file_go left row j ranks 0 nX hr fun _ => none
  exact ⟨fun h => this.2.2 (Nat.zero_le _) h, fun h => this.2.1 h⟩

/-- The place of an entry of the interpolated temperatures is the depth of the point before. -/
theorem depth_loc (grid : ℕ → K) (xi : ℕ) : depth grid xi = loc grid (xi + 1) := by
  unfold depth loc
  rw [if_neg (by omega)]
  rfl

/-- **Depths and atoms are those of the point; the temperature is that of the point before**, and on the rank that has the surface that of the point `left + 1` before. -/
theorem tridyn_row (nX left : ℕ) (grid tg T : ℕ → K) (atoms : ℕ → List K) (ranks : List (ℕ × ℕ)) (hr : Consecutive 0 ranks nX) (xi : ℕ)
    (h1 : left ≤ xi) (h2 : xi < nX) :
    ∃ r ∈ ranks, r.1 ≤ xi ∧ xi < r.1 + r.2 ∧ tridyn nX left grid tg T atoms ranks (xi - left) =
      some (loc grid (xi + 1), atoms xi, some (interpAt nX tg T (T (nX + 1)) (loc grid (if left ≤ r.1 then xi else xi - left + r.1)))) := by
  obtain ⟨r, hm, h3, h4, h5⟩ := (file_rows left nX ranks hr (fun r xi => tridynRow left grid atoms (interpolate nX grid tg T r.1 r.2) r.1 xi) (xi - left)).1 (by omega)
  rw [Nat.sub_add_cancel h1] at h3 h4 h5
  refine ⟨r, hm, h3, h4, ?_⟩
  unfold tridyn
  rw [h5]
  unfold tridynRow interpolate firstIdx
  rw [depth_loc]
  refine congrArg some (Prod.ext rfl (Prod.ext rfl ?_))
  dsimp only
  rw [List.getElem?_map, List.getElem?_range (by omega), Option.map_some]
  congr 3
  split <;> omega

/-- **What is written as the temperature of a point**, when both grids are the same: not the temperature of the point (`T (xi + 1)`) but the one before. -/
theorem tridyn_wrong (nX : ℕ) (grid : ℕ → K) (hg : StrictMono grid) (T : ℕ → K) (atoms : ℕ → List K) (xi : ℕ) (h2 : xi < nX) :
    tridyn nX 0 grid grid T atoms [(0, nX)] xi = some (loc grid (xi + 1), atoms xi, some (T xi)) := by
  obtain ⟨r, hm, h3, h4, h5⟩ := tridyn_row nX 0 grid grid T atoms [(0, nX)] ⟨rfl, by simp [Consecutive]⟩ xi (Nat.zero_le _) h2
  rw [List.mem_singleton] at hm
  subst hm
  rw [Nat.sub_zero] at h5
  rw [h5, if_pos (Nat.zero_le _), interp_exact nX grid hg T _ xi (by omega)]

example : tridyn 3 1 (fun i => (i : ℚ)) (fun i => (i : ℚ)) (fun i => 100 * i) (fun _ => [7]) [(0, 2), (2, 1)] 0 = some (1 / 2, [7], some 0) ∧
    tridyn 3 1 (fun i => (i : ℚ)) (fun i => (i : ℚ)) (fun i => 100 * i) (fun _ => [7]) [(0, 2), (2, 1)] 1 = some (3 / 2, [7], some 200) ∧
    tridyn 3 1 (fun i => (i : ℚ)) (fun i => (i : ℚ)) (fun i => 100 * i) (fun _ => [7]) [(0, 2), (2, 1)] 2 = none := by decide +kernel

/-! ## The temperature profile -/

theorem column_go (nX : ℕ) (grid tg T : ℕ → K) (xi : ℕ) : ∀ (l : List (ℕ × ℕ)) (a b : ℕ), Consecutive a l b →
    profileColumn nX grid tg T l xi = if a ≤ xi ∧ xi < b then interpAt nX tg T (T (nX + 1)) (loc grid (xi + 1)) else 0
  | [], a, b, h => by
    have : a = b := h
    rw [if_neg (by omega)]
    rfl
  | r :: l, a, b, h => by
    obtain ⟨ha, hl⟩ := h
    have hle := consecutive_le l _ _ hl
    have ih := column_go nX grid tg T xi l (a + r.2) b hl
    unfold profileColumn at ih ⊢
    rw [List.map_cons, List.sum_cons, ih]
    by_cases h1 : r.1 ≤ xi ∧ xi < r.1 + r.2
    · rw [if_pos h1, if_neg (by omega), if_pos (by omega), add_zero]
      unfold interpolate
      rw [List.getD_eq_getElem?_getD, List.getElem?_map, List.getElem?_range (by omega)]
      simp only [Option.map_some, Option.getD_some]
      congr 2
      omega
    · rw [if_neg h1, zero_add]
      exact if_congr (by omega) rfl rfl

/-- **The profile gives every point its own temperature**, however the points are distributed. -/
theorem profile_right (nX left right : ℕ) (grid tg T : ℕ → K) (ranks : List (ℕ × ℕ)) (hr : Consecutive 0 ranks nX) :
    profile nX left right grid tg T ranks =
      (List.range' left (nX - right - left)).map fun xi => interpAt nX tg T (T (nX + 1)) (loc grid (xi + 1)) := by
  unfold profile
  refine List.map_congr_left fun xi hx => ?_
  rw [column_go nX grid tg T xi ranks 0 nX hr, if_pos]
  rw [List.mem_range'] at hx
  obtain ⟨i, hi, rfl⟩ := hx
  omega

example : profile 3 1 0 (fun i => (i : ℚ)) (fun i => (i : ℚ)) (fun i => 100 * i) [(0, 2), (2, 1)] = [200, 300] := by decide +kernel

/-! ## Data lines -/

theorem fold_add {A : Type*} (g : A → ℕ → K) (F : (ℕ → K) → A → ℕ → K) (hF : ∀ v a i, F v a i = v i + g a i) (l : List A) (v : ℕ → K) (i : ℕ) :
    l.foldl F v i = v i + (l.map fun a => g a i).sum := by
  induction l generalizing v with
  | nil => simp
  | cons a l ih => rw [List.foldl_cons, ih, hF, List.map_cons, List.sum_cons, add_assoc]

variable {d : ℕ}

/-- What one point adds to an entry. -/
def added (f : Format) (minSizes : Fin d → ℕ) (total : Quantity d → K) (i : ℕ) : K :=
  ((List.finRange d).map fun s => (f.columns.zipIdx.map fun p =>
    if f.columns.length * s.val + p.2 = i then total (quantity p.1 minSizes s) * p.1.factor else 0).sum).sum

theorem addValues_eq (f : Format) (minSizes : Fin d → ℕ) (total : Quantity d → K) (fac : K) (vals : ℕ → K) (i : ℕ) :
    addValues f minSizes total fac vals i = vals i + fac * added f minSizes total i := by
  unfold addValues added
  rw [fold_add (fun (s : Fin d) i => fac * (f.columns.zipIdx.map fun p =>
    if f.columns.length * s.val + p.2 = i then total (quantity p.1 minSizes s) * p.1.factor else 0).sum) _ ?_, sum_map_smul]
  intro v s i
  rw [fold_add (fun (p : Column × ℕ) i => fac * if f.columns.length * s.val + p.2 = i then total (quantity p.1 minSizes s) * p.1.factor else 0) _ ?_, sum_map_smul]
  intro v p i
  by_cases h : i = f.columns.length * s.val + p.2
  · subst h
    rw [Function.update_self, if_pos rfl]
    ring
  · rw [Function.update_of_ne h, if_neg (Ne.symm h)]
    ring

theorem sum_one {A : Type*} [DecidableEq A] (l : List A) (hl : l.Nodup) (x : A) (hx : x ∈ l) (g : A → K) (h : ∀ y ∈ l, y ≠ x → g y = 0) : (l.map g).sum = g x := by
  induction l with
  | nil => exact absurd hx (by simp)
  | cons a l ih =>
    rw [List.map_cons, List.sum_cons]
    have hn := List.nodup_cons.1 hl
    by_cases e : a = x
    · subst e
      rw [List.sum_eq_zero, add_zero]
      intro z hz
      obtain ⟨y, hy, rfl⟩ := List.mem_map.1 hz
      exact h y (List.mem_cons_of_mem _ hy) fun e => hn.1 (e ▸ hy)
    · rw [h a List.mem_cons_self e, zero_add]
      exact ih hn.2 ((List.mem_cons.1 hx).resolve_left (Ne.symm e)) fun y hy => h y (List.mem_cons_of_mem _ hy)

/-- **Each entry has its own species and column.** -/
theorem added_entry (f : Format) (minSizes : Fin d → ℕ) (total : Quantity d → K) (s : Fin d) (n : ℕ) (hn : n < f.columns.length) :
    added f minSizes total (f.columns.length * s.val + n) = total (quantity f.columns[n] minSizes s) * f.columns[n].factor := by
  have inj : ∀ a b m : ℕ, m < f.columns.length → f.columns.length * a + m = f.columns.length * b + n → a = b ∧ m = n := by
    intro a b m hm h
    have h1 := congrArg (· / f.columns.length) h
    have h2 := congrArg (· % f.columns.length) h
    simp only [Nat.mul_add_div (Nat.lt_of_le_of_lt (Nat.zero_le _) hn), Nat.div_eq_of_lt hm, Nat.div_eq_of_lt hn, Nat.mul_add_mod,
      Nat.mod_eq_of_lt hm, Nat.mod_eq_of_lt hn, Nat.add_zero] at h1 h2
    exact ⟨h1, h2⟩
  unfold added
  rw [sum_one (List.finRange d) (List.nodup_finRange d) s (List.mem_finRange s)]
  · have key : ∀ (cols : List Column) (k : ℕ), n < k + cols.length → k ≤ n →
        ((cols.zipIdx k).map fun p => if f.columns.length * s.val + p.2 = f.columns.length * s.val + n then total (quantity p.1 minSizes s) * (p.1.factor : K) else 0).sum
          = if h : n - k < cols.length then total (quantity cols[n - k] minSizes s) * (cols[n - k].factor : K) else 0 := by
      intro cols
      induction cols with
      | nil => intro k h1 h2; simp
      | cons c cols ih =>
        intro k h1 h2
        rw [List.zipIdx_cons, List.map_cons, List.sum_cons]
        by_cases e : k = n
        · subst e
          rw [if_pos rfl, dif_pos (by simp), List.sum_eq_zero, add_zero]
          · simp
          · intro z hz
            obtain ⟨p, hp, rfl⟩ := List.mem_map.1 hz
            have := List.le_snd_of_mem_zipIdx hp
            rw [if_neg (by omega)]
        · rw [if_neg (by dsimp only; omega), zero_add, ih (k + 1) (by simp at h1; omega) (by omega)]
          have hlt : n - (k + 1) < cols.length := by simp at h1; omega
          have e2 : n - k = n - (k + 1) + 1 := by omega
          rw [dif_pos hlt, dif_pos (by simp; omega)]
          simp only [e2, List.getElem_cons_succ]
    rw [key f.columns 0 (by omega) (Nat.zero_le _), dif_pos (by simpa using hn)]
    simp
  · intro y _ hy
    refine List.sum_eq_zero fun z hz => ?_
    obtain ⟨p, hp, rfl⟩ := List.mem_map.1 hz
    have := (List.mem_zipIdx hp).2.1
    rw [if_neg]
    intro h
    exact hy (Fin.ext (inj _ _ _ (by omega) h).1)

theorem collect_eq (f : Format) (minSizes : Fin d → ℕ) (grid : ℕ → K) (total : ℕ → Quantity d → K) (pts : List ℕ) (i : ℕ) :
    collect f minSizes grid total pts i = (pts.map fun xi => (grid (xi + 1) - grid xi) * added f minSizes (total xi) i).sum := by
  unfold collect
  rw [fold_add (fun xi i => (grid (xi + 1) - grid xi) * added f minSizes (total xi) i) _ fun v xi i => addValues_eq _ _ _ _ _ _, zero_add]

/-- The points of all ranks together. -/
def computed (first right nX : ℕ) : List ℕ := (List.range nX).filter fun xi => !(decide (xi < first) || decide (xi = nX - right))

theorem ranks_points (first right nX : ℕ) : ∀ (l : List (ℕ × ℕ)) (a b : ℕ), Consecutive a l b →
    l.flatMap (points first right nX) = (List.range' a (b - a)).filter fun xi => !(decide (xi < first) || decide (xi = nX - right))
  | [], a, b, h => by
    have : a = b := h
    simp [this]
  | r :: l, a, b, h => by
    obtain ⟨ha, hl⟩ := h
    have hle := consecutive_le l _ _ hl
    rw [List.flatMap_cons, ranks_points first right nX l (a + r.2) b hl]
    unfold points
    rw [ha, ← List.filter_append]
    have : b - a = r.2 + (b - (a + r.2)) := by omega
    rw [this, ← List.range'_append_1]

/-- **The sums over the ranks are sums over all points**, however the points are distributed. -/
theorem reduced (f : Format) (minSizes : Fin d → ℕ) (grid : ℕ → K) (total : ℕ → Quantity d → K) (first right nX : ℕ) (ranks : List (ℕ × ℕ))
    (hr : Consecutive 0 ranks nX) (i : ℕ) :
    (ranks.map fun r => collect f minSizes grid total (points first right nX r) i).sum =
      ((computed first right nX).map fun xi => (grid (xi + 1) - grid xi) * added f minSizes (total xi) i).sum := by
  have := ranks_points first right nX ranks 0 nX hr
  unfold computed
  rw [Nat.sub_zero, ← List.range_eq_range'] at this
  rw [← this]
  simp only [collect_eq]
  clear this hr
  induction ranks with
  | nil => rfl
  | cons r l ih => rw [List.map_cons, List.sum_cons, ih, List.flatMap_cons, List.map_append, List.sum_append]

/-- The averages of one species. -/
def averageOne (f : Format) (i : ℕ) (data : ℕ → K) : ℕ → K :=
  f.averages.foldl (fun data p =>
    let id := fun n => f.columns.length * i + n
    if 1 / 10 ^ 16 < data (id p.2) then Function.update data (id p.1) (data (id p.1) / data (id p.2)) else data) data

/-- The averages of a species concern its own entries only. -/
theorem averageOne_other (f : Format) (hf : ∀ p ∈ f.averages, p.1 < f.columns.length) (i : ℕ) (data : ℕ → K) (s n : ℕ) (hn : n < f.columns.length) (hs : s ≠ i) :
    averageOne f i data (f.columns.length * s + n) = data (f.columns.length * s + n) := by
  unfold averageOne
  generalize hl : f.averages = l at hf
  clear hl
  induction l generalizing data with
  | nil => rfl
  | cons p l ih =>
    rw [List.foldl_cons, ih _ fun q hq => hf q (List.mem_cons_of_mem _ hq)]
    dsimp only
    split
    · rw [Function.update_of_ne]
      intro h
      have h1 := congrArg (· / f.columns.length) h
      have hp := hf p List.mem_cons_self
      simp only [Nat.mul_add_div (Nat.lt_of_le_of_lt (Nat.zero_le _) hn), Nat.div_eq_of_lt hn, Nat.div_eq_of_lt hp, Nat.add_zero] at h1
      exact hs h1
    · rfl

/-- They depend on its own entries only. -/
theorem averageOne_congr (f : Format) (hf : ∀ p ∈ f.averages, p.1 < f.columns.length ∧ p.2 < f.columns.length) (i : ℕ) (data data' : ℕ → K)
    (h : ∀ n < f.columns.length, data (f.columns.length * i + n) = data' (f.columns.length * i + n)) (n : ℕ) (hn : n < f.columns.length) :
    averageOne f i data (f.columns.length * i + n) = averageOne f i data' (f.columns.length * i + n) := by
  unfold averageOne
  generalize hl : f.averages = l at hf
  clear hl
  induction l generalizing data data' with
  | nil => exact h n hn
  | cons p l ih =>
    rw [List.foldl_cons, List.foldl_cons]
    obtain ⟨h1, h2⟩ := hf p List.mem_cons_self
    refine ih _ _ (fun m hm => ?_) fun q hq => hf q (List.mem_cons_of_mem _ hq)
    dsimp only
    rw [h _ h2]
    split
    · by_cases e : m = p.1
      · subst e
        rw [Function.update_self, Function.update_self, h _ h1]
      · rw [Function.update_of_ne (by omega), Function.update_of_ne (by omega), h m hm]
    · exact h m hm

theorem average_entry (f : Format) (hf : ∀ p ∈ f.averages, p.1 < f.columns.length ∧ p.2 < f.columns.length) (d : ℕ) (data : ℕ → K) (s n : ℕ) (hs : s < d)
    (hn : n < f.columns.length) : average f d data (f.columns.length * s + n) = averageOne f s data (f.columns.length * s + n) := by
  have step : ∀ d, (s < d → ∀ n < f.columns.length, average f d data (f.columns.length * s + n) = averageOne f s data (f.columns.length * s + n)) ∧
      (d ≤ s → ∀ n < f.columns.length, average f d data (f.columns.length * s + n) = data (f.columns.length * s + n)) := by
    intro d
    induction d with
    | zero => exact ⟨fun h => absurd h (by omega), fun _ _ _ => rfl⟩
    | succ d ih =>
      have e : average f (d + 1) data = averageOne f d (average f d data) := by
        unfold average
        rw [List.range_succ, List.foldl_append]
        rfl
      rw [e]
      refine ⟨fun h m hm => ?_, fun h m hm => ?_⟩
      · by_cases hd : s = d
        · subst hd
          exact averageOne_congr f hf s _ _ (ih.2 le_rfl) m hm
        · rw [averageOne_other f (fun p hp => (hf p hp).1) d _ s m hm hd]
          exact ih.1 (by omega) m hm
      · rw [averageOne_other f (fun p hp => (hf p hp).1) d _ s m hm (by omega)]
        exact ih.2 (by omega) m hm
  exact (step d).1 hs n hn

/-- The sum over all points of a total, with the width of each point. -/
def summed (grid : ℕ → K) (total : ℕ → Quantity d → K) (P : List ℕ) (q : Quantity d) : K := (P.map fun xi => (grid (xi + 1) - grid xi) * total xi q).sum

/-- A sum or, if there is more than next to nothing, its average. -/
def mean (x n : K) : K := if 1 / 10 ^ 16 < n then x / n else x

theorem entry_summed (f : Format) (minSizes : Fin d → ℕ) (grid : ℕ → K) (total : ℕ → Quantity d → K) (P : List ℕ) (s : Fin d) (n : ℕ) (hn : n < f.columns.length) :
    (P.map fun xi => (grid (xi + 1) - grid xi) * added f minSizes (total xi) (f.columns.length * s.val + n)).sum =
      summed grid total P (quantity f.columns[n] minSizes s) * f.columns[n].factor := by
  unfold summed
  rw [mul_comm (List.sum _), ← sum_map_smul]
  refine congrArg List.sum (List.map_congr_left fun xi _ => ?_)
  rw [added_entry f minSizes (total xi) s n hn]
  ring

/-- Two averages of entries that are all different. -/
theorem two_averages (cols : List Column) (a b c e i : ℕ) (hac : a ≠ c) (hae : a ≠ e) (data : ℕ → K) :
    let D := averageOne ⟨cols, [(a, b), (c, e)]⟩ i data
    let w := cols.length
    D (w * i + a) = mean (data (w * i + a)) (data (w * i + b)) ∧ D (w * i + c) = mean (data (w * i + c)) (data (w * i + e)) ∧
    ∀ n, n ≠ a → n ≠ c → D (w * i + n) = data (w * i + n) := by
  intro D w
  have hD : D = let D1 := if 1 / 10 ^ 16 < data (w * i + b) then Function.update data (w * i + a) (data (w * i + a) / data (w * i + b)) else data
      if 1 / 10 ^ 16 < D1 (w * i + e) then Function.update D1 (w * i + c) (D1 (w * i + c) / D1 (w * i + e)) else D1 := rfl
  rw [hD]
  dsimp only
  have h1 : ∀ n, n ≠ a → (if 1 / 10 ^ 16 < data (w * i + b) then Function.update data (w * i + a) (data (w * i + a) / data (w * i + b)) else data) (w * i + n) = data (w * i + n) := by
    intro n hn
    split
    · rw [Function.update_of_ne (by omega)]
    · rfl
  have h2 : (if 1 / 10 ^ 16 < data (w * i + b) then Function.update data (w * i + a) (data (w * i + a) / data (w * i + b)) else data) (w * i + a)
      = mean (data (w * i + a)) (data (w * i + b)) := by
    unfold mean
    split
    · rw [Function.update_self]
    · rfl
  generalize (if 1 / 10 ^ 16 < data (w * i + b) then Function.update data (w * i + a) (data (w * i + a) / data (w * i + b)) else data) = D1 at h1 h2
  rw [h1 e (Ne.symm hae), h1 c (Ne.symm hac)]
  refine ⟨?_, ?_, fun n hna hnc => ?_⟩
  · split
    · rw [Function.update_of_ne (by omega), h2]
    · exact h2
  · unfold mean
    split
    · rw [Function.update_self]
    · exact h1 c (Ne.symm hac)
  · split
    · rw [Function.update_of_ne (by omega), h1 n hna]
    · exact h1 n hna

/-- The entries of a line, before they are averaged, and how they are read. -/
theorem line_entry (f : Format) (hf : ∀ p ∈ f.averages, p.1 < f.columns.length ∧ p.2 < f.columns.length) (minSizes : Fin d → ℕ) (grid : ℕ → K)
    (total : ℕ → Quantity d → K) (first right nX : ℕ) (ranks : List (ℕ × ℕ)) (hr : Consecutive 0 ranks nX) (s : Fin d) :
    ∃ data : ℕ → K, (∀ n (hn : n < f.columns.length), data (f.columns.length * s.val + n)
        = summed grid total (computed first right nX) (quantity f.columns[n] minSizes s) * f.columns[n].factor) ∧
      ∀ n < f.columns.length, (line f minSizes grid total first right nX ranks)[f.columns.length * s.val + n]?
        = some (averageOne f s.val data (f.columns.length * s.val + n)) := by
  refine ⟨fun i => (ranks.map fun r => collect f minSizes grid total (points first right nX r) i).sum, fun n hn => ?_, fun n hn => ?_⟩
  · exact (reduced f minSizes grid total first right nX ranks hr _).trans (entry_summed f minSizes grid total _ s n hn)
  · have hlt : f.columns.length * s.val + n < f.columns.length * d := by
      calc f.columns.length * s.val + n < f.columns.length * s.val + f.columns.length := by omega
        _ = f.columns.length * (s.val + 1) := by ring
        _ ≤ f.columns.length * d := Nat.mul_le_mul_left _ s.isLt
    unfold line
    rw [List.getElem?_map, List.getElem?_range hlt, Option.map_some]
    exact congrArg some (average_entry f hf d _ s.val n s.isLt hn)

/-- **The line of alloys**, species by species: the number of clusters, their mean diameter, and the same from the minimum size on; however the points are distributed. -/
theorem line_alloy (minSizes : Fin d → ℕ) (grid : ℕ → K) (total : ℕ → Quantity d → K) (first right nX : ℕ) (ranks : List (ℕ × ℕ))
    (hr : Consecutive 0 ranks nX) (s : Fin d) :
    let P := computed first right nX
    let L := line alloy minSizes grid total first right nX ranks
    L.length = 4 * d ∧
    L[4 * s.val]? = some (summed grid total P ⟨.total, s, 1⟩) ∧
    L[4 * s.val + 1]? = some (mean (2 * summed grid total P ⟨.radius, s, 1⟩) (summed grid total P ⟨.total, s, 1⟩)) ∧
    L[4 * s.val + 2]? = some (summed grid total P ⟨.total, s, minSizes s⟩) ∧
    L[4 * s.val + 3]? = some (mean (2 * summed grid total P ⟨.radius, s, minSizes s⟩) (summed grid total P ⟨.total, s, minSizes s⟩)) := by
  intro P L
  obtain ⟨data, hd, hL⟩ := line_entry alloy (by decide) minSizes grid total first right nX ranks hr s
  obtain ⟨a1, a3, a⟩ := two_averages alloy.columns 1 0 3 2 s.val (by decide) (by decide) data
  have d0 := hd 0 (by decide)
  have d1 := hd 1 (by decide)
  have d2 := hd 2 (by decide)
  have d3 := hd 3 (by decide)
  simp only [alloy, quantity, List.getElem_cons_zero, List.getElem_cons_succ, Nat.cast_one, mul_one, Nat.cast_ofNat, Bool.false_eq_true, if_false, if_true,
    List.length_cons, List.length_nil, Nat.zero_add, Nat.reduceAdd] at d0 d1 d2 d3
  refine ⟨by simp [L, line, alloy], ?_, ?_, ?_, ?_⟩
  · exact (hL 0 (by decide)).trans (congrArg some ((a 0 (by decide) (by decide)).trans d0))
  · refine (hL 1 (by decide)).trans (congrArg some (a1.trans ?_))
    exact congrArg₂ mean (d1.trans (mul_comm _ _)) d0
  · exact (hL 2 (by decide)).trans (congrArg some ((a 2 (by decide) (by decide)).trans d2))
  · refine (hL 3 (by decide)).trans (congrArg some (a3.trans ?_))
    exact congrArg₂ mean (d3.trans (mul_comm _ _)) d2

/-- **The line of zirconium**: the number of clusters, the atoms, the mean diameter, and the same from the minimum size on. -/
theorem line_zr (minSizes : Fin d → ℕ) (grid : ℕ → K) (total : ℕ → Quantity d → K) (first right nX : ℕ) (ranks : List (ℕ × ℕ))
    (hr : Consecutive 0 ranks nX) (s : Fin d) :
    let P := computed first right nX
    let L := line zr minSizes grid total first right nX ranks
    L.length = 6 * d ∧
    L[6 * s.val]? = some (summed grid total P ⟨.total, s, 1⟩) ∧
    L[6 * s.val + 1]? = some (summed grid total P ⟨.atom, s, 1⟩) ∧
    L[6 * s.val + 2]? = some (mean (2 * summed grid total P ⟨.radius, s, 1⟩) (summed grid total P ⟨.total, s, 1⟩)) ∧
    L[6 * s.val + 3]? = some (summed grid total P ⟨.total, s, minSizes s⟩) ∧
    L[6 * s.val + 4]? = some (summed grid total P ⟨.atom, s, minSizes s⟩) ∧
    L[6 * s.val + 5]? = some (mean (2 * summed grid total P ⟨.radius, s, minSizes s⟩) (summed grid total P ⟨.total, s, minSizes s⟩)) := by
  intro P L
  obtain ⟨data, hd, hL⟩ := line_entry zr (by decide) minSizes grid total first right nX ranks hr s
  obtain ⟨a1, a3, a⟩ := two_averages zr.columns 2 0 5 3 s.val (by decide) (by decide) data
  have d0 := hd 0 (by decide)
  have d1 := hd 1 (by decide)
  have d2 := hd 2 (by decide)
  have d3 := hd 3 (by decide)
  have d4 := hd 4 (by decide)
  have d5 := hd 5 (by decide)
  simp only [zr, quantity, List.getElem_cons_zero, List.getElem_cons_succ, Nat.cast_one, mul_one, Nat.cast_ofNat, Bool.false_eq_true, if_false, if_true,
    List.length_cons, List.length_nil, Nat.zero_add, Nat.reduceAdd] at d0 d1 d2 d3 d4 d5
  refine ⟨by simp [L, line, zr], ?_, ?_, ?_, ?_, ?_, ?_⟩
  · exact (hL 0 (by decide)).trans (congrArg some ((a 0 (by decide) (by decide)).trans d0))
  · exact (hL 1 (by decide)).trans (congrArg some ((a 1 (by decide) (by decide)).trans d1))
  · refine (hL 2 (by decide)).trans (congrArg some (a1.trans ?_))
    exact congrArg₂ mean (d2.trans (mul_comm _ _)) d0
  · exact (hL 3 (by decide)).trans (congrArg some ((a 3 (by decide) (by decide)).trans d3))
  · exact (hL 4 (by decide)).trans (congrArg some ((a 4 (by decide) (by decide)).trans d4))
  · refine (hL 5 (by decide)).trans (congrArg some (a3.trans ?_))
    exact congrArg₂ mean (d5.trans (mul_comm _ _)) d3

/-- **The quantities of a species can be asked for together**: both combinations are among those that `getTotals` accepts. -/
theorem formats_accepted : alloy.columns.map (·.kind) ∈ accepted ∧ zr.columns.map (·.kind) ∈ accepted := by decide

/-! ## What the numbers mean -/

theorem radius_between (net : List (Cluster d)) (h : Boxes net) (radius c : ℕ → K) (hc : ∀ a ∈ net, 0 ≤ c a.dof) (k : Fin d) (m : ℕ) (lo hi : K)
    (hr : ∀ a ∈ net, (m : ℤ) < (a.reg k).e → lo ≤ radius a.dof ∧ radius a.dof ≤ hi) :
    lo * totalConcentration net c k m ≤ totalRadius net radius c k m ∧ totalRadius net radius c k m ≤ hi * totalConcentration net c k m := by
  unfold totalConcentration totalRadius
  rw [← sum_map_smul, ← sum_map_smul]
  have key : ∀ a ∈ net, ∀ j ∈ sizes a k m, lo ≤ radius a.dof ∧ radius a.dof ≤ hi ∧ 0 ≤ c a.dof * factor a k := by
    intro a ha j hj
    unfold sizes at hj
    rw [Finset.mem_Ico] at hj
    obtain ⟨h1, h2⟩ := hr a ha (by omega)
    exact ⟨h1, h2, mul_nonneg (hc a ha) (factor_nonneg a k (h a ha k))⟩
  constructor <;> refine List.sum_le_sum fun a ha => ?_ <;> rw [Finset.mul_sum] <;> refine Finset.sum_le_sum fun j hj => ?_
  · obtain ⟨h1, -, h3⟩ := key a ha j hj
    nlinarith [mul_le_mul_of_nonneg_right h1 h3]
  · obtain ⟨-, h2, h3⟩ := key a ha j hj
    nlinarith [mul_le_mul_of_nonneg_right h2 h3]

/-- **The mean diameter lies between the smallest and the largest diameter** of the clusters that it counts; if there is next to nothing, what is printed is next to nothing. -/
theorem diameter_between (v : Fin d) (net : List (Cluster d)) (h : Boxes net) (radius : ℕ → K) (c : ℕ → ℕ → K) (hc : ∀ xi, ∀ a ∈ net, 0 ≤ c xi a.dof)
    (grid : ℕ → K) (hg : Monotone grid) (P : List ℕ) (k : Fin d) (m : ℕ) (lo hi : K) (hlo : 0 ≤ lo)
    (hr : ∀ a ∈ net, (m : ℤ) < (a.reg k).e → lo ≤ radius a.dof ∧ radius a.dof ≤ hi) :
    let total := fun xi => single v net radius (c xi)
    let n := summed grid total P ⟨.total, k, m⟩
    let x := mean (2 * summed grid total P ⟨.radius, k, m⟩) n
    (1 / 10 ^ 16 < n → 2 * lo ≤ x ∧ x ≤ 2 * hi) ∧ (n ≤ 1 / 10 ^ 16 → 0 ≤ x ∧ (0 ≤ hi → x ≤ 2 * hi / 10 ^ 16)) := by
  intro total n x
  have hn : ∀ xi, 0 ≤ grid (xi + 1) - grid xi := fun xi => sub_nonneg.2 (hg (Nat.le_succ xi))
  have b : lo * n ≤ summed grid total P ⟨.radius, k, m⟩ ∧ summed grid total P ⟨.radius, k, m⟩ ≤ hi * n := by
    unfold n summed
    rw [← sum_map_smul, ← sum_map_smul]
    constructor <;> refine List.sum_le_sum fun xi _ => ?_
    · have := mul_le_mul_of_nonneg_left (radius_between net h radius (c xi) (hc xi) k m lo hi hr).1 (hn xi)
      refine le_trans (le_of_eq ?_) this
      show lo * ((grid (xi + 1) - grid xi) * totalConcentration net (c xi) k m) = _
      ring
    · have := mul_le_mul_of_nonneg_left (radius_between net h radius (c xi) (hc xi) k m lo hi hr).2 (hn xi)
      refine le_trans this (le_of_eq ?_)
      show _ = hi * ((grid (xi + 1) - grid xi) * totalConcentration net (c xi) k m)
      ring
  have n0 : 0 ≤ n := by
    unfold n summed
    refine List.sum_nonneg fun y hy => ?_
    obtain ⟨xi, _, rfl⟩ := List.mem_map.1 hy
    refine mul_nonneg (hn xi) ?_
    show 0 ≤ totalConcentration net (c xi) k m
    unfold totalConcentration
    refine List.sum_nonneg fun z hz => ?_
    obtain ⟨a, ha, rfl⟩ := List.mem_map.1 hz
    exact Finset.sum_nonneg fun j _ => mul_nonneg (hc xi a ha) (factor_nonneg a k (h a ha k))
  constructor
  · intro hp
    have hpos : 0 < n := lt_trans (by positivity) hp
    unfold x mean
    rw [if_pos hp, le_div_iff₀ hpos, div_le_iff₀ hpos]
    constructor <;> linarith [b.1, b.2]
  · intro hp
    unfold x mean
    rw [if_neg (not_lt.2 hp)]
    refine ⟨by have := mul_nonneg hlo n0; linarith [b.1], fun h0 => ?_⟩
    have := mul_le_mul_of_nonneg_left hp h0
    rw [mul_div_assoc]
    rw [mul_one_div] at this
    linarith [b.2]

/-- **From the minimum size on there are no more clusters** than altogether, unless the minimum size is zero. -/
theorem partial_le (v : Fin d) (net : List (Cluster d)) (h : Boxes net) (radius : ℕ → K) (c : ℕ → ℕ → K) (hc : ∀ xi, ∀ a ∈ net, 0 ≤ c xi a.dof)
    (grid : ℕ → K) (hg : Monotone grid) (P : List ℕ) (k : Fin d) (m : ℕ) (hm : 1 ≤ m) :
    summed grid (fun xi => single v net radius (c xi)) P ⟨.total, k, m⟩ ≤ summed grid (fun xi => single v net radius (c xi)) P ⟨.total, k, 1⟩ := by
  unfold summed
  refine List.sum_le_sum fun xi _ => mul_le_mul_of_nonneg_left ?_ (sub_nonneg.2 (hg (Nat.le_succ xi)))
  show totalConcentration net (c xi) k m ≤ totalConcentration net (c xi) k 1
  unfold totalConcentration
  refine List.sum_le_sum fun a ha => ?_
  refine Finset.sum_le_sum_of_subset_of_nonneg (fun j hj => ?_) fun j _ _ => mul_nonneg (hc xi a ha) (factor_nonneg a k (h a ha k))
  unfold sizes at hj ⊢
  rw [Finset.mem_Ico] at hj ⊢
  omega

/-- A network of a void and of a loop. -/
def two : List (Cluster 2) := [⟨0, fun _ => none, fun i => if i = 0 then ⟨3, 4⟩ else ⟨0, 1⟩⟩, ⟨1, fun _ => none, fun i => if i = 0 then ⟨0, 1⟩ else ⟨5, 6⟩⟩]

/-- **With the minimum size zero** every cluster of any kind counts: more "from the minimum size on" than altogether. -/
theorem zero_counts_all : line alloy (fun _ => 0) (fun i => (i : ℚ)) (fun _ => single 0 two (fun i => i + 1) fun _ => 1) 1 0 3 [(0, 3)] =
    [2, 2, 4, 3, 2, 4, 4, 3] := by decide +kernel

example : line alloy (fun i => if i = 0 then 4 else 1) (fun i => (i : ℚ)) (fun _ => single 0 two (fun i => i + 1) fun _ => 1) 1 1 4 [(0, 1), (1, 3)] =
    [2, 2, 0, 0, 2, 4, 2, 4] := by decide +kernel

example : line zr (fun i => if i = 0 then 4 else 1) (fun i => (i : ℚ)) (fun _ => single 0 two (fun i => i + 1) fun _ => 1) 1 1 4 [(0, 1), (1, 3)] =
    [2, 6, 2, 0, 0, 0, 2, 10, 4, 2, 10, 4] := by decide +kernel

example : Boxes two ∧ (∀ a ∈ two, (1 : ℤ) < (a.reg 0).e → (1 : ℚ) ≤ ((a.dof : ℚ) + 1) ∧ ((a.dof : ℚ) + 1) ≤ 1) := by
  constructor
  · intro a ha k
    simp only [two, List.mem_cons, List.not_mem_nil, or_false] at ha
    rcases ha with rfl | rfl <;> fin_cases k <;> simp
  · intro a ha h
    simp only [two, List.mem_cons, List.not_mem_nil, or_false] at ha
    rcases ha with rfl | rfl
    · norm_num
    · simp at h

end Xolotl.Solver.Written
