import Verif.IO.Sparse
import Verif.IO.RaggedProps
import Mathlib.Algebra.Order.Ring.Defs
import Mathlib.Algebra.Order.Ring.Rat
import Mathlib.Algebra.Order.AbsoluteValue.Basic
import Mathlib.Algebra.Field.Rat

/-!
# Sparse storage of the concentrations of a grid point: properties (C35)
-/

set_option linter.unusedSectionVars false

namespace Xolotl.IO.Sparse

variable {K : Type*} [Field K] [LinearOrder K] [IsStrictOrderedRing K]

theorem overlay_saveFrom (eps : K) (c done rest : List K) (h : rest.length = c.length) :
    overlay (saveFrom eps done.length c) (done ++ rest) = some (done ++ List.zipWith (fun x o => if eps < |x| then x else o) c rest) := by
  induction c generalizing done rest with
  | nil =>
    have : rest = [] := List.length_eq_zero_iff.mp h
    subst this; rfl
  | cons x c ih =>
    cases rest with
    | nil => cases h
    | cons o rest =>
      have hl : rest.length = c.length := by simpa using h
      unfold saveFrom
      rw [List.zipIdx_cons, List.filterMap_cons]
      by_cases hx : eps < |x|
      · simp only [hx, if_true]
        unfold overlay
        rw [List.foldlM_cons]
        simp only [List.length_append, List.length_cons]
        rw [if_pos (by omega)]
        have hset : (done ++ o :: rest).set done.length x = (done ++ [x]) ++ rest := by simp
        rw [hset]
        have := ih (done ++ [x]) rest hl
        rw [List.length_append, List.length_singleton] at this
        simp only [List.zipWith_cons_cons, hx, if_true]
        rw [List.append_assoc] at this ⊢
        exact (this.trans (by rw [List.append_assoc]; rfl))
      · simp only [hx, if_false]
        have := ih (done ++ [o]) rest hl
        rw [List.length_append, List.length_singleton, List.append_assoc, List.append_assoc] at this
        simp only [List.zipWith_cons_cons, hx, if_false]
        exact this

/-- Applying the saved entries to any vector of the same length: entries above the cut-off are restored, the others keep what was there. -/
theorem overlay_save (eps : K) (c old : List K) (h : old.length = c.length) :
    ∃ r, overlay (save eps c) old = some r ∧ r.length = c.length ∧ ∀ l (hl : l < c.length) (hr : l < r.length), r[l] = if eps < |c[l]| then c[l] else old[l] := by
  have := overlay_saveFrom eps c [] old h
  refine ⟨_, this, by simp [h], ?_⟩
  intro l hl hr
  simp

theorem saveFrom_last (eps : K) (c : List K) (t : K) (k : ℕ) (ht : eps < |t|) : (saveFrom eps k (c ++ [t])).getLast? = some (k + c.length, t) := by
  unfold saveFrom
  rw [List.zipIdx_append, List.filterMap_append, List.zipIdx_singleton]
  simp [ht]

/-- The value kept by the checkpoint. -/
def cut (eps x : K) : K := if eps < |x| then x else 0

theorem cut_close (eps x : K) (h : 0 ≤ eps) : |cut eps x - x| ≤ eps := by
  unfold cut
  split_ifs with hx
  · simpa using h
  · push Not at hx; simpa using hx

/-- The restart of a grid point restores every concentration, those below the cut-off as zero, and its temperature. -/
theorem restart_save (eps : K) (c : List K) (t temp : K) (ht : eps < |t|) :
    restart c.length temp (save eps (c ++ [t])) = some (c.map (cut eps) ++ [t], t) := by
  unfold restart save
  have h1 := overlay_saveFrom eps (c ++ [t]) [] (fresh c.length temp) (by simp [fresh])
  rw [List.nil_append, List.nil_append, List.length_nil] at h1
  rw [h1, Option.bind_some, saveFrom_last eps c t 0 ht, Option.map_some]
  congr 2
  unfold fresh
  rw [List.zipWith_append (by simp)]
  congr 1
  · apply List.ext_getElem
    · simp
    · intro i a b; simp [cut]
  · simp [ht]

/-- Every restored value is within the cut-off of the saved one. -/
theorem restart_close (eps : K) (he : 0 ≤ eps) (c : List K) (t temp : K) (ht : eps < |t|) :
    ∃ r, restart c.length temp (save eps (c ++ [t])) = some (r, t) ∧ r.length = (c ++ [t]).length ∧
      ∀ l (hl : l < (c ++ [t]).length) (hr : l < r.length), |r[l] - (c ++ [t])[l]| ≤ eps := by
  refine ⟨_, restart_save eps c t temp ht, by simp, ?_⟩
  intro l hl hr
  rw [List.getElem_append, List.getElem_append]
  simp only [List.length_map, List.getElem_map]
  split_ifs with h
  · exact cut_close eps _ he
  · simp [he]

/-- A temperature at or below the cut-off: the network receives another stored value as temperature. -/
theorem cold_temperature : restart 2 (300 : ℚ) (save (1 / 10) [5, 7, 0]) = some ([5, 7, 300], 7) := by decide +kernel

/-- If nothing is above the cut-off the last entry of an empty list is read. -/
theorem all_negligible (eps : K) (c : List K) (temp : K) (h : ∀ x ∈ c, |x| ≤ eps) (dof : ℕ) : restart dof temp (save eps c) = none := by
  have : save eps c = [] := by
    unfold save saveFrom
    rw [List.filterMap_eq_nil_iff]
    intro x hx
    rw [if_neg (not_lt.mpr (h x.1 (List.fst_mem_of_mem_zipIdx hx)))]
  rw [this]
  unfold restart
  simp [overlay]

/-- A smaller network cannot take the entries: the write is outside the grid point. -/
theorem smaller_network (eps : K) (c : List K) (t temp : K) (ht : eps < |t|) (dof : ℕ) (h : dof < c.length) : restart dof temp (save eps (c ++ [t])) = none := by
  have hlen : ∀ (s : List (ℕ × K)) (a r : List K), overlay s a = some r → (∀ p ∈ s, p.1 < a.length) := by
    intro s
    induction s with
    | nil => intro a r _ p hp; cases hp
    | cons q s ih =>
      intro a r hr p hp
      unfold overlay at hr
      rw [List.foldlM_cons] at hr
      split_ifs at hr with hq
      · rcases List.mem_cons.mp hp with rfl | hp
        · exact hq
        · have := ih (a.set q.1 q.2) r hr p hp
          simpa using this
      · cases hr
  unfold restart
  cases ho : overlay (save eps (c ++ [t])) (fresh dof temp) with
  | none => rfl
  | some r =>
    have hm : (0 + c.length, t) ∈ save eps (c ++ [t]) := List.mem_of_getLast? (saveFrom_last eps c t 0 ht)
    have := hlen _ _ _ ho _ hm
    simp [fresh] at this
    omega

/-- `getConcVector` then `setConcVector` with space: exact above the cut-off, what was there before otherwise. -/
theorem transfer_stale : overlay (save (1 / 10 : ℚ) [5, 0, 300]) [4, 3, 200] = some [5, 3, 300] := by decide +kernel

/-- `getConcVector` then `setConcVector` without space: exact. -/
theorem transfer0 (c old : List K) (h : old.length = c.length) : overlay (save0 c) old = some c := by
  have key : ∀ (c done rest : List K), rest.length = c.length → overlay ((c.zipIdx done.length).map fun x => (x.2, x.1)) (done ++ rest) = some (done ++ c) := by
    intro c
    induction c with
    | nil => intro done rest h; have : rest = [] := List.length_eq_zero_iff.mp h; subst this; rfl
    | cons x c ih =>
      intro done rest h
      cases rest with
      | nil => cases h
      | cons o rest =>
        rw [List.zipIdx_cons, List.map_cons]
        unfold overlay
        rw [List.foldlM_cons]
        simp only [List.length_append, List.length_cons]
        rw [if_pos (by omega)]
        have hset : (done ++ o :: rest).set done.length x = (done ++ [x]) ++ rest := by simp
        have := ih (done ++ [x]) rest (by simpa using h)
        rw [List.length_append, List.length_singleton] at this
        rw [hset]
        exact this.trans (by simp)
  exact key c [] old h

/-- The whole checkpoint of a one-dimensional grid: written by any ranks in any order and read by any ranks, every grid point restarts with its concentrations (negligible ones as zero) and its temperature. -/
theorem checkpoint_round_trip (eps : K) (dof : ℕ) (temp : ℕ → K) (parts : List (List (List K × K))) (order : List ℕ) (hne : parts ≠ []) (hp : ∀ pts ∈ parts, pts ≠ [])
    (hd : ∀ p ∈ parts.flatten, p.1.length = dof ∧ eps < |p.2|) (hn : parts.flatten.length + 1 < 2 ^ 32) (hi : parts.flatten.length * (dof + 1) < 2 ^ 32)
    (ho : order.Perm (List.range parts.length)) :
    ∃ f, Ragged.write (parts.map fun pts => pts.map fun p => save eps (p.1 ++ [p.2])) order = some f ∧
      ∀ b n, b + n ≤ parts.flatten.length → ∃ lists, Ragged.read f b n = some lists ∧ lists.length = n ∧
        ∀ i (_ : i < n) (hl : i < lists.length) (hb : b + i < parts.flatten.length),
          restart dof (temp i) lists[i] = some ((parts.flatten[b + i]).1.map (cut eps) ++ [(parts.flatten[b + i]).2], (parts.flatten[b + i]).2) := by
  have hflat : (parts.map fun pts => pts.map fun p => save eps (p.1 ++ [p.2])).flatten = parts.flatten.map fun p => save eps (p.1 ++ [p.2]) := List.map_flatten.symm
  have hsave : ∀ p ∈ parts.flatten, (save eps (p.1 ++ [p.2])).length ≤ dof + 1 := by
    intro p hp'
    have := List.length_filterMap_le (fun x : K × ℕ => if eps < |x.1| then some (x.2, x.1) else none) ((p.1 ++ [p.2]).zipIdx 0)
    unfold save saveFrom
    rw [List.length_zipIdx, List.length_append, List.length_singleton, (hd p hp').1] at this
    exact this
  have hcount : (parts.flatten.map fun p => save eps (p.1 ++ [p.2])).flatten.length ≤ parts.flatten.length * (dof + 1) := by
    clear hflat hd ho hn hi hp
    generalize parts.flatten = l at hsave
    induction l with
    | nil => simp
    | cons p l ih =>
      have h1 := hsave p (by simp)
      have h2 := ih fun q hq => hsave q (by simp [hq])
      rw [List.map_cons, List.flatten_cons, List.length_append, List.length_cons, Nat.add_mul]
      omega
  obtain ⟨f, hf, hr⟩ := Ragged.round_trip (parts.map fun pts => pts.map fun p => save eps (p.1 ++ [p.2])) order (by simpa using hne) (by simpa using hp)
    (by rw [hflat, List.length_map]; exact hn) (by rw [hflat]; omega) (by simpa using ho)
  refine ⟨f, hf, fun b n hbn => ⟨_, hr b n (by rw [hflat, List.length_map]; exact hbn), ?_, ?_⟩⟩
  · rw [hflat, List.length_take, List.length_drop, List.length_map]; omega
  · intro i hi' hl hb
    have hm := hd _ (List.getElem_mem hb)
    have e : (((parts.map fun pts => pts.map fun p => save eps (p.1 ++ [p.2])).flatten.drop b).take n)[i] = save eps ((parts.flatten[b + i]).1 ++ [(parts.flatten[b + i]).2]) := by
      rw [List.getElem_take, List.getElem_drop]
      simp only [hflat, List.getElem_map]
    rw [e, ← hm.1]
    exact restart_save eps _ _ _ hm.2

example : restart 3 (250 : ℚ) (save (1 / 10) [2, 1 / 100, -1, 300]) = some ([2, 0, -1, 300], 300) := by decide +kernel
example : ∃ f, Ragged.write ([[([2, 0], 300), ([0, 0], 310)], [([1 / 100, 5], 320)]].map fun pts => pts.map fun p : List ℚ × ℚ => save (1 / 10) (p.1 ++ [p.2])) [1, 0] = some f ∧
    ∀ b n, b + n ≤ 3 → ∃ lists, Ragged.read f b n = some lists ∧ lists.length = n :=
  have ⟨f, h, g⟩ := checkpoint_round_trip (1 / 10 : ℚ) 2 (fun _ => 0) [[([2, 0], 300), ([0, 0], 310)], [([1 / 100, 5], 320)]] [1, 0] (by simp) (by simp)
    (by decide +kernel) (by decide) (by decide) (by decide)
  ⟨f, h, fun b n hb => have ⟨l, h1, h2, _⟩ := g b n hb; ⟨l, h1, h2⟩⟩

end Xolotl.IO.Sparse
