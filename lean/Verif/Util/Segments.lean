import Mathlib.Algebra.BigOperators.Group.List.Basic
import Mathlib.Order.Monotone.Basic
import Mathlib.Data.List.Basic

/-!
# Concatenated lists

Facts about a list of lists stored one after the other, used for the compressed rows of the constant connectivities (C21), the cluster maps (C20) and the ragged datasets (C34).
-/

namespace Xolotl.Util.Seg

variable {α : Type*}

/-- Where list number `i` begins. -/
def start (ls : List (List α)) (i : ℕ) : ℕ := ((ls.take i).map List.length).sum

theorem start_zero (ls : List (List α)) : start ls 0 = 0 := by simp [start]

theorem start_succ (ls : List (List α)) {i : ℕ} (h : i < ls.length) : start ls (i + 1) = start ls i + ls[i].length := by
  simp only [start, List.map_take]
  rw [List.sum_take_succ _ _ (by simpa using h), List.getElem_map]

theorem start_cons (l : List α) (ls : List (List α)) (i : ℕ) : start (l :: ls) (i + 1) = l.length + start ls i := by
  simp [start]

theorem start_mono (ls : List (List α)) : Monotone (start ls) := by
  refine monotone_nat_of_le_succ fun i => ?_
  by_cases h : i < ls.length
  · rw [start_succ ls h]; omega
  · simp only [start]
    rw [List.take_of_length_le (by omega), List.take_of_length_le (by omega)]

theorem start_length (ls : List (List α)) : start ls ls.length = ls.flatten.length := by
  simp [start, List.length_flatten]

theorem start_lt (ls : List (List α)) {i k : ℕ} (h : i < ls.length) (hk : k < ls[i].length) :
    start ls i + k < ls.flatten.length := by
  rw [← start_length]
  calc start ls i + k < start ls (i + 1) := by rw [start_succ ls h]; omega
    _ ≤ _ := start_mono ls h

/-- Element `k` of list `i` is at `start i + k`. -/
theorem get (ls : List (List α)) {i k : ℕ} (h : i < ls.length) (hk : k < ls[i].length) :
    ls.flatten[start ls i + k]? = some (ls[i][k]) := by
  induction ls generalizing i with
  | nil => simp at h
  | cons l ls ih =>
    cases i with
    | zero =>
      simp only [List.getElem_cons_zero] at hk ⊢
      rw [start_zero, Nat.zero_add, List.flatten_cons, List.getElem?_append_left hk, List.getElem?_eq_getElem hk]
    | succ i =>
      simp only [List.length_cons, Nat.add_lt_add_iff_right] at h
      simp only [List.getElem_cons_succ] at hk ⊢
      rw [start_cons, List.flatten_cons, List.getElem?_append_right (by omega), ← ih h hk]
      congr 1
      omega

/-- Every place belongs to one of the lists. -/
theorem cover (ls : List (List α)) {p : ℕ} (hp : p < ls.flatten.length) :
    ∃ i k, ∃ h : i < ls.length, k < ls[i].length ∧ p = start ls i + k := by
  induction ls generalizing p with
  | nil => simp at hp
  | cons l ls ih =>
    rw [List.flatten_cons, List.length_append] at hp
    by_cases h : p < l.length
    · exact ⟨0, p, by simp, by simpa using h, by simp [start_zero]⟩
    · obtain ⟨i, k, hi, hk, e⟩ := ih (p := p - l.length) (by omega)
      refine ⟨i + 1, k, by simpa using hi, by simpa using hk, ?_⟩
      rw [start_cons]; omega

/-- Different elements have different places. -/
theorem inj (ls : List (List α)) {i j k m : ℕ} (hi : i < ls.length) (hj : j < ls.length) (hk : k < ls[i].length)
    (hm : m < ls[j].length) (e : start ls i + k = start ls j + m) : i = j ∧ k = m := by
  have key : ∀ {a b x y : ℕ} (ha : a < ls.length), x < ls[a].length → start ls a + x = start ls b + y → ¬ a < b := by
    intro a b x y ha hx e h
    have := start_mono ls (show a + 1 ≤ b from h)
    rw [start_succ ls ha] at this
    omega
  have h1 := key hi hk e
  have h2 := key hj hm e.symm
  have : i = j := by omega
  subst this
  exact ⟨rfl, by omega⟩

/-- A place within the bounds of list `i` holds an element of list `i`. -/
theorem within (ls : List (List α)) {i p : ℕ} (h : i < ls.length) (h1 : start ls i ≤ p) (h2 : p < start ls (i + 1)) :
    ∃ hk : p - start ls i < ls[i].length, ls.flatten[p]? = some (ls[i][p - start ls i]) := by
  rw [start_succ ls h] at h2
  have hk : p - start ls i < ls[i].length := by omega
  refine ⟨hk, ?_⟩
  rw [← get ls h hk]
  congr 1
  omega

end Xolotl.Util.Seg
