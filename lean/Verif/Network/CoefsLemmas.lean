import Verif.Network.Coefs
import Verif.Network.RegionProps

/-!
# Helper lemmas for the coefficient theorems
-/

set_option linter.unusedSectionVars false

namespace Xolotl.Network

open Xolotl.Util

/-! ### Loops with a unique writer per entry -/

section Loop

variable {T V : Type*} {d : ℕ} (step : T → Fin d → T) (s0 : T)

/-- State before iteration `n`. -/
def pre (n : ℕ) : T := ((List.finRange d).take n).foldl step s0

theorem pre_zero : pre step s0 0 = s0 := by simp [pre]

theorem pre_succ (i : Fin d) : pre step s0 (i + 1) = step (pre step s0 i) i := by
  unfold pre
  have : (List.finRange d).take (i + 1) = (List.finRange d).take i ++ [i] := by
    rw [List.take_succ_eq_append_getElem (by simp)]
    simp
  rw [this, List.foldl_append]
  rfl

theorem pre_final : pre step s0 d = (List.finRange d).foldl step s0 := by
  unfold pre
  rw [List.take_of_length_le (by simp)]

variable {step s0} {get : T → V} {i : Fin d}
  (h : ∀ s j, j ≠ i → get (step s j) = get s)

include h in
/-- Before its writer iteration an entry has its initial value. -/
theorem pre_before (n : ℕ) (hn : n ≤ i) : get (pre step s0 n) = get s0 := by
  induction n with
  | zero => rw [pre_zero]
  | succ n ih =>
    have hi : n < d := by omega
    have := pre_succ step s0 ⟨n, hi⟩
    simp only at this
    rw [this, h _ _ (by intro h; have := congrArg Fin.val h; simp at this; omega), ih (by omega)]

include h in
/-- After its writer iteration an entry keeps the value written. -/
theorem pre_after (n : ℕ) (hn : i < n) (hd : n ≤ d) :
    get (pre step s0 n) = get (step (pre step s0 i) i) := by
  induction n with
  | zero => omega
  | succ n ih =>
    have hi : n < d := by omega
    have hs := pre_succ step s0 ⟨n, hi⟩
    simp only at hs
    rcases Nat.lt_or_ge i n with hlt | hge
    · rw [hs, h _ _ (by intro h; have := congrArg Fin.val h; simp at this; omega),
        ih hlt (by omega)]
    · have : (⟨n, hi⟩ : Fin d) = i := by ext; simp; omega
      rw [hs, this]
      have : n = i := by omega
      rw [this]

include h in
theorem final_eq : get ((List.finRange d).foldl step s0) = get (step (pre step s0 i) i) := by
  rw [← pre_final]
  exact pre_after h d i.2 le_rfl

/-- An entry that no iteration writes keeps its initial value. -/
theorem pre_never (h' : ∀ s j, get (step s j) = get s) (n : ℕ) (hd : n ≤ d) :
    get (pre step s0 n) = get s0 := by
  induction n with
  | zero => rw [pre_zero]
  | succ n ih =>
    have hi : n < d := by omega
    have hs := pre_succ step s0 ⟨n, hi⟩
    simp only at hs
    rw [hs, h', ih (by omega)]

theorem final_never (h' : ∀ s j, get (step s j) = get s) :
    get ((List.finRange d).foldl step s0) = get s0 := by
  rw [← pre_final]
  exact pre_never h' d le_rfl

end Loop

/-! ### Sums over product sets factorise -/

section Factor

variable {d : ℕ} {K : Type*} [Field K] [LinearOrder K] [IsStrictOrderedRing K] (r : ProdIn d K)

namespace ProdIn

/-- The quadruples of one axis. -/
abbrev axis (i : Fin d) : Finset Quad := quads (r.c1 i) (r.c2 i) (r.p1 i) (r.p2 i)

theorem mem_allQuads {x : Fin d → Quad} : x ∈ r.allQuads ↔ ∀ i, x i ∈ r.axis i := by
  simp [allQuads, axis]

/-- A factor depending on one axis only can be averaged separately. -/
theorem sum_split (i : Fin d) (u : Quad → K) (F : (Fin d → Quad) → K)
    (hF : ∀ x q, F (Function.update x i q) = F x) :
    ((r.axis i).card : K) * ∑ x ∈ r.allQuads, u (x i) * F x
      = (∑ q ∈ r.axis i, u q) * ∑ x ∈ r.allQuads, F x := by
  rw [Finset.sum_mul_sum, ← nsmul_eq_mul, ← Finset.sum_const]
  rw [← Finset.sum_product', ← Finset.sum_product']
  refine Finset.sum_bij' (fun p _ => (p.2 i, Function.update p.2 i p.1))
    (fun p _ => (p.2 i, Function.update p.2 i p.1)) ?_ ?_ ?_ ?_ ?_
  · rintro ⟨q, x⟩ h
    simp only [Finset.mem_product, mem_allQuads] at h ⊢
    refine ⟨h.2 i, fun j => ?_⟩
    by_cases hj : j = i
    · subst hj; simpa using h.1
    · simpa [Function.update_of_ne hj] using h.2 j
  · rintro ⟨q, x⟩ h
    simp only [Finset.mem_product, mem_allQuads] at h ⊢
    refine ⟨h.2 i, fun j => ?_⟩
    by_cases hj : j = i
    · subst hj; simpa using h.1
    · simpa [Function.update_of_ne hj] using h.2 j
  · rintro ⟨q, x⟩ h
    simp
  · rintro ⟨q, x⟩ h
    simp
  · rintro ⟨q, x⟩ h
    simp [hF]

theorem card_allQuads : (r.allQuads.card : K) = ∏ i, ((r.axis i).card : K) := by
  rw [allQuads, Fintype.card_piFinset]
  push_cast
  rfl

end ProdIn

end Factor

end Xolotl.Network
