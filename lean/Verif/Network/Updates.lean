import Mathlib.Algebra.BigOperators.Group.List.Basic
import Mathlib.Algebra.BigOperators.Fin
import Mathlib.Algebra.Field.Basic
import Mathlib.Data.List.FinRange

/-!
# Accumulated atomic updates

Every flux and partial-derivative function of a reaction only performs `Kokkos::atomic_add` and
`Kokkos::atomic_sub` on entries of one output array
(`/repo/xolotl/core/include/xolotl/core/network/impl/Reaction.tpp`).  Such a function is modelled by the list of the updates it performs, in program
order; `netOf` is the total increment an entry receives.
-/

namespace Xolotl.Network

variable {ι K : Type*} [DecidableEq ι] [AddCommMonoid K]

/-- Total increment received by entry `n`. -/
def netOf (l : List (ι × K)) (n : ι) : K := (l.map fun u => if u.1 = n then u.2 else 0).sum

/-- Array after performing the updates one after the other. -/
def applyUpdates (a : ι → K) (l : List (ι × K)) : ι → K :=
  l.foldl (fun a u => Function.update a u.1 (a u.1 + u.2)) a

/-- An update guarded by `id != invalidIndex` (`none` is `invalidIndex`). -/
def emit (e : Option ι) (v : K) : List (ι × K) :=
  match e with
  | none => []
  | some e => [(e, v)]

/-- An update guarded by a condition. -/
def emitIf (p : Bool) (e : Option ι) (v : K) : List (ι × K) :=
  if p then emit e v else []

theorem applyUpdates_eq (a : ι → K) (l : List (ι × K)) (n : ι) :
    applyUpdates a l n = a n + netOf l n := by
  induction l generalizing a with
  | nil => simp [applyUpdates, netOf]
  | cons u l ih =>
    have h : applyUpdates a (u :: l)
        = applyUpdates (Function.update a u.1 (a u.1 + u.2)) l := rfl
    rw [h, ih]
    simp only [netOf, List.map_cons, List.sum_cons]
    by_cases hn : u.1 = n
    · subst hn
      simp [add_assoc]
    · rw [Function.update_of_ne (fun e => hn e.symm)]
      simp [hn]

theorem netOf_nil (n : ι) : netOf ([] : List (ι × K)) n = 0 := rfl

theorem netOf_cons (u : ι × K) (l : List (ι × K)) (n : ι) :
    netOf (u :: l) n = (if u.1 = n then u.2 else 0) + netOf l n := by
  simp [netOf]

theorem netOf_append (l₁ l₂ : List (ι × K)) (n : ι) :
    netOf (l₁ ++ l₂) n = netOf l₁ n + netOf l₂ n := by
  simp [netOf]

theorem netOf_emit (e : Option ι) (v : K) (n : ι) :
    netOf (emit e v) n = if e = some n then v else 0 := by
  cases e <;> simp [emit, netOf]

theorem netOf_emitIf (p : Bool) (e : Option ι) (v : K) (n : ι) :
    netOf (emitIf p e v) n = if p = true ∧ e = some n then v else 0 := by
  cases p <;> simp [emitIf, netOf_emit, netOf_nil]

theorem netOf_flatMap {α : Type*} (l : List α) (f : α → List (ι × K)) (n : ι) :
    netOf (l.flatMap f) n = (l.map fun a => netOf (f a) n).sum := by
  induction l with
  | nil => rfl
  | cons a l ih => simp [netOf_append, ih]

theorem netOf_finRange {d : ℕ} (f : Fin d → List (ι × K)) (n : ι) :
    netOf ((List.finRange d).flatMap f) n = ∑ i, netOf (f i) n := by
  rw [netOf_flatMap, Fin.sum_univ_def]

theorem netOf_perm {l₁ l₂ : List (ι × K)} (h : l₁.Perm l₂) (n : ι) :
    netOf l₁ n = netOf l₂ n := (h.map _).sum_eq

theorem netOf_eq_zero {l : List (ι × K)} {n : ι} (h : ∀ u ∈ l, u.1 ≠ n) : netOf l n = 0 := by
  induction l with
  | nil => rfl
  | cons u l ih =>
    rw [netOf_cons, if_neg (h u (by simp)), zero_add, ih fun v hv => h v (by simp [hv])]

end Xolotl.Network
