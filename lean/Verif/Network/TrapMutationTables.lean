import Mathlib.Data.Rat.Defs
import Mathlib.Algebra.Order.Field.Basic
import Mathlib.Tactic.NormNum
import Mathlib.Tactic.FinCases
import Mathlib.Data.Fin.VecNotation
import Mathlib.Order.Fin.Basic
import Mathlib.Data.Fintype.Basic

/-!
# Modified trap-mutation tables

Model of the four handlers of
`/repo/xolotl/core/include/xolotl/core/network/detail/PSITrapMutation.h:14-135` and of `getTrapMutationHandler` (137-160).
-/

namespace Xolotl.Network

/-- Surface orientation. -/
inductive TmMaterial
  | w100 | w110 | w111 | w211
  deriving DecidableEq

/-- `getTrapMutationHandler` (PSITrapMutation.h:137-160): `none` is the exception for an unsupported material. -/
def tmMaterialOf : String → Option TmMaterial
  | "W100" => some .w100
  | "W110" => some .w110
  | "W111" => some .w111
  | "W211" => some .w211
  | _ => none

/-- `getAllVSizes`. -/
def TmMaterial.allVSizes : TmMaterial → Fin 7 → List ℕ
  | .w100 => ![[], [1], [1], [1], [1, 2], [2], [2]]
  | .w110 => ![[], [1], [1], [1], [1], [2, 1], [2]]
  | .w111 => ![[1], [1], [1], [1], [1], [1], [2]]
  | .w211 => ![[1], [1], [1], [2], [2, 1], [2], [2, 3]]

/-- `_depths`, `_vSizes` and `_desorp` (size, portion) as set by `updateData(temp)`; `cold` is `temp < 1066.5`. Depths and portions are the decimal
literals of the source. -/
def TmMaterial.table : TmMaterial → Bool → (Fin 7 → ℚ) × (Fin 7 → ℕ) × ℕ × ℚ
  | .w100, true => (![-1/10, 5/10, 6/10, 6/10, 8/10, 8/10, 8/10], ![0, 1, 1, 1, 1, 2, 2], 2, 4/100)
  | .w100, false => (![-1/10, 5/10, 6/10, 8/10, 6/10, 8/10, 8/10], ![0, 1, 1, 1, 2, 2, 2], 2, 19/100)
  | .w110, true => (![-1/10, 7/10, 9/10, 9/10, 9/10, 11/10, 11/10], ![0, 1, 1, 1, 1, 2, 2], 2, 31/100)
  | .w110, false => (![-1/10, 7/10, 9/10, 9/10, 9/10, 11/10, 11/10], ![0, 1, 1, 1, 1, 1, 2], 2, 32/100)
  | .w111, true => (![6/10, 8/10, 11/10, 11/10, 12/10, 13/10, 13/10], ![1, 1, 1, 1, 1, 1, 2], 1, 61/100)
  | .w111, false => (![6/10, 8/10, 11/10, 11/10, 11/10, 11/10, 11/10], ![1, 1, 1, 1, 1, 1, 2], 1, 35/100)
  | .w211, true => (![5/10, 8/10, 10/10, 10/10, 10/10, 13/10, 15/10], ![1, 1, 1, 2, 2, 2, 2], 1, 64/100)
  | .w211, false => (![5/10, 8/10, 10/10, 10/10, 13/10, 13/10, 12/10], ![1, 1, 1, 2, 1, 2, 3], 1, 59/100)

/-- `updateData(temp)`. -/
def TmMaterial.updateData {K : Type*} [Field K] [LinearOrder K] (m : TmMaterial) (temp : K) :
    (Fin 7 → ℚ) × (Fin 7 → ℕ) × ℕ × ℚ := m.table (decide (temp < 2133 / 2))


section
variable {K : Type*} [Field K] [LinearOrder K]

/-- **C47 (closure)** At every temperature and for every orientation, the vacancy size that is active for He_{l+1} is one of the sizes for which reactions were generated;
the only exceptions are size 0 entries, for which there is no reaction and whose depth is negative (outside of the material). -/
theorem tm_tables_closed (m : TmMaterial) (temp : K) (l : Fin 7) :
    (m.updateData temp).2.1 l ∈ m.allVSizes l ∨
      ((m.updateData temp).2.1 l = 0 ∧ (m.updateData temp).1 l < 0 ∧ m.allVSizes l = []) := by
  unfold TmMaterial.updateData
  generalize decide (temp < 2133 / 2) = b
  revert l
  cases m <;> cases b <;> decide +kernel

/-- **C47 (no useless reaction)** Conversely every size for which reactions are generated becomes active at some temperature. -/
theorem tm_tables_used (m : TmMaterial) (l : Fin 7) (k : ℕ) (h : k ∈ m.allVSizes l) :
    ∃ temp : ℚ, (m.updateData temp).2.1 l = k := by
  have key : ∃ b, (m.table b).2.1 l = k := by
    have : ∀ l, ∀ k ∈ m.allVSizes l, ∃ b, (m.table b).2.1 l = k := by
      cases m <;> decide +kernel
    exact this l k h
  obtain ⟨b, hb⟩ := key
  cases b with
  | true => exact ⟨0, by simpa [TmMaterial.updateData] using hb⟩
  | false => exact ⟨2000, by
      have : decide ((2000 : ℚ) < 2133 / 2) = false := by decide +kernel
      simpa [TmMaterial.updateData, this] using hb⟩

/-- The desorbing helium cluster is one of the mutating sizes and its portion is a proper fraction, so that the rate `(1 - p) / p` of its trap mutation is positive. -/
theorem tm_tables_desorption (m : TmMaterial) (temp : K) :
    1 ≤ (m.updateData temp).2.2.1 ∧ (m.updateData temp).2.2.1 ≤ 7 ∧
    0 < (m.updateData temp).2.2.2 ∧ (m.updateData temp).2.2.2 < 1 ∧
    0 < (1 - (m.updateData temp).2.2.2) / (m.updateData temp).2.2.2 := by
  unfold TmMaterial.updateData
  generalize decide (temp < 2133 / 2) = b
  cases m <;> cases b <;> decide +kernel

/-- **C47 (desorption)** The desorbing cluster is, at every temperature, the smallest helium cluster that mutates: it has a reaction and no smaller one has. -/
theorem tm_tables_desorption_smallest (m : TmMaterial) (temp : K) (l : Fin 7) :
    (l.val + 1 = (m.updateData temp).2.2.1 → m.allVSizes l ≠ [] ∧ 0 < (m.updateData temp).1 l) ∧
    (l.val + 1 < (m.updateData temp).2.2.1 → m.allVSizes l = [] ∧ (m.updateData temp).1 l < 0) := by
  unfold TmMaterial.updateData
  generalize decide (temp < 2133 / 2) = b
  revert l
  cases m <;> cases b <;> decide +kernel

/-- Deeper helium sizes: within one table no positive depth exceeds 1.5 nm. -/
theorem tm_tables_depth_bound (m : TmMaterial) (temp : K) (l : Fin 7) :
    (m.updateData temp).1 l ≠ 0 ∧ (m.updateData temp).1 l ≤ 3 / 2 := by
  unfold TmMaterial.updateData
  generalize decide (temp < 2133 / 2) = b
  revert l
  cases m <;> cases b <;> decide +kernel

end

/-- Non-vacuity: He_7 on W211 mutates with 2 vacancies below 1066.5 K and with 3 above. -/
example : (TmMaterial.w211.updateData (933 : ℚ)).2.1 6 = 2 ∧
    (TmMaterial.w211.updateData (1200 : ℚ)).2.1 6 = 3 := by decide +kernel

end Xolotl.Network
