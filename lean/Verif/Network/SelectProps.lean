import Verif.Network.Select
import Mathlib.Tactic.Linarith
import Mathlib.Tactic.NormNum
import Mathlib.Tactic.Ring

set_option linter.unusedSectionVars false

/-!
# Properties of the selection of clusters (C64)
-/

namespace Xolotl.Network.Select

/-- Turns nested tests into a conjunction. -/
theorem ite_false_eq {p : Prop} [Decidable p] {b : Bool} : ((if p then false else b) = true) ↔ ¬p ∧ b = true := by
  split_ifs with h <;> simp [h]

/-! ### Fuel -/

/-- The composition belongs to the region. -/
def Mem3 (c : C3) (r : R3) : Prop := (r.lo.g ≤ c.g ∧ c.g < r.hi.g) ∧ (r.lo.v ≤ c.v ∧ c.v < r.hi.v) ∧ (r.lo.i ≤ c.i ∧ c.i < r.hi.i)

/-- Fuel: interstitials, single xenon, one or two vacancies, and bubbles, those with one xenon atom of at most eight vacancies. -/
inductive NeAllowed (o : O3) : C3 → Prop
  | interstitial (n : ℕ) : 0 < n → NeAllowed o ⟨0, 0, n⟩
  | xenon : 1 ≤ o.maxG → NeAllowed o ⟨1, 0, 0⟩
  | vacancy (n : ℕ) : 0 < n → n ≤ 2 → n ≤ o.maxV → NeAllowed o ⟨0, n, 0⟩
  | bubble (x v : ℕ) : 0 < x → x ≤ o.maxG → 0 < v → v ≤ o.maxV → (x = 1 → v ≤ 8) → NeAllowed o ⟨x, v, 0⟩

/-- **C64, fuel.** A single composition is selected exactly when it is meant to exist. -/
theorem neSelect_point (o : O3) (c : C3) : neSelect o (point3 c) = true ↔ NeAllowed o c := by
  obtain ⟨g, v, i⟩ := c
  unfold neSelect point3
  simp only [ite_false_eq, and_true, Nat.add_eq_right]
  constructor
  · rintro ⟨h1, h2, h3, h4, h5, h6, h7⟩
    rcases Nat.eq_zero_or_pos i with rfl | hi
    · rcases Nat.eq_zero_or_pos g with rfl | hg
      · exact .vacancy v (by omega) (by omega) (by omega)
      · rcases Nat.eq_zero_or_pos v with rfl | hv
        · obtain rfl : g = 1 := by omega
          exact .xenon (by omega)
        · exact .bubble g v hg (by omega) hv (by omega) (by omega)
    · obtain ⟨rfl, rfl⟩ : g = 0 ∧ v = 0 := by omega
      exact .interstitial i hi
  · intro h
    cases h with
    | interstitial n h => omega
    | xenon h => omega
    | vacancy n h1 h2 h3 => omega
    | bubble x v h1 h2 h3 h4 h5 => omega

/-- **C64, fuel.** A region with a composition meant to exist is selected, if it does not start at one xenon atom with more than eight vacancies inside. -/
theorem neSelect_group (o : O3) (r : R3) (c : C3) (hc : Mem3 c r) (ha : NeAllowed o c) (hx : r.lo.g = 1 → r.hi.v ≤ 9) : neSelect o r = true := by
  unfold Mem3 at hc
  unfold neSelect
  simp only [ite_false_eq, and_true]
  cases ha with
  | interstitial n h => simp only at hc; omega
  | xenon h => simp only at hc; omega
  | vacancy n h1 h2 h3 => simp only at hc; omega
  | bubble x v h1 h2 h3 h4 h5 => simp only at hc; omega

/-- **C64, fuel.** Without this the group is lost: the test meant for bubbles of one xenon atom looks at the start of the xenon range and at the end of the vacancy range. -/
theorem neSelect_group_lost : ∃ (o : O3) (r : R3) (c : C3), Mem3 c r ∧ NeAllowed o c ∧ neSelect o r = false :=
  ⟨⟨20, 20, 4, 4, 4⟩, ⟨⟨1, 8, 0⟩, ⟨2, 12, 1⟩⟩, ⟨1, 8, 0⟩, by unfold Mem3; decide, .bubble 1 8 (by decide) (by decide) (by decide) (by decide) (by decide), by decide⟩

/-- **C64, fuel.** A region that is not refined holds only compositions meant to exist, or starts at one xenon atom: groups do not reach beyond the maximum sizes and contain no pure clusters. -/
theorem neRefine_inside (o : O3) (r : R3) (h : (neRefine o r).1 = false) (hi : r.hi.i = 1) (c : C3) (hc : Mem3 c r) (hx : r.lo.g ≠ 1) : NeAllowed o c := by
  obtain ⟨g, v, i⟩ := c
  unfold Mem3 at hc
  simp only at hc
  unfold neRefine at h
  split_ifs at h with h1 h2 h3 h4 h5
  simp only [Bool.or_eq_false_iff, decide_eq_false_iff_not] at h
  obtain ⟨⟨⟨-, a1⟩, a2⟩, ⟨-, b1⟩, b2⟩ := h
  obtain rfl : i = 0 := by omega
  exact .bubble g v (by omega) (by omega) (by omega) (by omega) (by omega)

/-- **C64, fuel.** Below the minimum for grouping, and beyond both maximum sizes, every axis is refined. -/
theorem neRefine_small (o : O3) (r : R3) (h : (r.lo.g < o.gmin ∧ r.lo.v < o.gmin) ∨ r.lo.i > 0 ∨ (r.hi.g > o.maxG + 1 ∧ r.hi.v > o.maxV + 1)) :
    neRefine o r = (true, true, true, true) := by
  unfold neRefine
  split_ifs with h1 h2 h3 h4 h5
  · rfl
  · rfl
  · rfl
  · rfl
  · rfl
  · exact absurd h (by omega)

/-- **C64, fuel.** Whether a region away from the edges is refined along an axis depends on its length only: it is, when it is longer than the width and at least a tenth of its start. -/
theorem neRefine_axis (o : O3) (r : R3) (hi : r.lo.i = 0) (hg : 2 ≤ r.lo.g) (hv : 3 ≤ r.lo.v) (hm : o.gmin ≤ r.lo.g ∨ o.gmin ≤ r.lo.v)
    (h1 : r.hi.g ≤ o.maxG + 1) (h2 : r.hi.v ≤ o.maxV + 1) :
    ((neRefine o r).2.1 = true ↔ o.wG + 1 ≤ r.hi.g - r.lo.g ∧ r.lo.g ≤ 10 * (r.hi.g - r.lo.g))
    ∧ ((neRefine o r).2.2.1 = true ↔ o.wV + 1 ≤ r.hi.v - r.lo.v ∧ r.lo.v ≤ 10 * (r.hi.v - r.lo.v)) := by
  have key : ∀ lo hi w : ℕ, (!narrow lo hi w (1 / 10)) = true ↔ w + 1 ≤ hi - lo ∧ lo ≤ 10 * (hi - lo) := by
    intro lo hi w
    simp only [narrow, Bool.not_eq_true', decide_eq_false_iff_not, not_lt, max_le_iff]
    have a : ((w : ℚ) + 1 ≤ ((hi - lo : ℕ) : ℚ)) ↔ w + 1 ≤ hi - lo := by
      rw [show (w : ℚ) + 1 = ((w + 1 : ℕ) : ℚ) by push_cast; ring, Nat.cast_le]
    have b : ((lo : ℚ) * (1 / 10) ≤ ((hi - lo : ℕ) : ℚ)) ↔ lo ≤ 10 * (hi - lo) := by
      rw [show lo ≤ 10 * (hi - lo) ↔ ((lo : ℕ) : ℚ) ≤ ((10 * (hi - lo) : ℕ) : ℚ) from Nat.cast_le.symm]
      push_cast
      constructor <;> intro h <;> linarith
    rw [a, b]
  unfold neRefine
  rw [if_neg (by omega), if_neg (by omega), if_neg (by omega), if_neg (by omega), if_neg (by omega)]
  have e1 : decide (r.lo.g = 0) = false := decide_eq_false (by omega)
  have e2 : decide (r.hi.g > o.maxG + 1) = false := decide_eq_false (by omega)
  have e3 : decide (r.lo.v = 0) = false := decide_eq_false (by omega)
  have e4 : decide (r.hi.v > o.maxV + 1) = false := decide_eq_false (by omega)
  simp only [e1, e2, e3, e4, Bool.or_false]
  exact ⟨key _ _ _, key _ _ _⟩

/-! ### Iron -/

/-- Iron: interstitials, helium up to eight, vacancies up to ten, and bubbles. -/
inductive FeAllowed (o : O3) : C3 → Prop
  | interstitial (n : ℕ) : 0 < n → FeAllowed o ⟨0, 0, n⟩
  | helium (n : ℕ) : 0 < n → n ≤ 8 → n ≤ o.maxG → FeAllowed o ⟨n, 0, 0⟩
  | vacancy (n : ℕ) : 0 < n → n ≤ 10 → n ≤ o.maxV → FeAllowed o ⟨0, n, 0⟩
  | bubble (x v : ℕ) : 0 < x → x ≤ o.maxG → 0 < v → v ≤ o.maxV → FeAllowed o ⟨x, v, 0⟩

/-- **C64, iron.** A single composition is selected exactly when it is meant to exist. -/
theorem feSelect_point (o : O3) (c : C3) : feSelect o (point3 c) = true ↔ FeAllowed o c := by
  obtain ⟨g, v, i⟩ := c
  unfold feSelect point3
  simp only [ite_false_eq, and_true, Nat.add_eq_right]
  constructor
  · rintro ⟨h1, h2, h3, h4, h5, h6⟩
    rcases Nat.eq_zero_or_pos i with rfl | hi
    · rcases Nat.eq_zero_or_pos g with rfl | hg
      · exact .vacancy v (by omega) (by omega) (by omega)
      · rcases Nat.eq_zero_or_pos v with rfl | hv
        · exact .helium g hg (by omega) (by omega)
        · exact .bubble g v hg (by omega) hv (by omega)
    · obtain ⟨rfl, rfl⟩ : g = 0 ∧ v = 0 := by omega
      exact .interstitial i hi
  · intro h
    cases h with
    | interstitial n h => omega
    | helium n h1 h2 h3 => omega
    | vacancy n h1 h2 h3 => omega
    | bubble x v h1 h2 h3 h4 => omega

/-- **C64, iron.** A region with a composition meant to exist is selected. -/
theorem feSelect_group (o : O3) (r : R3) (c : C3) (hc : Mem3 c r) (ha : FeAllowed o c) : feSelect o r = true := by
  unfold Mem3 at hc
  unfold feSelect
  simp only [ite_false_eq, and_true]
  cases ha with
  | interstitial n h => simp only at hc; omega
  | helium n h1 h2 h3 => simp only at hc; omega
  | vacancy n h1 h2 h3 => simp only at hc; omega
  | bubble x v h1 h2 h3 h4 => simp only at hc; omega

/-! ### Zirconium -/

theorem one_eq (n : ℕ) : one n = min n 1 := by unfold one; split_ifs <;> omega

/-- The composition belongs to the region. -/
def MemZ (c : CZ) (r : RZ) : Prop := (r.lo.v ≤ c.v ∧ c.v < r.hi.v) ∧ (r.lo.b ≤ c.b ∧ c.b < r.hi.b) ∧ (r.lo.i ≤ c.i ∧ c.i < r.hi.i)

/-- Zirconium: clusters of one kind up to their maximum size. -/
inductive ZrAllowed (o : OZ) : CZ → Prop
  | vacancy (n : ℕ) : 0 < n → n ≤ o.maxV → ZrAllowed o ⟨n, 0, 0⟩
  | basal (n : ℕ) : 0 < n → n ≤ o.maxB → ZrAllowed o ⟨0, n, 0⟩
  | interstitial (n : ℕ) : 0 < n → n ≤ o.maxI → ZrAllowed o ⟨0, 0, n⟩

/-- **C64, zirconium.** A single composition is selected exactly when it is meant to exist. -/
theorem zrSelect_point (o : OZ) (c : CZ) : zrSelect o (pointZ c) = true ↔ ZrAllowed o c := by
  obtain ⟨v, b, i⟩ := c
  unfold zrSelect
  have hp : (pointZ ⟨v, b, i⟩ = pointZ (pointZ ⟨v, b, i⟩).lo) ↔ True := iff_true_intro rfl
  simp only [ite_false_eq, and_true, hp, true_and, one_eq]
  simp only [pointZ]
  constructor
  · rintro ⟨h1, h2, h3⟩
    rcases Nat.eq_zero_or_pos v with rfl | hv
    · rcases Nat.eq_zero_or_pos b with rfl | hb
      · exact .interstitial i (by omega) (by omega)
      · obtain rfl : i = 0 := by omega
        exact .basal b hb (by omega)
    · obtain ⟨rfl, rfl⟩ : b = 0 ∧ i = 0 := by omega
      exact .vacancy v hv (by omega)
  · intro h
    cases h <;> omega

/-- **C64, zirconium.** A region with a composition meant to exist is selected. -/
theorem zrSelect_group (o : OZ) (r : RZ) (c : CZ) (hc : MemZ c r) (ha : ZrAllowed o c) : zrSelect o r = true := by
  by_cases hs : r = pointZ r.lo
  · have : c = r.lo := by
      obtain ⟨⟨v, b, i⟩, hi⟩ := r
      simp only [pointZ] at hs
      injection hs with _ hs
      subst hs
      obtain ⟨v', b', i'⟩ := c
      unfold MemZ at hc
      simp only at hc
      simp only [CZ.mk.injEq]; omega
    rw [hs, ← this]
    exact (zrSelect_point o c).mpr ha
  · unfold MemZ at hc
    unfold zrSelect
    simp only [ite_false_eq, and_true, hs, false_and, not_false_iff, true_and, one_eq]
    cases ha <;> simp only at hc <;> omega

/-- **C64, zirconium.** Clusters below the minimum for grouping, on any axis, are refined along every axis; regions off the axes are left alone. -/
theorem zrRefine_small (o : OZ) (r : RZ) :
    ((0 < r.lo.v ∧ 0 < r.lo.b ∨ 0 < r.lo.v ∧ 0 < r.lo.i ∨ 0 < r.lo.b ∧ 0 < r.lo.i) → (zrRefine o r).1 = false)
    ∧ (¬(0 < r.lo.v ∧ 0 < r.lo.b ∨ 0 < r.lo.v ∧ 0 < r.lo.i ∨ 0 < r.lo.b ∧ 0 < r.lo.i) →
        r.lo.v < o.gmin → r.lo.b < o.gmin → r.lo.i < o.gmin → zrRefine o r = (true, true, true, true)) := by
  unfold zrRefine
  simp only [one_eq]
  constructor
  · intro h; rw [if_pos (by omega)]
  · intro h h1 h2 h3
    rw [if_neg (by omega), if_pos ⟨h1, h2, h3⟩]

/-- **C64, zirconium.** The largest clusters are never grouped: a region reaching the maximum size is refined along every axis. -/
theorem zrRefine_top (o : OZ) (r : RZ) (h : r.lo.b = 0 ∧ r.lo.i = 0) (hm : 0 < o.maxV) (ht : o.maxV < r.hi.v) : zrRefine o r = (true, true, true, true) := by
  unfold zrRefine
  simp only [one_eq]
  split_ifs with h1 h2 h3 h4
  · omega
  · rfl
  · rfl
  · rfl
  · exact absurd (Or.inl ⟨ht, hm⟩) h4

/-- Whether an axis is refined by its length only: it is, when it is longer than the width and long enough against its start, or when it starts at zero. -/
theorem narrow_flag (lo hi w k : ℕ) (hk : 0 < k) : (!(decide (lo > 0) && narrow lo hi w (1 / (k : ℚ)))) = true ↔ lo = 0 ∨ (w + 1 ≤ hi - lo ∧ lo ≤ k * (hi - lo)) := by
  have k0 : (0 : ℚ) < k := by exact_mod_cast hk
  simp only [narrow, Bool.not_eq_true', Bool.and_eq_false_iff, decide_eq_false_iff_not, not_lt, max_le_iff, Nat.le_zero]
  have a : ((w : ℚ) + 1 ≤ ((hi - lo : ℕ) : ℚ)) ↔ w + 1 ≤ hi - lo := by
    rw [show (w : ℚ) + 1 = ((w + 1 : ℕ) : ℚ) by push_cast; ring, Nat.cast_le]
  have b : ((lo : ℚ) * (1 / (k : ℚ)) ≤ ((hi - lo : ℕ) : ℚ)) ↔ lo ≤ k * (hi - lo) := by
    rw [show lo ≤ k * (hi - lo) ↔ ((lo : ℕ) : ℚ) ≤ ((k * (hi - lo) : ℕ) : ℚ) from Nat.cast_le.symm, mul_one_div, div_le_iff₀ k0, Nat.cast_mul, mul_comm]
  rw [a, b]

/-- **C64, zirconium.** Away from both ends, whether a region on one axis is refined along each of them depends on its length only. -/
theorem zrRefine_axis (o : OZ) (r : RZ) (h : (r.lo.b = 0 ∧ r.lo.i = 0) ∨ (r.lo.v = 0 ∧ r.lo.i = 0) ∨ (r.lo.v = 0 ∧ r.lo.b = 0))
    (hm : o.gmin ≤ r.lo.v ∨ o.gmin ≤ r.lo.b ∨ o.gmin ≤ r.lo.i) (hv : r.hi.v ≤ o.maxV) (hb : r.hi.b ≤ o.maxB) (hi : r.hi.i ≤ o.maxI) :
    (zrRefine o r).1 = true
    ∧ ((zrRefine o r).2.1 = true ↔ r.lo.v = 0 ∨ (o.w + 1 ≤ r.hi.v - r.lo.v ∧ r.lo.v ≤ 50 * (r.hi.v - r.lo.v)))
    ∧ ((zrRefine o r).2.2.1 = true ↔ r.lo.b = 0 ∨ (o.w + 1 ≤ r.hi.b - r.lo.b ∧ r.lo.b ≤ 50 * (r.hi.b - r.lo.b)))
    ∧ ((zrRefine o r).2.2.2 = true ↔ r.lo.i = 0 ∨ (o.w + 1 ≤ r.hi.i - r.lo.i ∧ r.lo.i ≤ 50 * (r.hi.i - r.lo.i))) := by
  have e : (2 / 100 : ℚ) = 1 / ((50 : ℕ) : ℚ) := by norm_num
  unfold zrRefine
  simp only [one_eq]
  rw [if_neg (by omega), if_neg (by omega), if_neg (by omega), if_neg (by omega), e]
  exact ⟨rfl, narrow_flag _ _ _ 50 (by decide), narrow_flag _ _ _ 50 (by decide), narrow_flag _ _ _ 50 (by decide)⟩

/-- **C64, zirconium.** On every axis the largest clusters are never grouped, and a region starting beyond a maximum size is not selected. -/
theorem zr_beyond (o : OZ) (r : RZ) :
    ((r.lo.b = 0 ∧ r.lo.i = 0) ∨ (r.lo.v = 0 ∧ r.lo.i = 0) ∨ (r.lo.v = 0 ∧ r.lo.b = 0) →
      (0 < o.maxV ∧ o.maxV < r.hi.v) ∨ (0 < o.maxB ∧ o.maxB < r.hi.b) ∨ (0 < o.maxI ∧ o.maxI < r.hi.i) → zrRefine o r = (true, true, true, true))
    ∧ (o.maxV < r.lo.v ∨ o.maxB < r.lo.b ∨ o.maxI < r.lo.i → zrSelect o r = false)
    ∧ ((0 < r.lo.v ∧ 0 < r.lo.b ∨ 0 < r.lo.v ∧ 0 < r.lo.i ∨ 0 < r.lo.b ∧ 0 < r.lo.i) → zrSelect o r = false) := by
  refine ⟨fun h ht => ?_, fun h => ?_, fun h => ?_⟩
  · unfold zrRefine
    simp only [one_eq]
    split_ifs with h1 h2 h3 h4
    · omega
    · rfl
    · rfl
    · rfl
    · exact absurd ht (by omega)
  · unfold zrSelect
    rw [Bool.eq_false_iff, ne_eq, ite_false_eq, ite_false_eq, ite_false_eq]
    omega
  · unfold zrSelect
    simp only [one_eq]
    rw [if_pos (by omega)]

/-! ### Alloys -/

/-- The composition belongs to the region. -/
def MemA (c : CA) (r : RA) : Prop :=
  (r.lo.v ≤ c.v ∧ c.v < r.hi.v) ∧ (r.lo.void ≤ c.void ∧ c.void < r.hi.void) ∧ (r.lo.faulted ≤ c.faulted ∧ c.faulted < r.hi.faulted)
    ∧ (r.lo.i ≤ c.i ∧ c.i < r.hi.i) ∧ (r.lo.perfect ≤ c.perfect ∧ c.perfect < r.hi.perfect) ∧ (r.lo.frank ≤ c.frank ∧ c.frank < r.hi.frank)

/-- Alloys: vacancies and interstitials up to their maximum size, loops and voids larger than these up to theirs. -/
inductive AlloyAllowed (o : OA) : CA → Prop
  | vacancy (n : ℕ) : 0 < n → n ≤ o.maxV → AlloyAllowed o ⟨n, 0, 0, 0, 0, 0⟩
  | void (n : ℕ) : o.maxV < n → n ≤ o.maxVoid → AlloyAllowed o ⟨0, n, 0, 0, 0, 0⟩
  | faulted (n : ℕ) : o.maxV < n → n ≤ o.maxSize → AlloyAllowed o ⟨0, 0, n, 0, 0, 0⟩
  | interstitial (n : ℕ) : 0 < n → n ≤ o.maxI → AlloyAllowed o ⟨0, 0, 0, n, 0, 0⟩
  | perfect (n : ℕ) : o.maxI < n → n ≤ o.maxSize → AlloyAllowed o ⟨0, 0, 0, 0, n, 0⟩
  | frank (n : ℕ) : o.maxI < n → n ≤ o.maxSize → AlloyAllowed o ⟨0, 0, 0, 0, 0, n⟩

/-- **C64, alloys.** A single composition is selected exactly when it is meant to exist; perfect loops as large as the largest interstitial cluster, which the first test lets through, are removed by a later one. -/
theorem alloySelect_point (o : OA) (c : CA) : alloySelect o (pointA c) = true ↔ AlloyAllowed o c := by
  obtain ⟨v, void, faulted, i, perfect, frank⟩ := c
  unfold alloySelect
  have hp : (pointA ⟨v, void, faulted, i, perfect, frank⟩ = pointA (pointA ⟨v, void, faulted, i, perfect, frank⟩).lo) ↔ True := iff_true_intro rfl
  simp only [ite_false_eq, and_true, hp, true_and]
  simp only [pointA, alloyPointBad, nAxis, one_eq, Nat.add_sub_cancel]
  constructor
  · rintro ⟨h1, h2, h3, h4⟩
    simp only [not_or, not_lt, ne_eq, not_not] at h2
    obtain ⟨n1, n2, n3, n4, n5, n6, n7, n8, n9, n10, n11⟩ := h2
    rcases Nat.eq_zero_or_pos v with rfl | h
    · rcases Nat.eq_zero_or_pos void with rfl | h
      · rcases Nat.eq_zero_or_pos faulted with rfl | h
        · rcases Nat.eq_zero_or_pos i with rfl | h
          · rcases Nat.eq_zero_or_pos perfect with rfl | h
            · exact .frank frank (by omega) (by omega)
            · obtain rfl : frank = 0 := by clear * - n1 h; omega
              exact .perfect perfect (by omega) (by omega)
          · obtain ⟨rfl, rfl⟩ : perfect = 0 ∧ frank = 0 := by clear * - n1 h; omega
            exact .interstitial i h (by omega)
        · obtain ⟨rfl, rfl, rfl⟩ : i = 0 ∧ perfect = 0 ∧ frank = 0 := by clear * - n1 h; omega
          exact .faulted faulted (by omega) (by omega)
      · obtain ⟨rfl, rfl, rfl, rfl⟩ : faulted = 0 ∧ i = 0 ∧ perfect = 0 ∧ frank = 0 := by clear * - n1 h; omega
        exact .void void (by omega) (by omega)
    · obtain ⟨rfl, rfl, rfl, rfl, rfl⟩ : void = 0 ∧ faulted = 0 ∧ i = 0 ∧ perfect = 0 ∧ frank = 0 := by clear * - n1 h; omega
      exact .vacancy v h (by omega)
  · intro h
    cases h <;> omega

/-- **C64, alloys.** A region with a composition meant to exist is selected. -/
theorem alloySelect_group (o : OA) (r : RA) (c : CA) (hc : MemA c r) (ha : AlloyAllowed o c) (hz : r.lo.v = 0 ∧ r.lo.i = 0 → c.v = 0 ∧ c.i = 0) :
    alloySelect o r = true := by
  by_cases hs : r = pointA r.lo
  · have : c = r.lo := by
      obtain ⟨⟨v, b, i, d, e, f⟩, hi⟩ := r
      simp only [pointA] at hs
      injection hs with _ hs
      subst hs
      obtain ⟨v', b', i', d', e', f'⟩ := c
      unfold MemA at hc
      simp only at hc
      simp only [CA.mk.injEq]; omega
    rw [hs, ← this]
    exact (alloySelect_point o c).mpr ha
  · unfold MemA at hc
    unfold alloySelect
    simp only [ite_false_eq, and_true, hs, false_and, not_false_iff, true_and, nAxis, one_eq]
    cases ha <;> simp only at hc hz <;> omega

/-- **C64, alloys.** The condition is needed: a region of vacancies starting at zero is rejected when none of its loops and voids is large enough. -/
theorem alloySelect_group_lost : ∃ (o : OA) (r : RA) (c : CA), MemA c r ∧ AlloyAllowed o c ∧ alloySelect o r = false :=
  ⟨⟨5, 5, 100, 100, 10, 10⟩, ⟨⟨0, 0, 0, 0, 0, 0⟩, ⟨6, 1, 1, 1, 1, 1⟩⟩, ⟨3, 0, 0, 0, 0, 0⟩, by unfold MemA; decide, .vacancy 3 (by decide) (by decide), by decide⟩

/-- **C64, alloys.** No such region remains: vacancies, interstitials and whatever lies below the minimum for grouping are refined along every axis. -/
theorem alloyRefine_small (o : OA) (r : RA) (h1 : nAxis r.lo ≤ 1)
    (h : 0 < r.lo.v ∨ 0 < r.lo.i ∨ (r.lo.void < o.gmin ∧ r.lo.faulted < o.gmin ∧ r.lo.frank < o.gmin ∧ r.lo.perfect < o.gmin)) :
    alloyRefine o r = (true, [true, true, true, true, true, true]) := by
  unfold alloyRefine
  rw [if_neg (by omega)]
  split_ifs with a b c d
  · rfl
  · rfl
  · rfl
  · rfl
  · rfl
  · rfl
  · rfl
  · rfl
  · exact absurd h (by omega)

/-- **C64, alloys.** A region starting beyond a maximum size or off the axes is not selected; one on an axis reaching a maximum size is refined along every axis. -/
theorem alloy_beyond (o : OA) (r : RA) :
    (o.maxVoid < r.lo.void ∨ o.maxSize < r.lo.faulted ∨ o.maxSize < r.lo.perfect ∨ o.maxSize < r.lo.frank → alloySelect o r = false)
    ∧ (1 < nAxis r.lo → alloySelect o r = false ∧ (alloyRefine o r).1 = false)
    ∧ (nAxis r.lo ≤ 1 → (0 < o.maxVoid ∧ o.maxVoid < r.hi.void) ∨ (0 < o.maxSize ∧ (o.maxSize < r.hi.faulted ∨ o.maxSize < r.hi.frank ∨ o.maxSize < r.hi.perfect)) →
      alloyRefine o r = (true, [true, true, true, true, true, true])) := by
  refine ⟨fun h => ?_, fun h => ?_, fun h ht => ?_⟩
  · unfold alloySelect
    rw [Bool.eq_false_iff, ne_eq, ite_false_eq, ite_false_eq, ite_false_eq, ite_false_eq]
    omega
  · unfold alloySelect alloyRefine
    rw [if_pos (by omega), if_pos (by omega)]
    exact ⟨rfl, rfl⟩
  · unfold alloyRefine
    rw [if_neg (by omega)]
    split_ifs with a b c d e f g i
    · rfl
    · rfl
    · rfl
    · rfl
    · rfl
    · rfl
    · rfl
    · rfl
    · exact absurd ht (by omega)

/-- **C64, alloys.** Otherwise, whether a region of voids or loops is refined along each axis depends on its length only. -/
theorem alloyRefine_axis (o : OA) (r : RA) (h : nAxis r.lo = 1) (hv : r.lo.v = 0) (hi : r.lo.i = 0)
    (hm : o.gmin ≤ r.lo.void ∨ o.gmin ≤ r.lo.faulted ∨ o.gmin ≤ r.lo.frank ∨ o.gmin ≤ r.lo.perfect)
    (h1 : r.hi.void ≤ o.maxVoid) (h2 : r.hi.faulted ≤ o.maxSize) (h3 : r.hi.frank ≤ o.maxSize) (h4 : r.hi.perfect ≤ o.maxSize) :
    ∃ a b c d : Bool, alloyRefine o r = (true, [true, a, b, true, c, d])
    ∧ (a = true ↔ r.lo.void = 0 ∨ (o.w + 1 ≤ r.hi.void - r.lo.void ∧ r.lo.void ≤ 20 * (r.hi.void - r.lo.void)))
    ∧ (b = true ↔ r.lo.faulted = 0 ∨ (o.w + 1 ≤ r.hi.faulted - r.lo.faulted ∧ r.lo.faulted ≤ 20 * (r.hi.faulted - r.lo.faulted)))
    ∧ (c = true ↔ r.lo.perfect = 0 ∨ (o.w + 1 ≤ r.hi.perfect - r.lo.perfect ∧ r.lo.perfect ≤ 20 * (r.hi.perfect - r.lo.perfect)))
    ∧ (d = true ↔ r.lo.frank = 0 ∨ (o.w + 1 ≤ r.hi.frank - r.lo.frank ∧ r.lo.frank ≤ 20 * (r.hi.frank - r.lo.frank))) := by
  have e : (5 / 100 : ℚ) = 1 / ((20 : ℕ) : ℚ) := by norm_num
  unfold alloyRefine
  simp only []
  rw [if_neg (by omega), if_neg (by omega), if_neg (by omega), if_neg (by omega), if_neg (by omega), if_neg (by omega), if_neg (by omega), if_neg (by omega),
    if_neg (by omega), e]
  exact ⟨_, _, _, _, rfl, narrow_flag _ _ _ 20 (by decide), narrow_flag _ _ _ 20 (by decide), narrow_flag _ _ _ 20 (by decide), narrow_flag _ _ _ 20 (by decide)⟩

/-! ### Concrete cases -/

example : (zrRefine ⟨100, 50, 100, 10, 2⟩ ⟨⟨16, 0, 0⟩, ⟨20, 1, 1⟩⟩).2.1 = true :=
  (zrRefine_axis _ _ (by decide) (by decide) (by decide) (by decide) (by decide)).2.1.mpr (by decide)

example : ∃ a b c d : Bool, alloyRefine ⟨5, 4, 100, 100, 10, 2⟩ ⟨⟨0, 0, 16, 0, 0, 0⟩, ⟨1, 1, 18, 1, 1, 1⟩⟩ = (true, [true, a, b, true, c, d]) ∧ b = false := by
  obtain ⟨a, b, c, d, h, -, hb, -⟩ := alloyRefine_axis ⟨5, 4, 100, 100, 10, 2⟩ ⟨⟨0, 0, 16, 0, 0, 0⟩, ⟨1, 1, 18, 1, 1, 1⟩⟩ (by decide) rfl rfl (by decide)
    (by decide) (by decide) (by decide) (by decide)
  exact ⟨a, b, c, d, h, by rw [Bool.eq_false_iff, ne_eq, hb]; decide⟩

example : NeAllowed ⟨20, 20, 10, 4, 4⟩ ⟨5, 12, 0⟩ := .bubble 5 12 (by decide) (by decide) (by decide) (by decide) (by decide)

example : neSelect ⟨20, 20, 10, 4, 4⟩ ⟨⟨4, 10, 0⟩, ⟨8, 15, 1⟩⟩ = true :=
  neSelect_group _ _ ⟨5, 12, 0⟩ (by unfold Mem3; decide) (.bubble 5 12 (by decide) (by decide) (by decide) (by decide) (by decide)) (by decide)

example : NeAllowed ⟨200, 200, 10, 4, 4⟩ ⟨15, 13, 0⟩ :=
  neRefine_inside ⟨200, 200, 10, 4, 4⟩ ⟨⟨12, 12, 0⟩, ⟨16, 16, 1⟩⟩ (by decide +kernel) rfl _ (by unfold Mem3; decide) (by decide)

example : (neRefine ⟨200, 200, 10, 4, 4⟩ ⟨⟨16, 16, 0⟩, ⟨32, 20, 1⟩⟩).2.1 = true :=
  (neRefine_axis _ _ rfl (by decide) (by decide) (by decide) (by decide) (by decide)).1.mpr (by decide)

example : feSelect ⟨50, 50, 10, 4, 4⟩ (point3 ⟨9, 0, 0⟩) = false ∧ feSelect ⟨50, 50, 10, 4, 4⟩ (point3 ⟨9, 1, 0⟩) = true := by decide

example : zrSelect ⟨100, 50, 100, 10, 2⟩ ⟨⟨0, 16, 0⟩, ⟨1, 20, 1⟩⟩ = true :=
  zrSelect_group _ _ ⟨0, 18, 0⟩ (by unfold MemZ; decide) (.basal 18 (by decide) (by decide))

example : alloySelect ⟨5, 4, 100, 100, 10, 2⟩ (pointA ⟨0, 0, 0, 0, 4, 0⟩) = false ∧ alloySelect ⟨5, 4, 100, 100, 10, 2⟩ (pointA ⟨0, 0, 0, 0, 5, 0⟩) = true := by
  decide

example : alloySelect ⟨5, 4, 100, 100, 10, 2⟩ ⟨⟨0, 0, 4, 0, 0, 0⟩, ⟨1, 1, 8, 1, 1, 1⟩⟩ = true :=
  alloySelect_group _ _ ⟨0, 0, 7, 0, 0, 0⟩ (by unfold MemA; decide) (.faulted 7 (by decide) (by decide)) (by decide)

end Xolotl.Network.Select
