import Verif.Network.PsiSelect
import Mathlib.Tactic.Linarith
import Mathlib.Tactic.NormNum
import Mathlib.Tactic.IntervalCases
import Mathlib.Tactic.Ring
import Mathlib.Tactic.FieldSimp
import Mathlib.Tactic.Positivity

set_option linter.unusedSectionVars false

/-!
# Properties of the clusters of tungsten networks (C60)
-/

namespace Xolotl.Network.Psi

variable {K : Type*} [Field K] [LinearOrder K] [IsStrictOrderedRing K] [FloorSemiring K]

/-! ### Helium per vacancy -/

theorem maxHePerV_small {v : ℕ} (h : v < 30) (r : K) : maxHePerV v r = maxHeTable.getD v 0 := by
  unfold maxHePerV; rw [if_pos h]

theorem maxHePerV_large {v : ℕ} (h : 30 ≤ v) (r : K) : maxHePerV v r = max ⌊r * v⌋₊ (v + 87) := by
  unfold maxHePerV; rw [if_neg (by omega)]; congr 1; omega

theorem table_succ : ∀ v < 29, maxHeTable.getD v 0 ≤ maxHeTable.getD (v + 1) 0 := by decide

/-- **C60, capacity.** Larger vacancy clusters hold at least as much helium, whatever the ratio. -/
theorem maxHePerV_mono (r : K) : Monotone fun v => maxHePerV v r := by
  refine monotone_nat_of_le_succ fun v => ?_
  rcases lt_trichotomy v 29 with h | rfl | h
  · rw [maxHePerV_small (by omega), maxHePerV_small (by omega)]; exact table_succ v h
  · rw [maxHePerV_small (by omega), maxHePerV_large (by omega)]
    exact le_trans (by decide) (le_max_right _ _)
  · rw [maxHePerV_large (by omega), maxHePerV_large (by omega)]
    rcases le_total 0 r with hr | hr
    · refine max_le_max (Nat.floor_le_floor ?_) (by omega)
      push_cast
      nlinarith
    · have : ⌊r * (v : K)⌋₊ = 0 := Nat.floor_of_nonpos (mul_nonpos_of_nonpos_of_nonneg hr (Nat.cast_nonneg v))
      rw [this]
      exact le_trans (max_le (Nat.zero_le _) (by omega)) (le_max_right _ _)

/-- **C60, capacity.** Every vacancy cluster holds at least three helium atoms per vacancy up to 30 vacancies, at least one more than the previous one beyond, and none without vacancies. -/
theorem maxHePerV_pos (r : K) : maxHePerV 0 r = 0 ∧ ∀ v, 0 < v → v + 8 ≤ maxHePerV v r := by
  refine ⟨rfl, fun v hv => ?_⟩
  rcases lt_or_ge v 30 with h | h
  · rw [maxHePerV_small h]
    have : ∀ v < 30, 0 < v → v + 8 ≤ maxHeTable.getD v 0 := by decide
    exact this v h hv
  · rw [maxHePerV_large h]; exact le_trans (by omega) (le_max_right _ _)

/-- With a ratio of at most nine, at most nine helium atoms per vacancy. -/
theorem maxHePerV_le (r : K) (hr : r ≤ 9) (v : ℕ) : maxHePerV v r ≤ 9 * v := by
  rcases lt_or_ge v 30 with h | h
  · rw [maxHePerV_small h]
    have : ∀ v < 30, maxHeTable.getD v 0 ≤ 9 * v := by decide
    exact this v h
  · rw [maxHePerV_large h]
    refine max_le (Nat.floor_le_of_le ?_) (by omega)
    push_cast
    exact mul_le_mul_of_nonneg_right hr (Nat.cast_nonneg v)

/-! ### Which compositions exist -/

/-- The compositions meant to exist: pure clusters up to their maximum size, and bubbles of gas and vacancies, with at most so much helium per vacancy, two thirds of this for each hydrogen isotope, and hydrogen limited to six per vacancy without helium and to two thirds of the helium (rounded to the nearest) with it. -/
inductive Allowed (o : Opts K) : Comp → Prop
  | interstitial (n : ℕ) : 0 < n → n ≤ o.maxI → Allowed o ⟨0, 0, 0, 0, n⟩
  | helium (n : ℕ) : 0 < n → n ≤ o.maxHe → Allowed o ⟨n, 0, 0, 0, 0⟩
  | deuterium (n : ℕ) : 0 < n → n ≤ o.maxD → Allowed o ⟨0, n, 0, 0, 0⟩
  | tritium (n : ℕ) : 0 < n → n ≤ o.maxT → Allowed o ⟨0, 0, n, 0, 0⟩
  | vacancy (n : ℕ) : 0 < n → n ≤ o.maxPureV → Allowed o ⟨0, 0, 0, n, 0⟩
  | bubble (he d t v : ℕ) : 0 < he + d + t → 0 < v → v ≤ o.maxV → v ≤ o.maxPureV → 0 < o.maxHe + o.maxD + o.maxT →
      he ≤ maxHePerV v o.ratio → 3 * d ≤ 2 * maxHePerV v o.ratio → 3 * t ≤ 2 * maxHePerV v o.ratio →
      (he = 0 → d + t ≤ 6 * v) → (0 < he → 6 * (d + t) ≤ 4 * he + 3) → Allowed o ⟨he, d, t, v, 0⟩

theorem gt_two_thirds (n m : ℕ) : ((n : K) > 2 / 3 * (m : K)) ↔ 2 * m < 3 * n := by
  have : ((n : K) > 2 / 3 * (m : K)) ↔ ((2 * m : ℕ) : K) < ((3 * n : ℕ) : K) := by
    push_cast
    constructor <;> intro h <;> linarith
  rw [this, Nat.cast_lt]

theorem gt_two_thirds_half (n m : ℕ) : ((n : K) > 2 / 3 * (m : K) + 1 / 2) ↔ 4 * m + 3 < 6 * n := by
  have : ((n : K) > 2 / 3 * (m : K) + 1 / 2) ↔ ((4 * m + 3 : ℕ) : K) < ((6 * n : ℕ) : K) := by
    push_cast
    constructor <;> intro h <;> linarith
  rw [this, Nat.cast_lt]

/-- The tests for a region with vacancies, in whole numbers. -/
theorem rejectV_iff (o : Opts K) (r : Reg) : rejectV true true o r ↔
    (r.lo.v > o.maxV ∧ ¬onV r.lo)
    ∨ r.lo.he > maxHePerV (min (r.hi.v - 1) o.maxV) o.ratio
    ∨ 2 * maxHePerV (min (r.hi.v - 1) o.maxV) o.ratio < 3 * r.lo.d
    ∨ 2 * maxHePerV (min (r.hi.v - 1) o.maxV) o.ratio < 3 * r.lo.t
    ∨ (r.lo.he = 0 ∧ 6 * min (r.hi.v - 1) o.maxV < r.lo.d + r.lo.t)
    ∨ (r.lo.he ≠ 0 ∧ 4 * min (r.hi.he - 1) (maxHePerV o.maxV o.ratio) + 3 < 6 * (r.lo.d + r.lo.t)) := by
  unfold rejectV tooMuchH maxHPerV
  simp only [gt_two_thirds, Bool.and_self, if_true, Bool.or_self, true_and, gt_two_thirds_half]
  by_cases h : r.lo.he = 0
  · simp only [h, if_true, ne_eq, not_true, false_and, or_false, true_and]
  · simp only [h, if_false, ne_eq, not_false_iff, true_and, false_and, false_or]

/-- **C60, single compositions.** The region of one composition is selected exactly when the composition is meant to exist. -/
theorem select_point (o : Opts K) (c : Comp) : Select true true o (point c) ↔ Allowed o c := by
  obtain ⟨he, d, t, v, i⟩ := c
  have hm := maxHePerV_mono o.ratio
  have h0 : maxHePerV 0 o.ratio = 0 := rfl
  unfold Select
  rw [rejectV_iff]
  constructor
  · rintro ⟨ha, hn, hv⟩
    simp only [rejectAny, zeroPoint, point, not_or, not_and, not_lt, gt_iff_lt, Nat.add_eq_right, true_and, not_not] at ha
    obtain ⟨a0, a1, a2, a3, a4, a5, a6, a7, a8⟩ := ha
    rcases Nat.eq_zero_or_pos v with rfl | hvp
    · have hn := hn rfl
      simp only [rejectNoV, point, not_or, not_and, not_lt, gt_iff_lt, Nat.le_zero, true_implies] at hn
      obtain ⟨n1, n2, n3, n4⟩ := hn
      rcases Nat.eq_zero_or_pos i with rfl | hip
      · rcases Nat.eq_zero_or_pos he with rfl | hep
        · rcases Nat.eq_zero_or_pos d with rfl | hdp
          · rcases Nat.eq_zero_or_pos t with rfl | htp
            · exact absurd rfl (a0 rfl rfl rfl rfl)
            · exact .tritium t htp n3.1
          · have := n4 hdp; subst this
            exact .deuterium d hdp n2.1
        · have h1 := n2.2 hep
          have h2 := n3.2 hep
          subst h1; subst h2
          exact .helium he hep n1
      · obtain ⟨-, rfl, rfl, rfl, -⟩ := a1 hip
        exact .interstitial i hip a2
    · have hv := hv (by simp only [point]; omega)
      simp only [point, not_or, not_and, not_lt, gt_iff_lt, Nat.add_sub_cancel, not_not] at hv
      obtain ⟨v1, v2, v3, v4, v5, v6⟩ := hv
      have hi0 : i = 0 := by
        by_contra h
        have := (a1 (Nat.pos_of_ne_zero h)).2.2.2.2
        simp only at this
        omega
      subst hi0
      by_cases hg : he + d + t = 0
      · obtain ⟨rfl, rfl, rfl⟩ : he = 0 ∧ d = 0 ∧ t = 0 := by omega
        exact .vacancy v hvp a7
      · have hvV : v ≤ o.maxV := by
          by_contra h
          obtain ⟨-, rfl, rfl, rfl, -⟩ := v1 (by omega)
          omega
        rw [min_eq_left hvV] at v2 v3 v4 v5
        refine .bubble he d t v (by omega) hvp hvV a7 ?_ v2 v3 v4 v5 fun hp => ?_
        · by_contra h
          refine a6 hvp (fun h' => ?_) (by omega) (by omega) (by omega)
          have h1 := h'.2.1; have h2 := h'.2.2.1; have h3 := h'.2.2.2.1
          simp only at h1 h2 h3
          omega
        · have := v6 (by omega)
          rw [min_eq_left (le_trans v2 (hm hvV))] at this
          exact this
  · intro h
    have key : ∀ v ≤ o.maxV, maxHePerV v o.ratio ≤ maxHePerV o.maxV o.ratio := fun v h => hm h
    cases h with
    | interstitial n h1 h2 => simp [rejectAny, zeroPoint, point, onI, onV, rejectNoV]; omega
    | helium n h1 h2 => simp [rejectAny, zeroPoint, point, onI, onV, rejectNoV]; omega
    | deuterium n h1 h2 => simp [rejectAny, zeroPoint, point, onI, onV, rejectNoV]; omega
    | tritium n h1 h2 => simp [rejectAny, zeroPoint, point, onI, onV, rejectNoV]; omega
    | vacancy n h1 h2 =>
      refine ⟨?_, fun h => absurd h (by simp only [point]; omega), fun _ => ?_⟩
      · simp [rejectAny, zeroPoint, point, onI, onV, h1, h2]; omega
      · simp [point, onV, h1]
    | bubble he d t v g1 g2 g3 g4 g5 g6 g7 g8 g9 g10 =>
      refine ⟨?_, fun h => absurd h (by simp only [point]; omega), fun _ => ?_⟩
      · simp only [rejectAny, zeroPoint, point, onI, onV]; omega
      · simp only [point, onV, Nat.add_sub_cancel]
        rw [min_eq_left g3, min_eq_left (le_trans g6 (hm g3))]
        omega

/-- The composition belongs to the region. -/
def Mem (c : Comp) (r : Reg) : Prop :=
  (r.lo.he ≤ c.he ∧ c.he < r.hi.he) ∧ (r.lo.d ≤ c.d ∧ c.d < r.hi.d) ∧ (r.lo.t ≤ c.t ∧ c.t < r.hi.t) ∧ (r.lo.v ≤ c.v ∧ c.v < r.hi.v)
    ∧ (r.lo.i ≤ c.i ∧ c.i < r.hi.i)

/-- **C60, groups.** A region that does not mix compositions with and without vacancies and holds a composition meant to exist is selected, if the ratio is at most nine: grouping loses no cluster. -/
theorem select_group (o : Opts K) (hr : o.ratio ≤ 9) (r : Reg) (hV : 0 < r.lo.v ∨ r.hi.v = 1) (c : Comp) (hc : Mem c r) (ha : Allowed o c) :
    Select true true o r := by
  obtain ⟨⟨c1, c1'⟩, ⟨c2, c2'⟩, ⟨c3, c3'⟩, ⟨c4, c4'⟩, ⟨c5, c5'⟩⟩ := hc
  have hm := maxHePerV_mono o.ratio
  unfold Select
  rw [rejectV_iff]
  cases ha with
  | interstitial n h1 h2 =>
    simp only at *
    refine ⟨?_, fun h => ?_, fun h => by omega⟩
    · simp only [rejectAny, zeroPoint, onI, onV]; omega
    · simp only [rejectNoV]; omega
  | helium n h1 h2 =>
    simp only at *
    refine ⟨?_, fun h => ?_, fun h => by omega⟩
    · simp only [rejectAny, zeroPoint, onI, onV]; omega
    · simp only [rejectNoV]; omega
  | deuterium n h1 h2 =>
    simp only at *
    refine ⟨?_, fun h => ?_, fun h => by omega⟩
    · simp only [rejectAny, zeroPoint, onI, onV]; omega
    · simp only [rejectNoV]; omega
  | tritium n h1 h2 =>
    simp only at *
    refine ⟨?_, fun h => ?_, fun h => by omega⟩
    · simp only [rejectAny, zeroPoint, onI, onV]; omega
    · simp only [rejectNoV]; omega
  | vacancy n h1 h2 =>
    simp only at *
    refine ⟨?_, fun h => by omega, fun h => ?_⟩
    · simp only [rejectAny, zeroPoint, onI, onV]; omega
    · simp only [onV]; omega
  | bubble he d t v g1 g2 g3 g4 g5 g6 g7 g8 g9 g10 =>
    simp only at *
    refine ⟨?_, fun h => by omega, fun h => ?_⟩
    · simp only [rejectAny, zeroPoint, onI, onV]; omega
    · have hmin : v ≤ min (r.hi.v - 1) o.maxV := le_min (by omega) g3
      have k1 : maxHePerV v o.ratio ≤ maxHePerV (min (r.hi.v - 1) o.maxV) o.ratio := hm hmin
      have k2 : maxHePerV v o.ratio ≤ maxHePerV o.maxV o.ratio := hm g3
      have k3 := maxHePerV_le o.ratio hr v
      have k4 : he ≤ min (r.hi.he - 1) (maxHePerV o.maxV o.ratio) := le_min (by omega) (le_trans g6 k2)
      simp only [onV]
      generalize maxHePerV (min (r.hi.v - 1) o.maxV) o.ratio = A at *
      generalize min (r.hi.v - 1) o.maxV = B at *
      generalize min (r.hi.he - 1) (maxHePerV o.maxV o.ratio) = C at *
      generalize maxHePerV v o.ratio = D at *
      rcases Nat.eq_zero_or_pos he with h0 | h0
      · have := g9 h0; omega
      · have := g10 h0; omega

/-- **C60, groups.** With a larger ratio a group can be rejected although it holds a cluster meant to exist: the limit of six per vacancy is applied to it because its smallest amount of helium is zero. -/
theorem select_group_lost : ∃ (o : Opts ℚ) (r : Reg) (c : Comp), 0 < r.lo.v ∧ Mem c r ∧ Allowed o c ∧ ¬Select true true o r := by
  refine ⟨⟨8, 1, 1, 100, 100, 6, 50, 10⟩, ⟨⟨0, 333, 333, 100, 0⟩, ⟨1001, 334, 334, 101, 1⟩⟩, ⟨1000, 333, 333, 100, 0⟩, by decide, ?_, ?_, ?_⟩
  · unfold Mem; decide
  · have e : maxHePerV 100 (10 : ℚ) = 1000 := by
      rw [maxHePerV_large (by norm_num)]
      have : ⌊(10 : ℚ) * ((100 : ℕ) : ℚ)⌋₊ = 1000 := by
        rw [show (10 : ℚ) * ((100 : ℕ) : ℚ) = ((1000 : ℕ) : ℚ) by norm_num, Nat.floor_natCast]
      rw [this]; rfl
    refine .bubble 1000 333 333 100 ?_ ?_ ?_ ?_ ?_ ?_ ?_ ?_ ?_ ?_ <;> (try simp only [e]) <;> norm_num
  · intro h
    have := h.2.2 (by decide)
    rw [rejectV_iff] at this
    exact this (Or.inr (Or.inr (Or.inr (Or.inr (Or.inl ⟨rfl, by decide⟩)))))

/-- **C60, groups.** The converse fails: a group with no composition meant to exist can be selected, because the limit on hydrogen uses the helium of the largest bubble of the network and not of the group. -/
theorem select_group_over : ∃ (o : Opts ℚ) (r : Reg), o.ratio ≤ 9 ∧ 0 < r.lo.v ∧ Select true true o r ∧ ∀ c, Mem c r → ¬Allowed o c := by
  refine ⟨⟨8, 1, 1, 20, 20, 6, 50, 4⟩, ⟨⟨1, 12, 12, 3, 0⟩, ⟨99, 13, 13, 4, 1⟩⟩, by norm_num, by decide, ?_, ?_⟩
  · unfold Select
    rw [rejectV_iff]
    refine ⟨?_, fun h => absurd h (by decide), fun _ => ?_⟩
    · simp only [rejectAny, zeroPoint, onI, onV]; decide
    · rw [maxHePerV_small (by decide), maxHePerV_small (by decide)]
      simp only [onV]; decide
  · intro c hc ha
    unfold Mem at hc
    cases ha with
    | bubble he d t v g1 g2 g3 g4 g5 g6 g7 g8 g9 g10 =>
      simp only at hc
      have : v = 3 := by omega
      subst this
      rw [maxHePerV_small (by decide)] at g6
      have : maxHeTable.getD 3 0 = 18 := rfl
      omega
    | interstitial => simp only at hc; omega
    | helium => simp only at hc; omega
    | deuterium => simp only at hc; omega
    | tritium => simp only at hc; omega
    | vacancy => simp only at hc; omega

/-- **C60, fewer species.** Networks without tritium, without deuterium or with helium only select the same compositions as the full network does among those without the missing species. -/
theorem select_flags (hd ht : Bool) (o : Opts K) (r : Reg) (h1 : hd = false → r.lo.d = 0) (h2 : ht = false → r.lo.t = 0) :
    Select hd ht o r ↔ Select true true o r := by
  have z : ¬((0 : K) > 2 / 3 * ((maxHePerV (min (r.hi.v - 1) o.maxV) o.ratio : ℕ) : K)) := by
    have := Nat.cast_nonneg (α := K) (maxHePerV (min (r.hi.v - 1) o.maxV) o.ratio)
    intro h; linarith
  have z' : ∀ a b : ℕ, 0 ≤ 2 / 3 * min (a : K) (b : K) + 2⁻¹ := fun a b => by
    have : 0 ≤ min (a : K) (b : K) := le_min (Nat.cast_nonneg a) (Nat.cast_nonneg b)
    positivity
  cases hd <;> cases ht
  · have a := h1 rfl; have b := h2 rfl
    unfold Select rejectAny rejectNoV rejectV tooMuchH maxHPerV
    simp [a, b, z, z']
  · have a := h1 rfl
    unfold Select rejectAny rejectNoV rejectV tooMuchH maxHPerV
    simp [a, z]
  · have b := h2 rfl
    unfold Select rejectAny rejectNoV rejectV tooMuchH maxHPerV
    simp [b, z]
  · rfl

/-! ### Energies -/

/-- **C60, tables.** Formation energies of bubbles and vacancies meant to exist are numbers: the tables for one and two vacancies are long enough, and the fit is used above. -/
theorem hev_num (o : Opts K) (c : Comp) (ha : Allowed o c) (hv : 0 < c.v) : ∃ e : K, hev c.he c.v = .num e := by
  have key : ∀ he v : ℕ, 0 < v → he ≤ maxHePerV v o.ratio → ∃ e : K, hev he v = .num e := by
    intro he v hv hle
    unfold hev
    by_cases h1 : he = 0 ∧ v < 3
    · rw [if_pos h1]; split_ifs <;> exact ⟨_, rfl⟩
    · rw [if_neg h1]
      by_cases h2 : v > 2
      · rw [if_pos h2]; exact ⟨_, rfl⟩
      · rw [if_neg h2]
        have : (v = 1 ∧ he < heV1Formation (K := K).length) ∨ (v = 2 ∧ he < heV2Formation (K := K).length) := by
          rcases (show v = 1 ∨ v = 2 by omega) with rfl | rfl
          · refine Or.inl ⟨rfl, ?_⟩
            rw [maxHePerV_small (by decide)] at hle
            exact lt_of_le_of_lt hle (show 9 < 15 by decide)
          · refine Or.inr ⟨rfl, ?_⟩
            rw [maxHePerV_small (by decide)] at hle
            exact lt_of_le_of_lt hle (show 14 < 19 by decide)
        rw [if_pos this]
        split_ifs <;> exact ⟨_, rfl⟩
  cases ha with
  | vacancy n h1 h2 => exact key _ _ hv (Nat.zero_le _)
  | bubble he d t v g1 g2 g3 g4 g5 g6 => exact key _ _ hv g6
  | interstitial => exact absurd hv (lt_irrefl 0)
  | helium => exact absurd hv (lt_irrefl 0)
  | deuterium => exact absurd hv (lt_irrefl 0)
  | tritium => exact absurd hv (lt_irrefl 0)

/-- **C60, tables.** Every formation energy of a composition meant to exist is a number, or plus infinity for clusters of hydrogen and for helium clusters of more than eight. -/
theorem formation_num (o : Opts K) (c : Comp) (ha : Allowed o c) :
    (∃ e : K, formation o (point c) = .num e) ∨ (formation o (point c) = .pinf ∧ (onD c ∨ onT c ∨ (onHe c ∧ 8 < c.he))) := by
  unfold formation
  by_cases hg : (point c).hi.v ≥ o.gmin
  · rw [if_pos hg]; exact Or.inl ⟨_, rfl⟩
  · rw [if_neg hg, if_pos (show simplex (point c) from rfl)]
    change _ ∨ (_ ∧ _)
    have hlo : (point c).lo = c := rfl
    rw [hlo]
    split_ifs with h1 h2 h3 h4 h5 h6
    · exact Or.inl ⟨_, rfl⟩
    · exact Or.inl ⟨_, rfl⟩
    · exact Or.inl ⟨_, rfl⟩
    · exact Or.inr ⟨rfl, Or.inr (Or.inr ⟨h3, by
        have : heFormation (K := K).length = 9 := rfl
        omega⟩)⟩
    · exact Or.inr ⟨rfl, Or.inl h5⟩
    · exact Or.inr ⟨rfl, Or.inr (Or.inl h6)⟩
    · refine Or.inl (hev_num o c ha ?_)
      by_contra hv
      have hv0 : c.v = 0 := by omega
      cases ha with
      | interstitial n h => exact h1 ⟨h, rfl, rfl, rfl, rfl⟩
      | helium n h => exact h3 ⟨h, rfl, rfl, rfl, rfl⟩
      | deuterium n h => exact h5 ⟨h, rfl, rfl, rfl, rfl⟩
      | tritium n h => exact h6 ⟨h, rfl, rfl, rfl, rfl⟩
      | vacancy n h => exact absurd hv0 (by simp only; omega)
      | bubble he d t v _ h => exact absurd hv0 (by simp only; omega)

/-- **C60, energies.** Every further interstitial raises the formation energy of an interstitial cluster, by less than that of a single interstitial: it is bound, with at least 1.5 eV. -/
theorem interstitial_bound (o : Opts K) (n : ℕ) (hn : 0 < n) (hg : 1 < o.gmin) : ∃ e₁ e e' : K, formation o (point ⟨0, 0, 0, 0, 1⟩) = .num e₁ ∧ formation o (point ⟨0, 0, 0, 0, n⟩) = .num e ∧
    formation o (point ⟨0, 0, 0, 0, n + 1⟩) = .num e' ∧ e < e' ∧ e' + 3 / 2 ≤ e + e₁ := by
  have val : ∀ m, 0 < m → formation o (point ⟨0, 0, 0, 0, m⟩) = .num (if m < 7 then iFormation.getD m 0 else 48 + ((m + 1 - 7 : ℕ) : K)) := by
    intro m hm
    unfold formation
    rw [if_neg (show ¬ (point ⟨0, 0, 0, 0, m⟩).hi.v ≥ o.gmin from not_le.mpr hg), if_pos (show simplex (point ⟨0, 0, 0, 0, m⟩) from rfl),
      if_pos (show onI (point ⟨0, 0, 0, 0, m⟩).lo from by simp [onI, point]; omega)]
    change (if m < 7 then _ else _) = _
    split_ifs <;> rfl
  refine ⟨_, _, _, val 1 (by norm_num), val n hn, val (n + 1) (by omega), ?_⟩
  rcases Nat.lt_or_ge n 7 with h | h
  · interval_cases n <;> norm_num [iFormation]
  · rw [if_neg (by omega), if_neg (by omega), if_pos (by norm_num)]
    have e1 : ((n + 1 + 1 - 7 : ℕ) : K) = ((n + 1 - 7 : ℕ) : K) + 1 := by
      rw [show n + 1 + 1 - 7 = (n + 1 - 7) + 1 by omega]; push_cast; ring
    rw [e1]
    norm_num [iFormation]
    linarith

/-- **C60, energies.** Every further helium atom of a pure helium cluster, of a vacancy or of a pair of vacancies raises the formation energy by less than that of a single helium atom: it is bound. -/
theorem helium_bound (o : Opts K) (n v : ℕ) (hn : 0 < n) (hg : v + 1 < o.gmin) (hv : (v = 0 ∧ n < 8) ∨ (v = 1 ∧ n < 14) ∨ (v = 2 ∧ n < 18)) :
    ∃ e₁ e e' : K, formation o (point ⟨1, 0, 0, 0, 0⟩) = .num e₁ ∧ formation o (point ⟨n, 0, 0, v, 0⟩) = .num e ∧
    formation o (point ⟨n + 1, 0, 0, v, 0⟩) = .num e' ∧ e + 1 ≤ e' ∧ e' + 3 / 4 ≤ e + e₁ := by
  have val : ∀ m, 0 < m → m < 9 → formation o (point ⟨m, 0, 0, 0, 0⟩) = .num (heFormation.getD m 0) := by
    intro m hm h9
    unfold formation
    rw [if_neg (show ¬ (point ⟨m, 0, 0, 0, 0⟩).hi.v ≥ o.gmin from not_le.mpr (show 1 < o.gmin by omega)), if_pos (show simplex (point ⟨m, 0, 0, 0, 0⟩) from rfl),
      if_neg (show ¬ onI (point ⟨m, 0, 0, 0, 0⟩).lo from by simp [onI, point]), if_pos (show onHe (point ⟨m, 0, 0, 0, 0⟩).lo from by simp [onHe, point]; omega)]
    exact if_pos h9
  have valV : ∀ m w, 0 < m → 0 < w → w + 1 < o.gmin → formation o (point ⟨m, 0, 0, w, 0⟩) = hev m w := by
    intro m w hm hw hg
    unfold formation
    rw [if_neg (show ¬ (point ⟨m, 0, 0, w, 0⟩).hi.v ≥ o.gmin from not_le.mpr hg), if_pos (show simplex (point ⟨m, 0, 0, w, 0⟩) from rfl),
      if_neg (show ¬ onI (point ⟨m, 0, 0, w, 0⟩).lo from by simp [onI, point]), if_neg (show ¬ onHe (point ⟨m, 0, 0, w, 0⟩).lo from by simp [onHe, point]; omega),
      if_neg (show ¬ onD (point ⟨m, 0, 0, w, 0⟩).lo from by simp [onD, point]), if_neg (show ¬ onT (point ⟨m, 0, 0, w, 0⟩).lo from by simp [onT, point])]
    rfl
  have hev1 : ∀ m, 0 < m → m < 15 → hev (K := K) m 1 = .num (heV1Formation.getD m 0) := by
    intro m hm h
    unfold hev
    simp [heV1Formation, h, Nat.pos_iff_ne_zero.mp hm]
  have hev2 : ∀ m, 0 < m → m < 19 → hev (K := K) m 2 = .num (heV2Formation.getD m 0) := by
    intro m hm h
    unfold hev
    simp [heV2Formation, h, Nat.pos_iff_ne_zero.mp hm]
  rcases hv with ⟨rfl, h⟩ | ⟨rfl, h⟩ | ⟨rfl, h⟩
  · refine ⟨_, _, _, val 1 (by norm_num) (by norm_num), val n hn (by omega), val (n + 1) (by omega) (by omega), ?_⟩
    interval_cases n <;> norm_num [heFormation]
  · refine ⟨_, _, _, val 1 (by norm_num) (by norm_num), (valV n 1 hn (by norm_num) hg).trans (hev1 n hn (by omega)), (valV (n + 1) 1 (by omega) (by norm_num) hg).trans (hev1 (n + 1) (by omega) (by omega)), ?_⟩
    interval_cases n <;> norm_num [heFormation, heV1Formation]
  · refine ⟨_, _, _, val 1 (by norm_num) (by norm_num), (valV n 2 hn (by norm_num) hg).trans (hev2 n hn (by omega)), (valV (n + 1) 2 (by omega) (by norm_num) hg).trans (hev2 (n + 1) (by omega) (by omega)), ?_⟩
    interval_cases n <;> norm_num [heFormation, heV2Formation]

/-- The usual limits: the grouping starts above; seven and eight interstitials, thirteen and fourteen helium atoms in a vacancy. -/
example : 1 < (⟨8, 1, 1, 100, 100, 6, 50, 10⟩ : Opts ℚ).gmin ∧ formation (⟨8, 1, 1, 100, 100, 6, 50, 10⟩ : Opts ℚ) (point ⟨0, 0, 0, 0, 7⟩) = .num 49 ∧
    formation (⟨8, 1, 1, 100, 100, 6, 50, 10⟩ : Opts ℚ) (point ⟨14, 0, 0, 1, 0⟩) = .num (556738 / 10000) := by decide +kernel

theorem look_some (t : List (List K)) (a b n m : ℕ) (hl : t.length = n) (hm : ∀ row ∈ t, row.length = m) (ha : a < n) (hb : b < m) :
    ∃ x, look t a b = some x := by
  unfold look
  rw [List.getElem?_eq_getElem (by omega), Option.bind_some, List.getElem?_eq_getElem (by rw [hm _ (List.getElem_mem _)]; exact hb)]
  exact ⟨_, rfl⟩

/-- **C60, tables.** The table of hydrogen binding energies for one vacancy is never read outside for a cluster meant to exist. -/
theorem table_one (hd ht : Bool) (o : Opts K) (cl : Comp) (p1 p2 : Reg) (ha : Allowed o cl) (hv : cl.v = 1) :
    ∃ e : K, tableEnergy hd ht (point cl) p1 p2 = some e := by
  unfold tableEnergy
  split_ifs with h1 h2 h3
  · refine look_some beV1 _ _ 10 7 rfl ?_ ?_ ?_
    · intro row hr
      simp only [beV1, List.mem_cons, List.not_mem_nil, or_false] at hr
      rcases hr with h | h | h | h | h | h | h | h | h | h <;> rw [h] <;> rfl
    · change cl.he < 10
      cases ha with
      | bubble he d t v g1 g2 g3 g4 g5 g6 g7 g8 g9 g10 =>
        simp only at hv
        subst hv
        rw [maxHePerV_small (by decide)] at g6
        exact lt_of_le_of_lt g6 (show 9 < 10 by decide)
      | _ => simp_all
    · change cl.d + cl.t < 7
      cases ha with
      | bubble he d t v g1 g2 g3 g4 g5 g6 g7 g8 g9 g10 =>
        simp only at hv
        subst hv
        rw [maxHePerV_small (by decide)] at g6
        have : maxHeTable.getD 1 0 = 9 := rfl
        simp only
        rcases Nat.eq_zero_or_pos he with h0 | h0
        · have := g9 h0; omega
        · have := g10 h0; omega
      | _ => simp_all
  · exact absurd (show (point cl).lo.v = 2 from h3) (by rw [show (point cl).lo.v = 1 from hv]; decide)
  · exact ⟨_, rfl⟩
  · exact ⟨_, rfl⟩

/-- **C60, tables.** For two vacancies the table is read within its bounds if there are at most eleven hydrogen atoms. -/
theorem table_two_partial (hd ht : Bool) (o : Opts K) (cl : Comp) (p1 p2 : Reg) (ha : Allowed o cl) (hv : cl.v = 2)
    (h11 : cl.d + cl.t ≠ 12) : ∃ e : K, tableEnergy hd ht (point cl) p1 p2 = some e := by
  unfold tableEnergy
  split_ifs with h1 h2 h3
  · exact absurd (show (point cl).lo.v = 1 from h2) (by rw [show (point cl).lo.v = 2 from hv]; decide)
  · refine look_some beV2 _ _ 15 12 rfl ?_ ?_ ?_
    · intro row hr
      simp only [beV2, List.mem_cons, List.not_mem_nil, or_false] at hr
      rcases hr with h | h | h | h | h | h | h | h | h | h | h | h | h | h | h <;> rw [h] <;> rfl
    · change cl.he < 15
      cases ha with
      | bubble he d t v g1 g2 g3 g4 g5 g6 g7 g8 g9 g10 =>
        simp only at hv
        subst hv
        rw [maxHePerV_small (by decide)] at g6
        exact lt_of_le_of_lt g6 (show 14 < 15 by decide)
      | _ => simp_all
    · change cl.d + cl.t < 12
      cases ha with
      | bubble he d t v g1 g2 g3 g4 g5 g6 g7 g8 g9 g10 =>
        simp only at hv h11
        subst hv
        rw [maxHePerV_small (by decide)] at g6
        have : maxHeTable.getD 2 0 = 14 := rfl
        simp only
        rcases Nat.eq_zero_or_pos he with h0 | h0
        · have := g9 h0; omega
        · have := g10 h0; omega
      | _ => simp_all
  · exact ⟨_, rfl⟩
  · exact ⟨_, rfl⟩

/-- **C60, tables.** The cluster of two vacancies with six deuterium and six tritium atoms is selected, and its binding energies are read past the end of the row of the table. -/
theorem table_two_outside (o : Opts K) (h1 : 2 ≤ o.maxV) (h2 : 2 ≤ o.maxPureV) (h3 : 0 < o.maxD) :
    Select true true o (point ⟨0, 6, 6, 2, 0⟩) ∧ Select true true o (point ⟨0, 5, 6, 2, 0⟩)
      ∧ binding true true o (point ⟨0, 6, 6, 2, 0⟩) (point ⟨0, 1, 0, 0, 0⟩) (point ⟨0, 5, 6, 2, 0⟩) = none := by
  have e : maxHePerV 2 o.ratio = 14 := maxHePerV_small (by decide) _
  refine ⟨(select_point o _).mpr ?_, (select_point o _).mpr ?_, ?_⟩
  · exact .bubble 0 6 6 2 (by decide) (by decide) h1 h2 (by omega) (by omega) (by omega) (by omega) (fun _ => by decide) (fun h => absurd h (by decide))
  · exact .bubble 0 5 6 2 (by decide) (by decide) h1 h2 (by omega) (by omega) (by omega) (by omega) (fun _ => by decide) (fun h => absurd h (by decide))
  · rfl

/-! ### Interpolated binding energies -/

/-- The loop finds the last number of vacancies, up to thirty, that cannot hold the helium. -/
theorem minV_spec (he v : ℕ) (h1 : minV he < v) (h2 : v ≤ 30) : he ≤ maxHePerV v (4 : ℚ) := by
  have key : ∀ n ≤ 30, ∀ m₀, let m := (List.range n).foldl (fun m k => if he > maxHePerV (k + 1) (4 : ℚ) then k + 1 else m) m₀
      ∀ v, m < v → v ≤ n → he ≤ maxHePerV v (4 : ℚ) := by
    intro n
    induction n with
    | zero => intro _ m₀ m v h1 h2; omega
    | succ n ih =>
      intro hn m₀ m v h1 h2
      simp only [m, List.range_succ, List.foldl_append, List.foldl_cons, List.foldl_nil] at h1
      split_ifs at h1 with hc
      · omega
      · rcases Nat.lt_or_ge v (n + 1) with h | h
        · exact ih (by omega) m₀ v h1 (by omega)
        · have : v = n + 1 := by omega
          subst this
          exact not_lt.mp hc
  exact key 30 le_rfl 1 v h1 h2

/-- **C60, interpolation.** The two bubbles whose energies give the lower end of the interpolation can hold the helium, and they have at least fifteen vacancies. -/
theorem lower_holds (he v : ℕ) (h1 : lowerV he ≤ v) (h2 : v ≤ 31) :
    15 ≤ lowerV he - 1 ∧ he ≤ maxHePerV (lowerV he - 1) (4 : ℚ) ∧ he ≤ maxHePerV (lowerV he) (4 : ℚ) := by
  unfold lowerV at *
  have a : he ≤ maxHePerV (max 16 (minV he + 2) - 1) (4 : ℚ) := minV_spec he _ (by omega) (by omega)
  exact ⟨by omega, a, le_trans a (maxHePerV_mono (4 : ℚ) (Nat.sub_le _ _))⟩

/-- Vacancy binding energy from the fit. -/
theorem beV_num (he v : ℕ) (h : 3 < v) : beV he v = .num ((fit he (v - 1) + 36 / 10) - fit he v : K) := by
  have e1 : (hev he (v - 1) : X K) = .num (fit he (v - 1)) := by
    unfold hev; rw [if_neg (by omega), if_pos (by omega)]
  have e2 : (hev he v : X K) = .num (fit he v) := by
    unfold hev; rw [if_neg (by omega), if_pos (by omega)]
  have e3 : (hev 0 1 : X K) = .num (36 / 10) := rfl
  unfold beV
  rw [e1, e2, e3]
  simp only [X.add, X.neg, sub_eq_add_neg]

/-- **C60, interpolation.** The interpolated energy is the vacancy binding energy of the fit at both ends, and between them it lies between these two. -/
theorem interpolated_spec (he v : ℕ) (hw : lowerV he + 4 ≤ 31) (h1 : lowerV he ≤ v) (h2 : v ≤ 31) :
    let a : K := fit he (lowerV he - 1) + 36 / 10 - fit he (lowerV he)
    let b : K := fit he 30 + 36 / 10 - fit he 31
    ∃ e : K, interpolated he v = .num e ∧ (v = lowerV he → e = a) ∧ (v = 31 → e = b) ∧ min a b ≤ e ∧ e ≤ max a b := by
  intro a b
  have hl : 16 ≤ lowerV he := le_max_left _ _
  have e1 : (beV he (lowerV he) : X K) = .num a := beV_num he _ (by omega)
  have e2 : (beV he 31 : X K) = .num b := beV_num he 31 (by decide)
  obtain ⟨n, hn⟩ : ∃ n, n = v - lowerV he := ⟨_, rfl⟩
  obtain ⟨w, hw'⟩ : ∃ w, w = 31 - lowerV he := ⟨_, rfl⟩
  have hwpos : (0 : K) < (w : K) := by exact_mod_cast (show 0 < w by omega)
  have hnw : (n : K) ≤ (w : K) := by exact_mod_cast (show n ≤ w by omega)
  have hn0 : (0 : K) ≤ (n : K) := Nat.cast_nonneg n
  refine ⟨a + (n : K) * (b - a) / (w : K), ?_, ?_, ?_, ?_, ?_⟩
  · unfold interpolated
    simp only [e1, e2]
    rw [if_neg (by omega), ← hn, ← hw']
  · intro h
    have : n = 0 := by omega
    rw [this]; simp
  · intro h
    have : n = w := by omega
    rw [this]; field_simp; ring
  · have hx0 : 0 ≤ (n : K) / w := div_nonneg hn0 hwpos.le
    have hx1 : (n : K) / w ≤ 1 := (div_le_one hwpos).mpr hnw
    rw [show a + (n : K) * (b - a) / w = a + (n : K) / w * (b - a) by ring]
    rcases le_total a b with h | h
    · rw [min_eq_left h]; nlinarith [sub_nonneg.mpr h]
    · rw [min_eq_right h]; nlinarith [sub_nonneg.mpr h]
  · have hx0 : 0 ≤ (n : K) / w := div_nonneg hn0 hwpos.le
    have hx1 : (n : K) / w ≤ 1 := (div_le_one hwpos).mpr hnw
    rw [show a + (n : K) * (b - a) / w = a + (n : K) / w * (b - a) by ring]
    rcases le_total a b with h | h
    · rw [max_eq_right h]; nlinarith [sub_nonneg.mpr h]
    · rw [max_eq_left h]; nlinarith [sub_nonneg.mpr h]

/-- **C60, interpolation.** The rule meant for the emission of a vacancy also applies to the emission of a gas atom that leaves a pure vacancy cluster: the binding energies of the helium atom and of a vacancy in a bubble of one helium atom and 16 to 31 vacancies are the same number. -/
theorem gas_emission_interpolated (hd ht : Bool) (o : Opts K) (n : ℕ) (h1 : 16 ≤ n) (h2 : n ≤ 31) :
    binding hd ht o (point ⟨1, 0, 0, n, 0⟩) (point ⟨1, 0, 0, 0, 0⟩) (point ⟨0, 0, 0, n, 0⟩)
      = binding hd ht o (point ⟨1, 0, 0, n, 0⟩) (point ⟨0, 0, 0, 1, 0⟩) (point ⟨1, 0, 0, n - 1, 0⟩) := by
  have hl : lowerV 1 = 16 := by decide +kernel
  have t : ∀ p1 p2 : Reg, tableEnergy (K := K) hd ht (point ⟨1, 0, 0, n, 0⟩) p1 p2 = some 0 := by
    intro p1 p2
    unfold tableEnergy
    rw [if_neg (show ¬(point ⟨1, 0, 0, n, 0⟩).lo.v = 1 by simp only [point]; omega),
      if_neg (show ¬(point ⟨1, 0, 0, n, 0⟩).lo.v = 2 by simp only [point]; omega)]
    split_ifs <;> rfl
  have i1 : interpolates (point ⟨1, 0, 0, n, 0⟩) (point ⟨1, 0, 0, 0, 0⟩) (point ⟨0, 0, 0, n, 0⟩) :=
    ⟨Or.inr ⟨by simp only [point]; omega, rfl, rfl, rfl, rfl⟩, by simp only [point, hl]; omega, by simp only [point]; omega⟩
  have i2 : interpolates (point ⟨1, 0, 0, n, 0⟩) (point ⟨0, 0, 0, 1, 0⟩) (point ⟨1, 0, 0, n - 1, 0⟩) :=
    ⟨Or.inl ⟨Nat.one_pos, rfl, rfl, rfl, rfl⟩, by simp only [point, hl]; omega, by simp only [point]; omega⟩
  unfold binding
  simp only [t, if_pos i1, if_pos i2]

/-- **C60, bounds.** A binding energy that is a number is never below minus five. -/
theorem binding_ge (hd ht : Bool) (o : Opts K) (cl p1 p2 : Reg) (e : K) (h : binding hd ht o cl p1 p2 = some (.num e)) : -5 ≤ e := by
  unfold binding at h
  cases ht' : tableEnergy (K := K) hd ht cl p1 p2 with
  | none => rw [ht'] at h; exact absurd h (by simp)
  | some be =>
    rw [ht'] at h
    simp only [Option.bind_eq_bind, Option.bind_some, Option.pure_def, Option.some.injEq] at h
    generalize (if be = 0 then _ else X.num be) = x at h
    cases x with
    | num a =>
      simp only [X.floor5] at h
      split_ifs at h with hc
      · injection h with h; rw [← h]
      · injection h with h; rw [← h]; exact not_lt.mp hc
    | pinf => simp only [X.floor5] at h; exact absurd h (by simp)
    | ninf => simp only [X.floor5] at h; injection h with h; rw [← h]
    | nan => simp only [X.floor5] at h; exact absurd h (by simp)

/-- **C60, helium clusters.** With clusters of more than eight helium atoms the energies become meaningless: the ninth atom is bound with minus five and the tenth with something that is not a number. -/
theorem he_nine (hd ht : Bool) (o : Opts K) (h : 1 < o.gmin) :
    binding hd ht o (point ⟨9, 0, 0, 0, 0⟩) (point ⟨1, 0, 0, 0, 0⟩) (point ⟨8, 0, 0, 0, 0⟩) = some (.num (-5))
    ∧ binding hd ht o (point ⟨10, 0, 0, 0, 0⟩) (point ⟨1, 0, 0, 0, 0⟩) (point ⟨9, 0, 0, 0, 0⟩) = some .nan := by
  have f : ∀ n, 0 < n → formation o (point ⟨n, 0, 0, 0, 0⟩) = if n < 9 then X.num (heFormation.getD n 0 : K) else .pinf := by
    intro n hn
    unfold formation
    have a : ¬(point ⟨n, 0, 0, 0, 0⟩).hi.v ≥ o.gmin := by simp only [point]; omega
    rw [if_neg a, if_pos (show simplex (point ⟨n, 0, 0, 0, 0⟩) from rfl),
      if_neg (show ¬onI (point ⟨n, 0, 0, 0, 0⟩).lo from fun h => absurd h.1 (lt_irrefl 0)),
      if_pos (show onHe (point ⟨n, 0, 0, 0, 0⟩).lo from ⟨hn, rfl, rfl, rfl, rfl⟩)]
    rfl
  have nt : ∀ n m, tableEnergy (K := K) hd ht (point ⟨n, 0, 0, 0, 0⟩) (point ⟨1, 0, 0, 0, 0⟩) (point ⟨m, 0, 0, 0, 0⟩) = some 0 := by
    intro n m
    unfold tableEnergy
    rw [if_neg (show ¬(point ⟨n, 0, 0, 0, 0⟩).lo.v = 1 by simp only [point]; decide),
      if_neg (show ¬(point ⟨n, 0, 0, 0, 0⟩).lo.v = 2 by simp only [point]; decide)]
    split_ifs <;> rfl
  have ni : ∀ n m, ¬interpolates (point ⟨n, 0, 0, 0, 0⟩) (point ⟨1, 0, 0, 0, 0⟩) (point ⟨m, 0, 0, 0, 0⟩) := by
    intro n m h
    rcases h.1 with h | h <;> exact absurd h.1 (lt_irrefl 0)
  unfold binding
  simp only [nt, f 1 (by decide), f 8 (by decide), f 9 (by decide), f 10 (by decide), Option.bind_eq_bind, Option.bind_some, if_true]
  rw [if_neg (ni 9 8), if_neg (ni 10 9)]
  constructor <;> rfl

/-- Every entry of the tables but the first of each row is the energy of a weakly bound atom: 0.45 to 1.6 eV. -/
theorem look_pos : (∀ a b x, 0 < b → look (beV1 : List (List K)) a b = some x → 9 / 20 ≤ x ∧ x ≤ 8 / 5) ∧ (∀ a b x, 0 < b → look (beV2 : List (List K)) a b = some x → 9 / 20 ≤ x ∧ x ≤ 8 / 5) := by
  have key : ∀ t : List (List K), (∀ row ∈ t, ∀ x ∈ row.tail, 9 / 20 ≤ x ∧ x ≤ 8 / 5) → ∀ a b x, 0 < b → look t a b = some x → 9 / 20 ≤ x ∧ x ≤ 8 / 5 := by
    intro t ht a b x hb h
    unfold look at h
    obtain ⟨row, hr, hx⟩ := Option.bind_eq_some_iff.mp h
    obtain ⟨c, rfl⟩ : ∃ c, b = c + 1 := ⟨b - 1, by omega⟩
    refine ht row (List.mem_of_getElem? hr) x ?_
    rw [← List.getElem?_tail] at hx
    exact List.mem_of_getElem? hx
  constructor
  · refine key _ fun row hr => ?_
    simp only [beV1, List.mem_cons, List.not_mem_nil, or_false] at hr
    rcases hr with h | h | h | h | h | h | h | h | h | h <;> rw [h] <;> intro x hx <;>
      simp only [List.tail_cons, List.mem_cons, List.not_mem_nil, or_false] at hx <;>
      rcases hx with rfl | rfl | rfl | rfl | rfl | rfl <;> norm_num
  · refine key _ fun row hr => ?_
    simp only [beV2, List.mem_cons, List.not_mem_nil, or_false] at hr
    rcases hr with h | h | h | h | h | h | h | h | h | h | h | h | h | h | h <;> rw [h] <;> intro x hx <;>
      simp only [List.tail_cons, List.mem_cons, List.not_mem_nil, or_false] at hx <;>
      rcases hx with rfl | rfl | rfl | rfl | rfl | rfl | rfl | rfl | rfl | rfl | rfl <;> norm_num

/-- **C60, tables.** The emission of a hydrogen atom from a bubble with one vacancy has the binding energy of the table, between 0.45 and 1.6 eV. -/
theorem hydrogen_one (o : Opts K) (cl : Comp) (p1 p2 : Reg) (ha : Allowed o cl) (hv : cl.v = 1) (hh : 0 < cl.d + cl.t)
    (hu : useTable true true (point cl) p1 p2) :
    ∃ e : K, 9 / 20 ≤ e ∧ e ≤ 8 / 5 ∧ look beV1 cl.he (cl.d + cl.t) = some e ∧ binding true true o (point cl) p1 p2 = some (.num e) := by
  obtain ⟨e, he⟩ := table_one true true o cl p1 p2 ha hv
  have hl : look beV1 cl.he (cl.d + cl.t) = some e := by
    rw [← he]; unfold tableEnergy; rw [if_pos hu, if_pos (show (point cl).lo.v = 1 from hv)]; rfl
  have hp := look_pos.1 _ _ _ hh hl
  refine ⟨e, hp.1, hp.2, hl, ?_⟩
  have hp : 0 < e := by linarith [hp.1]
  unfold binding
  simp only [he, Option.bind_eq_bind, Option.bind_some, if_neg hp.ne', X.floor5]
  rw [if_neg (by linarith)]; rfl

/-- **C60, grouping.** Formation energies are zero from one vacancy below the grouping minimum on, so that the vacancy binding energy of the first such cluster is a whole formation energy instead of a difference. -/
theorem boundary_binding (o : Opts K) (n : ℕ) (hn : 32 ≤ n) (hg : o.gmin = n + 1) :
    (binding true true o (point ⟨0, 0, 0, n, 0⟩) (point ⟨0, 0, 0, 1, 0⟩) (point ⟨0, 0, 0, n - 1, 0⟩)
      = some (X.floor5 (.num (36 / 10 + fit 0 (n - 1)))))
    ∧ ∀ o' : Opts K, n + 1 < o'.gmin → binding true true o' (point ⟨0, 0, 0, n, 0⟩) (point ⟨0, 0, 0, 1, 0⟩) (point ⟨0, 0, 0, n - 1, 0⟩)
      = some (X.floor5 (.num (36 / 10 + fit 0 (n - 1) - fit 0 n))) := by
  have f : ∀ (o : Opts K) (v : ℕ), v + 1 < o.gmin → formation o (point ⟨0, 0, 0, v, 0⟩) = hev 0 v := by
    intro o v hv
    unfold formation
    rw [if_neg (show ¬(point ⟨0, 0, 0, v, 0⟩).hi.v ≥ o.gmin by simp only [point]; omega),
      if_pos (show simplex (point ⟨0, 0, 0, v, 0⟩) from rfl),
      if_neg (show ¬onI (point ⟨0, 0, 0, v, 0⟩).lo from fun h => absurd h.1 (lt_irrefl 0)),
      if_neg (show ¬onHe (point ⟨0, 0, 0, v, 0⟩).lo from fun h => absurd h.1 (lt_irrefl 0)),
      if_neg (show ¬onD (point ⟨0, 0, 0, v, 0⟩).lo from fun h => absurd h.1 (lt_irrefl 0)),
      if_neg (show ¬onT (point ⟨0, 0, 0, v, 0⟩).lo from fun h => absurd h.1 (lt_irrefl 0))]
    rfl
  have e1 : (hev 0 1 : X K) = .num (36 / 10) := rfl
  have e2 : ∀ v, 3 ≤ v → (hev 0 v : X K) = .num (fit 0 v) := by
    intro v hv; unfold hev; rw [if_neg (by omega), if_pos (by omega)]
  have nt : tableEnergy (K := K) true true (point ⟨0, 0, 0, n, 0⟩) (point ⟨0, 0, 0, 1, 0⟩) (point ⟨0, 0, 0, n - 1, 0⟩) = some 0 := by
    unfold tableEnergy
    rw [if_neg (show ¬(point ⟨0, 0, 0, n, 0⟩).lo.v = 1 by simp only [point]; omega),
      if_neg (show ¬(point ⟨0, 0, 0, n, 0⟩).lo.v = 2 by simp only [point]; omega)]
    split_ifs <;> rfl
  have ni : ¬interpolates (point ⟨0, 0, 0, n, 0⟩) (point ⟨0, 0, 0, 1, 0⟩) (point ⟨0, 0, 0, n - 1, 0⟩) := by
    intro h; have := h.2.2; simp only [point] at this; omega
  have fz : formation o (point ⟨0, 0, 0, n, 0⟩) = .num 0 := by
    unfold formation
    rw [if_pos (show (point ⟨0, 0, 0, n, 0⟩).hi.v ≥ o.gmin by simp only [point]; omega)]
  constructor
  · unfold binding
    simp only [nt, Option.bind_eq_bind, Option.bind_some, if_true]
    rw [if_neg ni, f o 1 (by omega), f o (n - 1) (by omega), fz, e1, e2 (n - 1) (by omega)]
    simp only [X.add, X.neg, neg_zero, add_zero]; rfl
  · intro o' ho
    unfold binding
    simp only [nt, Option.bind_eq_bind, Option.bind_some, if_true]
    rw [if_neg ni, f o' 1 (by omega), f o' (n - 1) (by omega), f o' n (by omega), e1, e2 (n - 1) (by omega), e2 n (by omega)]
    simp only [X.add, X.neg, ← sub_eq_add_neg]; rfl

/-! ### Concrete cases -/

/-- The options used in the examples: the defaults with 50 vacancies. -/
def sample : Opts ℚ := ⟨8, 1, 1, 50, 50, 6, 100, 4⟩

example : Allowed sample ⟨9, 3, 3, 1, 0⟩ := by
  refine .bubble 9 3 3 1 ?_ ?_ ?_ ?_ ?_ ?_ ?_ ?_ ?_ ?_ <;> (try simp only [maxHePerV_small (show 1 < 30 by decide)]) <;> decide

example : Select true true sample (point ⟨20, 5, 0, 5, 0⟩) := by
  rw [select_point]
  refine .bubble 20 5 0 5 ?_ ?_ ?_ ?_ ?_ ?_ ?_ ?_ ?_ ?_ <;> (try simp only [maxHePerV_small (show 5 < 30 by decide)]) <;> decide

example : ¬Select true true sample (point ⟨10, 0, 0, 1, 0⟩) := by
  rw [select_point]
  intro h
  cases h with
  | bubble he d t v g1 g2 g3 g4 g5 g6 =>
    rw [maxHePerV_small (by decide)] at g6
    exact absurd g6 (by decide)

example : Select true true sample ⟨⟨5, 0, 0, 4, 0⟩, ⟨9, 2, 2, 8, 1⟩⟩ :=
  select_group sample (by norm_num [sample]) _ (Or.inl (by decide)) ⟨8, 1, 1, 5, 0⟩ (by unfold Mem; decide) (by
    refine .bubble 8 1 1 5 ?_ ?_ ?_ ?_ ?_ ?_ ?_ ?_ ?_ ?_ <;> (try simp only [maxHePerV_small (show 5 < 30 by decide)]) <;> decide)

example : ∃ e : ℚ, 0 < e ∧ binding true true sample (point ⟨5, 2, 1, 1, 0⟩) (point ⟨0, 1, 0, 0, 0⟩) (point ⟨5, 1, 1, 1, 0⟩) = some (.num e) := by
  obtain ⟨e, h1, -, -, h3⟩ := hydrogen_one sample ⟨5, 2, 1, 1, 0⟩ (point ⟨0, 1, 0, 0, 0⟩) (point ⟨5, 1, 1, 1, 0⟩) (by
    refine .bubble 5 2 1 1 ?_ ?_ ?_ ?_ ?_ ?_ ?_ ?_ ?_ ?_ <;> (try simp only [maxHePerV_small (show 1 < 30 by decide)]) <;> decide) rfl (by decide) (by decide)
  exact ⟨e, by linarith, h3⟩

example : lowerV 80 = 17 ∧ lowerV 0 = 16 := by decide +kernel

/-- **C60, when the table is used.** For single compositions, exactly when one of the two products is deuterium or tritium alone. -/
theorem useTable_iff (cl p1 p2 : Comp) : useTable true true (point cl) (point p1) (point p2) ↔
    ∃ p, (p = p1 ∨ p = p2) ∧ 0 < p.d + p.t ∧ (p.d = 0 ∨ p.t = 0) ∧ p.he + p.v + p.i = 0 := by
  have s : ∀ c, simplex (point c) := fun c => rfl
  have e : ∀ p : Comp, onD p ∨ onT p ↔ 0 < p.d + p.t ∧ (p.d = 0 ∨ p.t = 0) ∧ p.he + p.v + p.i = 0 := by
    intro p
    unfold onD onT
    omega
  constructor
  · rintro ⟨-, -, -, ⟨-, h⟩ | ⟨-, h⟩⟩
    · exact ⟨p1, Or.inl rfl, (e p1).mp h⟩
    · exact ⟨p2, Or.inr rfl, (e p2).mp h⟩
  · rintro ⟨p, rfl | rfl, h⟩
    · exact ⟨s cl, rfl, rfl, Or.inl ⟨s p, (e p).mpr h⟩⟩
    · exact ⟨s cl, rfl, rfl, Or.inr ⟨s p, (e p).mpr h⟩⟩

example : useTable true true (point ⟨1, 2, 0, 1, 0⟩) (point ⟨1, 1, 0, 1, 0⟩) (point ⟨0, 1, 0, 0, 0⟩) ∧ ¬useTable true true (point ⟨1, 2, 0, 1, 0⟩) (point ⟨1, 0, 0, 0, 0⟩) (point ⟨0, 2, 0, 1, 0⟩) := by decide

/-- **C60, a narrow window.** When fewer than four steps are left to 31 vacancies there is no interpolation: all have the energy of the fit at 31. -/
theorem interpolated_narrow (he v : ℕ) (h : 31 < lowerV he + 4) : (interpolated he v : X K) = .num (fit he 30 + 36 / 10 - fit he 31) := by
  unfold interpolated
  dsimp only
  rw [if_pos (by omega)]
  exact beV_num he 31 (by omega)

example : 31 < lowerV 117 + 4 := by decide +kernel

end Xolotl.Network.Psi
