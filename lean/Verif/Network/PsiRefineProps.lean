import Verif.Network.PsiRefine
import Verif.Network.PsiSelectProps

set_option linter.unusedSectionVars false

/-!
# Properties of the subdivision of tungsten and iron networks
-/

namespace Xolotl.Network.Psi

variable {K : Type*} [Field K] [LinearOrder K] [IsStrictOrderedRing K] [FloorSemiring K]

/-! ### The possible answers -/

/-- Which flags `refine` can give, and when. -/
theorem refine_cases (hd ht : Bool) (o : GOpts K) (r : Reg) :
    (refine hd ht o r).2 = allAxes ∨
    ((refine hd ht o r).2 = { allAxes with i := false } ∧ 0 < r.lo.i ∧ (o.gmin ≤ r.lo.i ∨ ¬ (r.lo.he = 0 ∧ r.lo.d = 0 ∧ r.lo.t = 0 ∧ r.lo.v = 0)) ∧ r.hi.i ≤ o.maxI ∧
      narrow r.lo.i r.hi.i o.wB ((r.lo.i : K) * (1 / 100))) ∨
    ((refine hd ht o r).2 = { allAxes with v := false } ∧ 0 < r.lo.v ∧ narrow r.lo.v r.hi.v o.wB ((r.lo.v : K) * (1 / 100)) ∧
      ((noGas o ∧ (o.gmin ≤ r.lo.v ∨ ¬ (r.lo.he = 0 ∧ r.lo.d = 0 ∧ r.lo.t = 0 ∧ r.lo.i = 0)) ∧ r.hi.v ≤ o.maxPureV) ∨ (¬ noGas o ∧ o.maxV < r.lo.v ∧ o.maxV < o.maxPureV ∧ (r.lo.he = 0 ∧ r.lo.d = 0 ∧ r.lo.t = 0 ∧ r.lo.i = 0)))) ∨
    ((refine hd ht o r).2 = edgeFlags hd ht o r ∧ edge o r ∧ ¬ single hd ht o r) ∨
    ((refine hd ht o r).2 = innerFlags hd ht o r ∧ ¬ edge o r ∧ ¬ single hd ht o r) := by
  unfold refine
  rcases ei : earlyI o r with _ | f
  · dsimp only
    rcases ev : earlyV o r with _ | f
    · dsimp only
      by_cases hs : single hd ht o r
      · rw [if_pos hs]; exact .inl rfl
      · rw [if_neg hs]
        by_cases he : edge o r
        · rw [if_pos he]; exact .inr (.inr (.inr (.inl ⟨rfl, he, hs⟩)))
        · rw [if_neg he]; exact .inr (.inr (.inr (.inr ⟨rfl, he, hs⟩)))
    · dsimp only
      unfold earlyV at ev
      split_ifs at ev with h1 h2 h3 h4 h5 h6 h7
      · simp only [Option.some.injEq] at ev; exact .inl ev.symm
      · simp only [Option.some.injEq] at ev; exact .inl ev.symm
      · simp only [Option.some.injEq] at ev
        refine .inr (.inr (.inl ⟨ev.symm, h1.1, h4, .inl ⟨h1.2, ?_, by omega⟩⟩))
        by_cases hz : zeroButV r.lo
        · exact .inl (by by_contra hc; exact h2 ⟨by omega, hz⟩)
        · exact .inr hz
      · simp only [Option.some.injEq] at ev; exact .inl ev.symm
      · simp only [Option.some.injEq] at ev
        exact .inr (.inr (.inl ⟨ev.symm, h5.1, h7.1, .inr ⟨fun hn => h1 ⟨h5.1, hn⟩, by by_contra hc; exact h6 ⟨by omega, h7.2⟩, h5.2, h7.2⟩⟩))
  · dsimp only
    unfold earlyI at ei
    split_ifs at ei with h1 h2 h3 h4
    · simp only [Option.some.injEq] at ei; exact .inl ei.symm
    · simp only [Option.some.injEq] at ei; exact .inl ei.symm
    · simp only [Option.some.injEq] at ei
      refine .inr (.inl ⟨ei.symm, h1, ?_, by omega, h4⟩)
      by_cases hz : zeroButI r.lo
      · exact .inl (by by_contra hc; exact h2 ⟨by omega, hz⟩)
      · exact .inr hz

/-- **C69, the value returned.** `refine` never answers that a region is to be left alone: the branch that returns `false` is not reached, as the interstitial axis stays flagged. -/
theorem refine_true (hd ht : Bool) (o : GOpts K) (r : Reg) : (refine hd ht o r).1 = true := by
  unfold refine
  split
  · rfl
  · split
    · rfl
    · split_ifs
      · rfl
      · rfl
      · simp [innerFlags]

/-- **C69, groups begin above zero.** An axis that is not refined begins above zero. -/
theorem grouped_positive (hd ht : Bool) (o : GOpts K) (r : Reg) :
    ((refine hd ht o r).2.he = false → 0 < r.lo.he) ∧ ((refine hd ht o r).2.d = false → 0 < r.lo.d) ∧ ((refine hd ht o r).2.t = false → 0 < r.lo.t) ∧
    ((refine hd ht o r).2.v = false → 0 < r.lo.v) ∧ ((refine hd ht o r).2.i = false → 0 < r.lo.i) := by
  rcases refine_cases hd ht o r with h | ⟨h, h1, -⟩ | ⟨h, h1, -⟩ | ⟨h, -⟩ | ⟨h, -⟩ <;> rw [h]
  · simp [allAxes]
  · simp [allAxes, h1]
  · simp [allAxes, h1]
  · simp only [edgeFlags, decide_eq_false_iff_not]; grind
  · simp only [innerFlags, decide_eq_false_iff_not]; grind

/-- **C69, groups do not mix.** All compositions of a region that is subdivided no more consist of the same species; in particular pure vacancy clusters are never grouped with bubbles. -/
theorem same_species (hd ht : Bool) (o : GOpts K) (r : Reg) (hF : Final hd ht o r) (c c' : Comp) (hc : Mem c r) (hc' : Mem c' r) :
    (c.he = 0 ↔ c'.he = 0) ∧ (c.d = 0 ↔ c'.d = 0) ∧ (c.t = 0 ↔ c'.t = 0) ∧ (c.v = 0 ↔ c'.v = 0) ∧ (c.i = 0 ↔ c'.i = 0) := by
  obtain ⟨g1, g2, g3, g4, g5⟩ := grouped_positive hd ht o r
  obtain ⟨f1, f2, f3, f4, f5⟩ := hF
  obtain ⟨a1, a2, a3, a4, a5⟩ := hc
  obtain ⟨b1, b2, b3, b4, b5⟩ := hc'
  have key : ∀ (f : Bool) (lo hi x y : ℕ), (f = true → hi = lo + 1) → (f = false → 0 < lo) → (lo ≤ x ∧ x < hi) → (lo ≤ y ∧ y < hi) → (x = 0 ↔ y = 0) := by
    intro f lo hi x y h1 h2 h3 h4
    cases f with
    | true => have := h1 rfl; omega
    | false => have := h2 rfl; omega
  exact ⟨key _ _ _ _ _ f1 g1 a1 b1, key _ _ _ _ _ f2 g2 a2 b2, key _ _ _ _ _ f3 g3 a3 b3, key _ _ _ _ _ f4 g4 a4 b4, key _ _ _ _ _ f5 g5 a5 b5⟩

/-- **C69, nothing is lost.** With a ratio of at most nine, every composition meant to exist lies in a selected region, when the subdivision has ended. -/
theorem none_lost (hd ht : Bool) (o : GOpts K) (hr : o.ratio ≤ 9) (r : Reg) (hF : Final hd ht o r) (c : Comp) (hc : Mem c r) (ha : Allowed o.toOpts c) :
    Select true true o.toOpts r := by
  refine select_group o.toOpts hr r ?_ c hc ha
  by_cases hf : (refine hd ht o r).2.v = true
  · have := hF.2.2.2.1 hf
    have := hc.2.2.2.1
    omega
  · exact .inl ((grouped_positive hd ht o r).2.2.2.1 (by simpa using hf))

/-- **C69, helium.** Every composition with vacancies of a selected region that is subdivided no more holds at most as much helium as its vacancies can. -/
theorem capacity (hd ht : Bool) (o : GOpts K) (hg : 1 ≤ o.gmin) (r : Reg) (hF : Final hd ht o r) (hS : Select true true o.toOpts r) (c : Comp) (hc : Mem c r)
    (hv : 0 < c.v) : c.he ≤ maxHePerV c.v o.ratio := by
  obtain ⟨f1, -, -, f4, -⟩ := hF
  obtain ⟨a1, -, -, a4, -⟩ := hc
  obtain ⟨s1, -, s3⟩ := hS
  have hm := maxHePerV_mono o.ratio
  have s3 := s3 (by omega)
  rw [rejectV_iff] at s3
  have hcap : r.lo.he ≤ maxHePerV (r.hi.v - 1) o.ratio := by
    by_contra hlt
    have h3 := hm (min_le_left (r.hi.v - 1) o.maxV)
    simp only at h3
    exact s3 (.inr (.inl (by omega)))
  have const : r.hi.he = r.lo.he + 1 → r.hi.v = r.lo.v + 1 → c.he ≤ maxHePerV c.v o.ratio := by
    intro h1 h2
    have e1 : c.he = r.lo.he := by omega
    have e2 : c.v = r.hi.v - 1 := by omega
    rw [e1, e2]; exact hcap
  have zero : r.hi.he = r.lo.he + 1 → r.lo.he = 0 → c.he ≤ maxHePerV c.v o.ratio := by
    intro h1 h2
    have : c.he = 0 := by omega
    rw [this]; exact Nat.zero_le _
  rcases refine_cases hd ht o r with h | ⟨h, h1, -⟩ | ⟨h, h1, -, hh⟩ | ⟨h, -⟩ | ⟨h, h1, h2⟩ <;> rw [h] at f1 f4
  · exact const (f1 rfl) (f4 rfl)
  · exact const (f1 rfl) (f4 rfl)
  · refine zero (f1 rfl) ?_
    rcases hh with ⟨hn, -⟩ | ⟨-, -, -, hz⟩
    · by_contra hne
      refine s1 (.inr (.inr (.inr (.inr (.inr (.inr (.inl ⟨h1, fun hon => hne hon.2.1, hn⟩)))))))
    · exact hz.1
  · exact const (f1 rfl) (f4 rfl)
  · have hlo : o.gmin ≤ r.lo.v := by
      by_contra hlt
      exact h2 (.inr (.inl (by omega)))
    by_cases hmax : r.lo.v ≤ o.maxV
    · have : r.hi.he - 1 < maxHePerV (r.lo.v - 1) o.ratio := by
        by_contra hlt
        exact h1 ⟨⟨by omega, hmax⟩, hcap, by omega⟩
      have h3 := hm (show r.lo.v - 1 ≤ c.v by omega)
      simp only at h3
      omega
    · have hon : onV r.lo := by
        by_contra hno
        exact s1 (.inr (.inr (.inr (.inr (.inr (.inr (.inr (.inr ⟨by omega, hno⟩))))))))
      have : r.lo.he = 0 := hon.2.1
      exact zero (f1 (by simp [innerFlags, this])) this

/-- **C69, hydrogen (negation).** Away from the helium edge, hydrogen is not looked at: a selected region that is subdivided no more can hold compositions that are not meant to exist, here seven deuterium atoms with four helium atoms. -/
theorem hydrogen_over : ∃ (o : GOpts ℚ) (r : Reg) (c : Comp), 1 ≤ o.gmin ∧ o.ratio ≤ 9 ∧ Final true true o r ∧ Select true true o.toOpts r ∧ Mem c r ∧ ¬ Allowed o.toOpts c := by
  refine ⟨⟨⟨8, 1, 1, 20, 20, 6, 2, 4⟩, 4, 1⟩, ⟨⟨4, 4, 0, 10, 0⟩, ⟨8, 8, 1, 11, 1⟩⟩, ⟨4, 7, 0, 10, 0⟩, by decide, by norm_num, by decide +kernel, ?_, by unfold Mem; decide, ?_⟩
  · unfold Select
    rw [rejectV_iff]
    refine ⟨?_, fun h => absurd h (by decide), fun _ => ?_⟩
    · simp only [rejectAny, zeroPoint, onI, onV]; decide
    · have e : maxHePerV 10 (4 : ℚ) = 50 := maxHePerV_small (by decide) _
      have e2 : maxHePerV 20 (4 : ℚ) = 98 := maxHePerV_small (by decide) _
      simp [e, e2, onV]
  · intro h
    cases h with
    | bubble _ _ _ _ _ _ _ _ _ _ _ _ _ h10 => exact absurd (h10 (by decide)) (by decide)

/-- **C69, below the minimum.** Below the minimum size for grouping every region left is a single composition, if the minimum does not exceed the largest bubble or pure vacancy clusters do not. -/
theorem below_min (hd ht : Bool) (o : GOpts K) (r : Reg) (hF : Final hd ht o r) (hv : r.lo.v < o.gmin) (hi : r.lo.i = 0 ∨ (r.lo.i < o.gmin ∧ (r.lo.he = 0 ∧ r.lo.d = 0 ∧ r.lo.t = 0 ∧ r.lo.v = 0)))
    (hz : o.maxHe = 0 ∧ o.maxD = 0 ∧ o.maxT = 0 → (r.lo.he = 0 ∧ r.lo.d = 0 ∧ r.lo.t = 0 ∧ r.lo.i = 0) ∨ r.lo.v = 0) (hp : o.maxPureV ≤ o.maxV ∨ o.gmin ≤ o.maxV + 1) : simplex r := by
  obtain ⟨f1, f2, f3, f4, f5⟩ := hF
  have hs : single hd ht o r := .inr (.inl hv)
  have key : (refine hd ht o r).2 = allAxes := by
    rcases refine_cases hd ht o r with h | ⟨h, h1, h2, -⟩ | ⟨h, h1, -, hh⟩ | ⟨h, -, h2⟩ | ⟨h, -, h2⟩
    · exact h
    · rcases hi with hi | hi
      · omega
      · rcases h2 with h2 | h2
        · omega
        · exact absurd hi.2 h2
    · rcases hh with ⟨hn, h2, -⟩ | ⟨-, h2, h3, -⟩
      · rcases h2 with h2 | h2
        · omega
        · rcases hz hn with h | h
          · exact absurd h h2
          · omega
      · omega
    · exact absurd hs h2
    · exact absurd hs h2
  rw [key] at f1 f2 f3 f4 f5
  obtain ⟨lo, he, d, t, v, i⟩ := r
  have e1 := f1 rfl; have e2 := f2 rfl; have e3 := f3 rfl; have e4 := f4 rfl; have e5 := f5 rfl
  simp only at e1 e2 e3 e4 e5
  subst e1 e2 e3 e4 e5
  rfl

/-- **C69, pure vacancies.** In a network with a gas, pure vacancy clusters up to the largest bubble are never grouped, nor are any if they are not larger than the bubbles. -/
theorem pure_vacancies (hd ht : Bool) (o : GOpts K) (hg : 1 ≤ o.gmin) (r : Reg) (hF : Final hd ht o r) (hn : ¬ (o.maxHe = 0 ∧ o.maxD = 0 ∧ o.maxT = 0))
    (hz : r.lo.he = 0 ∧ r.lo.d = 0 ∧ r.lo.t = 0 ∧ r.lo.i = 0) (hne : r.lo.v < r.hi.v) (hm : o.maxPureV ≤ o.maxV ∨ r.lo.v ≤ o.maxV) : simplex r := by
  obtain ⟨f1, f2, f3, f4, f5⟩ := hF
  have hs : single hd ht o r := by
    by_cases h : 1 < r.hi.v
    · exact .inl ⟨h, hz⟩
    · exact .inr (.inl (by omega))
  have key : (refine hd ht o r).2 = allAxes := by
    rcases refine_cases hd ht o r with h | ⟨h, h1, -⟩ | ⟨h, h1, -, hh⟩ | ⟨h, -, h2⟩ | ⟨h, -, h2⟩
    · exact h
    · omega
    · rcases hh with ⟨h2, -⟩ | ⟨-, h2, h3, -⟩
      · exact absurd h2 hn
      · omega
    · exact absurd hs h2
    · exact absurd hs h2
  rw [key] at f1 f2 f3 f4 f5
  obtain ⟨lo, he, d, t, v, i⟩ := r
  have e1 := f1 rfl; have e2 := f2 rfl; have e3 := f3 rfl; have e4 := f4 rfl; have e5 := f5 rfl
  simp only at e1 e2 e3 e4 e5
  subst e1 e2 e3 e4 e5
  rfl

example : simplex ⟨⟨0, 0, 0, 12, 0⟩, ⟨1, 1, 1, 13, 1⟩⟩ :=
  pure_vacancies true true (⟨⟨8, 1, 1, 20, 20, 6, 2, 4⟩, 4, 1⟩ : GOpts ℚ) (by decide) _ (by decide +kernel) (by decide) (by decide) (by decide) (by decide)

/-- The flags of a bubble: at least the minimum size, not larger than the largest, with some gas. -/
theorem refine_bubble (hd ht : Bool) (o : GOpts K) (r : Reg) (hg : 1 ≤ o.gmin) (hv : o.gmin ≤ r.lo.v) (hm : r.lo.v ≤ o.maxV) (hi : r.lo.i = 0)
    (hn : ¬ (o.maxHe = 0 ∧ o.maxD = 0 ∧ o.maxT = 0)) (hp : ¬ (r.lo.he = 0 ∧ r.lo.d = 0 ∧ r.lo.t = 0)) :
    (refine hd ht o r).2 = if edge o r then edgeFlags hd ht o r else innerFlags hd ht o r := by
  have hzV : ¬ zeroButV r.lo := fun h => hp ⟨h.1, h.2.1, h.2.2.1⟩
  have hs : ¬ single hd ht o r := by
    rintro (h | h | h | h | h | h)
    · exact hzV h.2
    · omega
    · exact hn h
    · have := h.2.2.2.1; omega
    · have := h.2.2.2.2.1; omega
    · have := h.2.2.2.2.1; omega
  have e1 : earlyI o r = none := by rw [earlyI, if_neg (by omega)]
  have e2 : earlyV o r = none := by
    rw [earlyV, if_neg (fun h => hn h.2)]
    by_cases h : r.lo.v > 0 ∧ o.maxPureV > o.maxV
    · rw [if_pos h, if_neg (fun h => hzV h.2), if_neg (fun h => hzV h.2)]
    · rw [if_neg h]
  unfold refine
  rw [e1, e2]
  simp only [hs, if_false]
  split_ifs <;> rfl

/-- **C69, which bubbles are grouped.** For a bubble the helium axis is left exactly when the region has helium, is narrow enough for it and is not at the edge of the capacity; the vacancy axis exactly when the region is not at the edge, narrow enough and within the sizes of the network. -/
theorem bubble_grouped (hd ht : Bool) (o : GOpts K) (r : Reg) (hg : 1 ≤ o.gmin) (hv : o.gmin ≤ r.lo.v) (hvv : r.lo.v < r.hi.v) (hm : r.lo.v ≤ o.maxV) (hi : r.lo.i = 0)
    (hn : ¬ (o.maxHe = 0 ∧ o.maxD = 0 ∧ o.maxT = 0)) (hp : ¬ (r.lo.he = 0 ∧ r.lo.d = 0 ∧ r.lo.t = 0)) :
    ((refine hd ht o r).2.he = false ↔ ¬ (r.lo.he ≤ maxHePerV (r.hi.v - 1) o.ratio ∧ maxHePerV (r.lo.v - 1) o.ratio ≤ r.hi.he - 1) ∧ 0 < r.lo.he ∧
      ((r.hi.he - r.lo.he : ℕ) : K) < max ((o.wA : K) + 1) ((r.lo.he : K) ^ 2 / 2)) ∧
    ((refine hd ht o r).2.v = false ↔ ¬ (r.lo.he ≤ maxHePerV (r.hi.v - 1) o.ratio ∧ maxHePerV (r.lo.v - 1) o.ratio ≤ r.hi.he - 1) ∧
      r.hi.v - r.lo.v ≤ o.wB ∧ r.hi.v ≤ o.maxPureV + 1 ∧ r.hi.v ≤ o.maxV) ∧ (refine hd ht o r).2.i = true := by
  rw [refine_bubble hd ht o r hg hv hm hi hn hp]
  have he : edge o r ↔ r.lo.he ≤ maxHePerV (r.hi.v - 1) o.ratio ∧ maxHePerV (r.lo.v - 1) o.ratio ≤ r.hi.he - 1 := by
    unfold edge
    constructor
    · exact fun h => h.2
    · exact fun h => ⟨⟨by omega, hm⟩, h⟩
  by_cases h : edge o r
  · rw [if_pos h, ← he]
    simp [edgeFlags, h]
  · rw [if_neg h, ← he]
    have sq : (r.lo.he : K) * (r.lo.he : K) * (1 / 2) = (r.lo.he : K) ^ 2 / 2 := by ring
    simp only [innerFlags, narrow, sq, decide_eq_false_iff_not, not_or, not_not, h, not_false_eq_true, true_and, Nat.cast_add, Nat.cast_one]
    refine ⟨?_, ?_, trivial⟩
    · rw [and_comm, Nat.pos_iff_ne_zero]
    · omega

/-- A region of 10 vacancies and 4 to 7 helium, far below the capacity. -/
example : (refine true true (⟨⟨8, 1, 1, 20, 20, 6, 2, 4⟩, 4, 1⟩ : GOpts ℚ) ⟨⟨4, 0, 0, 10, 0⟩, ⟨8, 1, 1, 11, 1⟩⟩).2.he = false := by decide +kernel

/-- **C69, hydrogen in bubbles.** For a bubble the deuterium axis is left exactly when the region has deuterium, is narrow enough for it, and: at the helium edge, does not reach the
edge of the hydrogen capacity (two thirds of that of helium) and holds no more hydrogen than two thirds of its helium; elsewhere, has helium or at most six hydrogen atoms per vacancy. -/
theorem bubble_deuterium (ht : Bool) (o : GOpts K) (r : Reg) (hg : 1 ≤ o.gmin) (hv : o.gmin ≤ r.lo.v) (hvv : r.lo.v < r.hi.v) (hdd : r.lo.d < r.hi.d) (htt : r.lo.t < r.hi.t)
    (hm : r.lo.v ≤ o.maxV) (hi : r.lo.i = 0) (hn : ¬ (o.maxHe = 0 ∧ o.maxD = 0 ∧ o.maxT = 0)) (hp : ¬ (r.lo.he = 0 ∧ r.lo.d = 0 ∧ r.lo.t = 0)) :
    (refine true ht o r).2.d = false ↔ 0 < r.lo.d ∧
      if r.lo.he ≤ maxHePerV (r.hi.v - 1) o.ratio ∧ maxHePerV (r.lo.v - 1) o.ratio ≤ r.hi.he - 1 then
        ((r.hi.d - r.lo.d : ℕ) : K) < max ((o.wA : K) + 1) ((r.lo.d : K) ^ 2 / 10) ∧
        ¬ (0 < o.maxD ∧ 3 * (r.lo.d : K) ≤ 2 * (maxHePerV (r.hi.v - 1) o.ratio : K) ∧ 2 * (maxHePerV (r.lo.v - 1) o.ratio : K) ≤ 3 * ((r.hi.d - 1 : ℕ) : K)) ∧
        ¬ (ht = true ∧ 4 * r.lo.he + 3 < 6 * (r.hi.d - 1 + (r.hi.t - 1)))
      else ((r.hi.d - r.lo.d : ℕ) : K) < max ((o.wA : K) + 1) ((r.lo.d : K) ^ 2 / 2) ∧
        (0 < r.lo.he ∨ r.hi.d - 1 + (if ht = true then r.hi.t - 1 else 0) ≤ 6 * (r.hi.v - 1)) := by
  rw [refine_bubble true ht o r hg hv hm hi hn hp]
  have he : edge o r ↔ r.lo.he ≤ maxHePerV (r.hi.v - 1) o.ratio ∧ maxHePerV (r.lo.v - 1) o.ratio ≤ r.hi.he - 1 := by
    unfold edge
    constructor
    · exact fun h => h.2
    · exact fun h => ⟨⟨by omega, hm⟩, h⟩
  have hx : edgeH o o.maxD r.lo.d r.hi.d r.lo.v r.hi.v ↔
      (0 < o.maxD ∧ 3 * (r.lo.d : K) ≤ 2 * (maxHePerV (r.hi.v - 1) o.ratio : K) ∧ 2 * (maxHePerV (r.lo.v - 1) o.ratio : K) ≤ 3 * ((r.hi.d - 1 : ℕ) : K)) := by
    unfold edgeH maxPerV
    by_cases hz : 0 < o.maxD
    · simp only [gt_iff_lt, hz, if_true, mul_one, true_and, and_true]
      refine and_congr ⟨fun h => by linarith, fun h => by linarith⟩ ⟨fun h => by linarith, fun h => by linarith⟩
    · simp [hz]
  have hy : edgeRatio (K := K) true ht r ↔ ht = true ∧ 4 * r.lo.he + 3 < 6 * (r.hi.d - 1 + (r.hi.t - 1)) := by
    unfold edgeRatio
    rw [show r.hi.d + r.hi.t - 2 = r.hi.d - 1 + (r.hi.t - 1) by omega]
    simp only [true_and]
    refine and_congr_right fun _ => ?_
    rw [← Nat.cast_lt (α := K)]
    push_cast
    constructor <;> intro h <;> linarith
  have hw : noHe true ht r ↔ ¬ (0 < r.lo.he ∨ r.hi.d - 1 + (if ht = true then r.hi.t - 1 else 0) ≤ 6 * (r.hi.v - 1)) := by
    unfold noHe
    cases ht <;> simp <;> omega
  have sq : (r.lo.d : K) * (r.lo.d : K) * (1 / 2) = (r.lo.d : K) ^ 2 / 2 := by ring
  have sq' : (r.lo.d : K) * (r.lo.d : K) * (1 / 10) = (r.lo.d : K) ^ 2 / 10 := by ring
  rw [← hx, ← hy]
  by_cases h : edge o r
  · rw [if_pos h, if_pos (he.mp h)]
    simp only [edgeFlags, narrow, sq', Nat.cast_add, Nat.cast_one, reduceCtorEq, false_or, decide_eq_false_iff_not, not_or, not_not]
    rw [Nat.pos_iff_ne_zero]
    exact ⟨fun ⟨a, b, c, d⟩ => ⟨d, a, b, c⟩, fun ⟨d, a, b, c⟩ => ⟨a, b, c, d⟩⟩
  · rw [if_neg h, if_neg (fun h' => h (he.mpr h'))]
    simp only [innerFlags, narrow, sq, Nat.cast_add, Nat.cast_one, reduceCtorEq, false_or, decide_eq_false_iff_not, not_or, not_not]
    rw [Nat.pos_iff_ne_zero]
    exact ⟨fun ⟨a, b, c⟩ => ⟨c, a, not_not.mp fun h => b (hw.mpr h)⟩, fun ⟨c, a, b⟩ => ⟨a, fun h => hw.mp h b, c⟩⟩

/-- The same for tritium. -/
theorem bubble_tritium (hd : Bool) (o : GOpts K) (r : Reg) (hg : 1 ≤ o.gmin) (hv : o.gmin ≤ r.lo.v) (hvv : r.lo.v < r.hi.v) (hdd : r.lo.d < r.hi.d) (htt : r.lo.t < r.hi.t)
    (hm : r.lo.v ≤ o.maxV) (hi : r.lo.i = 0) (hn : ¬ (o.maxHe = 0 ∧ o.maxD = 0 ∧ o.maxT = 0)) (hp : ¬ (r.lo.he = 0 ∧ r.lo.d = 0 ∧ r.lo.t = 0)) :
    (refine hd true o r).2.t = false ↔ 0 < r.lo.t ∧
      if r.lo.he ≤ maxHePerV (r.hi.v - 1) o.ratio ∧ maxHePerV (r.lo.v - 1) o.ratio ≤ r.hi.he - 1 then
        ((r.hi.t - r.lo.t : ℕ) : K) < max ((o.wA : K) + 1) ((r.lo.t : K) ^ 2 / 10) ∧
        ¬ (0 < o.maxT ∧ 3 * (r.lo.t : K) ≤ 2 * (maxHePerV (r.hi.v - 1) o.ratio : K) ∧ 2 * (maxHePerV (r.lo.v - 1) o.ratio : K) ≤ 3 * ((r.hi.t - 1 : ℕ) : K)) ∧
        ¬ (hd = true ∧ 4 * r.lo.he + 3 < 6 * (r.hi.d - 1 + (r.hi.t - 1)))
      else ((r.hi.t - r.lo.t : ℕ) : K) < max ((o.wA : K) + 1) ((r.lo.t : K) ^ 2 / 2) ∧
        (0 < r.lo.he ∨ (if hd = true then r.hi.d - 1 else 0) + (r.hi.t - 1) ≤ 6 * (r.hi.v - 1)) := by
  rw [refine_bubble hd true o r hg hv hm hi hn hp]
  have he : edge o r ↔ r.lo.he ≤ maxHePerV (r.hi.v - 1) o.ratio ∧ maxHePerV (r.lo.v - 1) o.ratio ≤ r.hi.he - 1 := by
    unfold edge
    constructor
    · exact fun h => h.2
    · exact fun h => ⟨⟨by omega, hm⟩, h⟩
  have hx : edgeH o o.maxT r.lo.t r.hi.t r.lo.v r.hi.v ↔
      (0 < o.maxT ∧ 3 * (r.lo.t : K) ≤ 2 * (maxHePerV (r.hi.v - 1) o.ratio : K) ∧ 2 * (maxHePerV (r.lo.v - 1) o.ratio : K) ≤ 3 * ((r.hi.t - 1 : ℕ) : K)) := by
    unfold edgeH maxPerV
    by_cases hz : 0 < o.maxT
    · simp only [gt_iff_lt, hz, if_true, mul_one, true_and, and_true]
      refine and_congr ⟨fun h => by linarith, fun h => by linarith⟩ ⟨fun h => by linarith, fun h => by linarith⟩
    · simp [hz]
  have hy : edgeRatio (K := K) hd true r ↔ hd = true ∧ 4 * r.lo.he + 3 < 6 * (r.hi.d - 1 + (r.hi.t - 1)) := by
    unfold edgeRatio
    rw [show r.hi.d + r.hi.t - 2 = r.hi.d - 1 + (r.hi.t - 1) by omega]
    simp only [true_and]
    refine and_congr_right fun _ => ?_
    rw [← Nat.cast_lt (α := K)]
    push_cast
    constructor <;> intro h <;> linarith
  have hw : noHe hd true r ↔ ¬ (0 < r.lo.he ∨ (if hd = true then r.hi.d - 1 else 0) + (r.hi.t - 1) ≤ 6 * (r.hi.v - 1)) := by
    unfold noHe
    cases hd <;> simp <;> omega
  have sq : (r.lo.t : K) * (r.lo.t : K) * (1 / 2) = (r.lo.t : K) ^ 2 / 2 := by ring
  have sq' : (r.lo.t : K) * (r.lo.t : K) * (1 / 10) = (r.lo.t : K) ^ 2 / 10 := by ring
  rw [← hx, ← hy]
  by_cases h : edge o r
  · rw [if_pos h, if_pos (he.mp h)]
    simp only [edgeFlags, narrow, sq', Nat.cast_add, Nat.cast_one, reduceCtorEq, false_or, decide_eq_false_iff_not, not_or, not_not]
    rw [Nat.pos_iff_ne_zero]
    exact ⟨fun ⟨a, b, c, d⟩ => ⟨d, a, b, c⟩, fun ⟨d, a, b, c⟩ => ⟨a, b, c, d⟩⟩
  · rw [if_neg h, if_neg (fun h' => h (he.mpr h'))]
    simp only [innerFlags, narrow, sq, Nat.cast_add, Nat.cast_one, reduceCtorEq, false_or, decide_eq_false_iff_not, not_or, not_not]
    rw [Nat.pos_iff_ne_zero]
    exact ⟨fun ⟨a, b, c⟩ => ⟨c, a, not_not.mp fun h => b (hw.mpr h)⟩, fun ⟨c, a, b⟩ => ⟨a, fun h => hw.mp h b, c⟩⟩

/-- **C69, the hydrogen edge.** At the helium edge, a region of bubbles that is subdivided no more does not straddle the edge of the hydrogen capacity, two thirds of that of helium. -/
theorem hydrogen_uniform (ht : Bool) (o : GOpts K) (r : Reg) (hg : 1 ≤ o.gmin) (hv : o.gmin ≤ r.lo.v) (hm : r.lo.v ≤ o.maxV) (hi : r.lo.i = 0) (hD : 0 < o.maxD)
    (hp : ¬ (r.lo.he = 0 ∧ r.lo.d = 0 ∧ r.lo.t = 0)) (hF : Final true ht o r) (hE : r.lo.he ≤ maxHePerV (r.hi.v - 1) o.ratio ∧ maxHePerV (r.lo.v - 1) o.ratio ≤ r.hi.he - 1) (c c' : Comp)
    (hc : Mem c r) (hc' : Mem c' r) : 3 * (c.d : K) ≤ 2 * (maxHePerV c.v o.ratio : K) ↔ 3 * (c'.d : K) ≤ 2 * (maxHePerV c'.v o.ratio : K) := by
  obtain ⟨-, a2, a3, a4, -⟩ := hc
  obtain ⟨-, b2, b3, b4, -⟩ := hc'
  have hn : ¬ (o.maxHe = 0 ∧ o.maxD = 0 ∧ o.maxT = 0) := by omega
  have hvv : r.lo.v < r.hi.v := by omega
  obtain ⟨-, gv, -⟩ := bubble_grouped true ht o r hg hv hvv hm hi hn hp
  have hv1 : r.hi.v = r.lo.v + 1 := by
    refine hF.2.2.2.1 ?_
    by_contra h
    exact (gv.mp (by simpa using h)).1 hE
  have ec : c.v = r.lo.v := by omega
  have ec' : c'.v = r.lo.v := by omega
  rw [ec, ec']
  by_cases hf : (refine true ht o r).2.d = true
  · have := hF.2.1 hf
    rw [show c.d = c'.d by omega]
  · have h := (bubble_deuterium ht o r hg hv hvv (by omega) (by omega) hm hi hn hp).mp (by simpa using hf)
    rw [if_pos hE] at h
    have h := h.2.2.1
    rw [hv1, Nat.add_sub_cancel] at h
    have mono : (maxHePerV (r.lo.v - 1) o.ratio : K) ≤ (maxHePerV r.lo.v o.ratio : K) := Nat.cast_le.mpr (maxHePerV_mono o.ratio (Nat.sub_le _ _))
    have l1 : (r.lo.d : K) ≤ c.d := Nat.cast_le.mpr a2.1
    have l2 : (r.lo.d : K) ≤ c'.d := Nat.cast_le.mpr b2.1
    have u1 : (c.d : K) ≤ ((r.hi.d - 1 : ℕ) : K) := Nat.cast_le.mpr (by omega)
    have u2 : (c'.d : K) ≤ ((r.hi.d - 1 : ℕ) : K) := Nat.cast_le.mpr (by omega)
    by_cases hl : 3 * (r.lo.d : K) ≤ 2 * (maxHePerV r.lo.v o.ratio : K)
    · have hh : ¬ 2 * (maxHePerV (r.lo.v - 1) o.ratio : K) ≤ 3 * ((r.hi.d - 1 : ℕ) : K) := fun hh => h ⟨hD, hl, hh⟩
      exact iff_of_true (by linarith) (by linarith)
    · exact iff_of_false (by linarith) (by linarith)

/-- Deuterium axes that are left: at the helium edge (10 vacancies with 50 helium and 4 to 7 deuterium), and elsewhere. -/
example : (refine true true (⟨⟨8, 1, 1, 20, 20, 6, 2, 4⟩, 4, 1⟩ : GOpts ℚ) ⟨⟨50, 4, 0, 10, 0⟩, ⟨51, 8, 1, 11, 1⟩⟩).2.d = false ∧
    (refine true true (⟨⟨8, 1, 1, 20, 20, 6, 2, 4⟩, 4, 1⟩ : GOpts ℚ) ⟨⟨4, 4, 0, 10, 0⟩, ⟨8, 8, 1, 11, 1⟩⟩).2.d = false := by decide +kernel

/-- **C69, which interstitials are grouped.** The interstitial axis is left exactly when the region begins with interstitials, not below the minimum alone, ends below the maximum, and is narrow. -/
theorem interstitial_grouped (hd ht : Bool) (o : GOpts K) (r : Reg) :
    (refine hd ht o r).2.i = false ↔ 0 < r.lo.i ∧ (r.lo.i < o.gmin → ¬ (r.lo.he = 0 ∧ r.lo.d = 0 ∧ r.lo.t = 0 ∧ r.lo.v = 0)) ∧ r.hi.i ≤ o.maxI ∧
      ((r.hi.i - r.lo.i : ℕ) : K) < max ((o.wB : K) + 1) ((r.lo.i : K) / 100) := by
  constructor
  · intro hf
    rcases refine_cases hd ht o r with h | ⟨-, h1, h2, h3, h4⟩ | ⟨h, -⟩ | ⟨h, -⟩ | ⟨h, -⟩
    · rw [h] at hf; simp [allAxes] at hf
    · refine ⟨h1, fun hlt => ?_, h3, ?_⟩
      · rcases h2 with h2 | h2
        · omega
        · exact h2
      · have : (r.lo.i : K) * (1 / 100) = (r.lo.i : K) / 100 := by ring
        rw [narrow, this, Nat.cast_add, Nat.cast_one] at h4
        exact h4
    · rw [h] at hf; simp [allAxes] at hf
    · rw [h] at hf; simp [edgeFlags] at hf
    · rw [h] at hf; simp [innerFlags] at hf
  · rintro ⟨h1, h2, h3, h4⟩
    have e : earlyI o r = some { allAxes with i := false } := by
      have : (r.lo.i : K) * (1 / 100) = (r.lo.i : K) / 100 := by ring
      rw [earlyI, if_pos h1, if_neg (fun h => h2 h.1 h.2), if_neg (by omega), if_pos (by rw [narrow, this, Nat.cast_add, Nat.cast_one]; exact h4)]
    simp [refine, e]

/-- **C69, which vacancy clusters are grouped, without gas.** -/
theorem vacancy_grouped (hd ht : Bool) (o : GOpts K) (r : Reg) (hg : 1 ≤ o.gmin) (hi : r.lo.i = 0) (hn : o.maxHe = 0 ∧ o.maxD = 0 ∧ o.maxT = 0) :
    (refine hd ht o r).2.v = false ↔ 0 < r.lo.v ∧ (r.lo.v < o.gmin → ¬ (r.lo.he = 0 ∧ r.lo.d = 0 ∧ r.lo.t = 0)) ∧ r.hi.v ≤ o.maxPureV ∧
      ((r.hi.v - r.lo.v : ℕ) : K) < max ((o.wB : K) + 1) ((r.lo.v : K) / 100) := by
  have hs : single hd ht o r := .inr (.inr (.inl hn))
  have pc : (r.lo.v : K) * (1 / 100) = (r.lo.v : K) / 100 := by ring
  constructor
  · intro hf
    rcases refine_cases hd ht o r with h | ⟨h, -⟩ | ⟨-, h1, h2, h3⟩ | ⟨-, -, h⟩ | ⟨-, -, h⟩
    · rw [h] at hf; simp [allAxes] at hf
    · rw [h] at hf; simp [allAxes] at hf
    · rcases h3 with ⟨-, h3, h4⟩ | ⟨h3, -⟩
      · refine ⟨h1, fun hlt => ?_, h4, by rw [narrow, pc, Nat.cast_add, Nat.cast_one] at h2; exact h2⟩
        rcases h3 with h3 | h3
        · omega
        · exact fun h => h3 ⟨h.1, h.2.1, h.2.2, hi⟩
      · exact absurd hn h3
    · exact absurd hs h
    · exact absurd hs h
  · rintro ⟨h1, h2, h3, h4⟩
    have e0 : earlyI o r = none := by rw [earlyI, if_neg (by omega)]
    have e : earlyV o r = some { allAxes with v := false } := by
      rw [earlyV, if_pos ⟨h1, hn⟩, if_neg (fun h => h2 h.1 ⟨h.2.1, h.2.2.1, h.2.2.2.1⟩), if_neg (by omega), if_pos (by rw [narrow, pc, Nat.cast_add, Nat.cast_one]; exact h4)]
    simp [refine, e0, e]

/-- A group of vacancy clusters and a group of interstitial clusters. -/
example : (refine true true (⟨⟨0, 0, 0, 0, 100, 6, 4, 4⟩, 4, 4⟩ : GOpts ℚ) ⟨⟨0, 0, 0, 12, 0⟩, ⟨1, 1, 1, 16, 1⟩⟩).2.v = false ∧
    (refine true true (⟨⟨0, 0, 0, 0, 100, 60, 4, 4⟩, 4, 4⟩ : GOpts ℚ) ⟨⟨0, 0, 0, 0, 12⟩, ⟨1, 1, 1, 1, 16⟩⟩).2.i = false := by decide +kernel

/-- **C69, below the minimum (negation).** Otherwise vacancy clusters below the minimum are grouped. -/
theorem below_min_grouped : ∃ (o : GOpts ℚ) (r : Reg), Final true true o r ∧ Select true true o.toOpts r ∧ r.hi.v ≤ o.gmin ∧ ¬ simplex r := by
  refine ⟨⟨⟨8, 1, 1, 10, 100, 6, 20, 4⟩, 4, 4⟩, ⟨⟨0, 0, 0, 12, 0⟩, ⟨1, 1, 1, 16, 1⟩⟩, by decide +kernel, ?_, by decide, by decide⟩
  unfold Select
  rw [rejectV_iff]
  refine ⟨?_, fun h => absurd h (by decide), fun _ => ?_⟩
  · simp only [rejectAny, zeroPoint, onI, onV]; decide
  · simp [onV]

/-- **C69, maximum sizes.** In a selected region that is subdivided no more interstitials do not exceed their maximum, vacancies with anything else the maximum of bubbles, and vacancies the maximum of pure clusters, except in the groups of pure vacancy clusters of a network with gas. -/
theorem sizes_partial (hd ht : Bool) (o : GOpts K) (hg : 1 ≤ o.gmin) (r : Reg) (hF : Final hd ht o r) (hS : Select true true o.toOpts r) (c : Comp) (hc : Mem c r) :
    c.i ≤ o.maxI ∧ (0 < c.he + c.d + c.t → c.v ≤ o.maxV) ∧ (noGas o ∨ o.maxPureV ≤ o.maxV ∨ 0 < c.he + c.d + c.t → c.v ≤ o.maxPureV) := by
  have hsame := same_species hd ht o r hF
  obtain ⟨f1, f2, f3, f4, f5⟩ := hF
  obtain ⟨s1, -, -⟩ := hS
  simp only [rejectAny, not_or, not_and, not_lt] at s1
  obtain ⟨-, -, s3, -, -, -, s7, s8, s9⟩ := s1
  have hlo : Mem r.lo r := by
    obtain ⟨a1, a2, a3, a4, a5⟩ := hc
    exact ⟨⟨le_rfl, by omega⟩, ⟨le_rfl, by omega⟩, ⟨le_rfl, by omega⟩, ⟨le_rfl, by omega⟩, ⟨le_rfl, by omega⟩⟩
  obtain ⟨e1, e2, e3, e4, e5⟩ := hsame c r.lo hc hlo
  obtain ⟨a1, a2, a3, a4, a5⟩ := hc
  have mixed : 0 < c.he + c.d + c.t → ¬ onV r.lo := fun h hon => by
    obtain ⟨-, o1, o2, o3, -⟩ := hon
    omega
  have one : r.hi.v = r.lo.v + 1 → c.v ≤ o.maxPureV ∧ (0 < c.he + c.d + c.t → c.v ≤ o.maxV) := by
    intro h
    refine ⟨by omega, fun hx => ?_⟩
    by_contra hlt
    exact s9 (by omega) (mixed hx)
  have hI : (refine hd ht o r).2.i = true → c.i ≤ o.maxI := fun h => by have := f5 h; omega
  rcases refine_cases hd ht o r with h | ⟨h, h1, -, h3, -⟩ | ⟨h, h1, -, hh⟩ | ⟨h, -⟩ | ⟨h, h1, h2⟩ <;> rw [h] at f4 hI
  · obtain ⟨o1, o2⟩ := one (f4 rfl)
    exact ⟨hI rfl, o2, fun _ => o1⟩
  · obtain ⟨o1, o2⟩ := one (f4 rfl)
    exact ⟨by omega, o2, fun _ => o1⟩
  · refine ⟨hI rfl, ?_⟩
    rcases hh with ⟨hn, -, h4⟩ | ⟨hn, h3, h4, hz⟩
    · have hon : onV r.lo := by
        by_contra hno
        exact s7 h1 hno hn.1 hn.2.1 hn.2.2
      exact ⟨fun h => absurd hon (mixed h), fun _ => by omega⟩
    · obtain ⟨z1, z2, z3, -⟩ := hz
      exact ⟨fun h => by omega, fun h => by
        rcases h with h | h | h
        · exact absurd h hn
        · omega
        · omega⟩
  · obtain ⟨o1, o2⟩ := one (f4 rfl)
    exact ⟨hI rfl, o2, fun _ => o1⟩
  · refine ⟨hI rfl, ?_⟩
    by_cases hf : (innerFlags hd ht o r).v = true
    · obtain ⟨o1, o2⟩ := one (f4 hf)
      exact ⟨o2, fun _ => o1⟩
    · simp only [innerFlags, decide_eq_true_eq, not_or, not_lt] at hf
      exact ⟨fun _ => by omega, fun _ => by omega⟩

/-- **C69, maximum sizes (negation).** With gas in the network and pure vacancy clusters larger than bubbles, a group of them reaches beyond the maximum: the flag set for this (line 111) is overwritten.  Here the maximum is 100 and the group of the sizes 100 to 103, one of the aligned groups of four. -/
theorem pure_beyond : ∃ (o : GOpts ℚ) (r : Reg), o.wB = 4 ∧ r.lo.v % 4 = 0 ∧ r.hi.v = r.lo.v + 4 ∧ Final true true o r ∧ Select true true o.toOpts r ∧
    Mem ⟨0, 0, 0, o.maxPureV + 3, 0⟩ r := by
  refine ⟨⟨⟨8, 1, 1, 10, 100, 6, 5, 4⟩, 4, 4⟩, ⟨⟨0, 0, 0, 100, 0⟩, ⟨1, 1, 1, 104, 1⟩⟩, rfl, by decide, rfl, by decide +kernel, ?_, by unfold Mem; decide⟩
  unfold Select
  rw [rejectV_iff]
  refine ⟨?_, fun h => absurd h (by decide), fun _ => ?_⟩
  · simp only [rejectAny, zeroPoint, onI, onV]; decide
  · simp [onV]

/-- Without gas the same region is subdivided. -/
example : (refine true true (⟨⟨0, 0, 0, 10, 100, 6, 5, 4⟩, 4, 4⟩ : GOpts ℚ) ⟨⟨0, 0, 0, 100, 0⟩, ⟨1, 1, 1, 104, 1⟩⟩).2 = allAxes := by decide +kernel

/-- **C69, widths.** An axis of a region that is subdivided no more holds one amount, or is narrower than the width of the options plus one, or than a fraction of where it begins: half of the square for gas, a hundredth for vacancies and interstitials. -/
theorem widths (hd ht : Bool) (o : GOpts K) (r : Reg) (hF : Final hd ht o r) :
    (r.hi.he = r.lo.he + 1 ∨ narrow r.lo.he r.hi.he o.wA ((r.lo.he : K) ^ 2 / 2)) ∧
    (r.hi.d = r.lo.d + 1 ∨ narrow r.lo.d r.hi.d o.wA ((r.lo.d : K) ^ 2 / 2)) ∧
    (r.hi.t = r.lo.t + 1 ∨ narrow r.lo.t r.hi.t o.wA ((r.lo.t : K) ^ 2 / 2)) ∧
    (r.hi.v = r.lo.v + 1 ∨ narrow r.lo.v r.hi.v o.wB ((r.lo.v : K) / 100)) ∧
    (r.hi.i = r.lo.i + 1 ∨ narrow r.lo.i r.hi.i o.wB ((r.lo.i : K) / 100)) := by
  obtain ⟨f1, f2, f3, f4, f5⟩ := hF
  have sq : ∀ n : ℕ, (n : K) * (n : K) * (1 / 2) = (n : K) ^ 2 / 2 := fun n => by ring
  have pc : ∀ n : ℕ, (n : K) * (1 / 100) = (n : K) / 100 := fun n => by ring
  have tenth : ∀ lo hi w n : ℕ, narrow lo hi w ((n : K) * (n : K) * (1 / 10)) → narrow lo hi w ((n : K) ^ 2 / 2) := fun lo hi w n h => by
    refine lt_of_lt_of_le h (max_le_max le_rfl ?_)
    have : (0 : K) ≤ (n : K) ^ 2 := sq_nonneg _
    nlinarith
  have wide : ∀ lo hi w n : ℕ, hi - lo < w + 1 → narrow lo hi w ((n : K) / 100) := fun lo hi w n h =>
    lt_of_lt_of_le (Nat.cast_lt.mpr h) (le_max_left _ _)
  rcases refine_cases hd ht o r with h | ⟨h, -, -, -, h4⟩ | ⟨h, -, h4, -⟩ | ⟨h, -⟩ | ⟨h, -⟩ <;> rw [h] at f1 f2 f3 f4 f5
  · exact ⟨.inl (f1 rfl), .inl (f2 rfl), .inl (f3 rfl), .inl (f4 rfl), .inl (f5 rfl)⟩
  · exact ⟨.inl (f1 rfl), .inl (f2 rfl), .inl (f3 rfl), .inl (f4 rfl), .inr (pc r.lo.i ▸ h4)⟩
  · exact ⟨.inl (f1 rfl), .inl (f2 rfl), .inl (f3 rfl), .inr (pc r.lo.v ▸ h4), .inl (f5 rfl)⟩
  · refine ⟨.inl (f1 rfl), ?_, ?_, .inl (f4 rfl), .inl (f5 rfl)⟩
    · by_cases hn : narrow r.lo.d r.hi.d o.wA ((r.lo.d : K) * (r.lo.d : K) * (1 / 10))
      · exact .inr (tenth _ _ _ _ hn)
      · exact .inl (f2 (decide_eq_true (.inr (.inl hn))))
    · by_cases hn : narrow r.lo.t r.hi.t o.wA ((r.lo.t : K) * (r.lo.t : K) * (1 / 10))
      · exact .inr (tenth _ _ _ _ hn)
      · exact .inl (f3 (decide_eq_true (.inr (.inl hn))))
  · refine ⟨?_, ?_, ?_, ?_, .inl (f5 rfl)⟩
    · by_cases hn : narrow r.lo.he r.hi.he o.wA ((r.lo.he : K) * (r.lo.he : K) * (1 / 2))
      · exact .inr (sq r.lo.he ▸ hn)
      · exact .inl (f1 (decide_eq_true (.inl hn)))
    · by_cases hn : narrow r.lo.d r.hi.d o.wA ((r.lo.d : K) * (r.lo.d : K) * (1 / 2))
      · exact .inr (sq r.lo.d ▸ hn)
      · exact .inl (f2 (decide_eq_true (.inr (.inl hn))))
    · by_cases hn : narrow r.lo.t r.hi.t o.wA ((r.lo.t : K) * (r.lo.t : K) * (1 / 2))
      · exact .inr (sq r.lo.t ▸ hn)
      · exact .inl (f3 (decide_eq_true (.inr (.inl hn))))
    · by_cases hn : r.hi.v - r.lo.v < o.wB + 1
      · exact .inr (wide _ _ _ _ hn)
      · exact .inl (f4 (decide_eq_true (.inl hn)))

/-- **C69, the helium edge.** In a network with gas a region with bubble sizes that is subdivided no more does not straddle the edge: its compositions are all within the capacity of their vacancies, or all beyond. -/
theorem edge_uniform (hd ht : Bool) (o : GOpts K) (r : Reg) (hF : Final hd ht o r) (hn : ¬ noGas o) (h0 : 0 < r.lo.v) (hmax : r.lo.v ≤ o.maxV) (c c' : Comp)
    (hc : Mem c r) (hc' : Mem c' r) : c.he ≤ maxHePerV c.v o.ratio ↔ c'.he ≤ maxHePerV c'.v o.ratio := by
  obtain ⟨f1, -, -, f4, -⟩ := hF
  obtain ⟨a1, -, -, a4, -⟩ := hc
  obtain ⟨b1, -, -, b4, -⟩ := hc'
  have hm := maxHePerV_mono o.ratio
  have const : r.hi.he = r.lo.he + 1 → r.hi.v = r.lo.v + 1 → (c.he ≤ maxHePerV c.v o.ratio ↔ c'.he ≤ maxHePerV c'.v o.ratio) := by
    intro h1 h2
    rw [show c.he = c'.he by omega, show c.v = c'.v by omega]
  rcases refine_cases hd ht o r with h | ⟨h, h1, -⟩ | ⟨h, h1, -, hh⟩ | ⟨h, -⟩ | ⟨h, h1, h2⟩ <;> rw [h] at f1 f4
  · exact const (f1 rfl) (f4 rfl)
  · exact const (f1 rfl) (f4 rfl)
  · rcases hh with ⟨hg, -⟩ | ⟨-, hlt, -⟩
    · exact absurd hg hn
    · omega
  · exact const (f1 rfl) (f4 rfl)
  · by_cases hle : r.lo.he ≤ maxHePerV (r.hi.v - 1) o.ratio
    · have hlt : r.hi.he - 1 < maxHePerV (r.lo.v - 1) o.ratio := by
        by_contra hlt
        exact h1 ⟨⟨by omega, hmax⟩, hle, by omega⟩
      have h3 := hm (show r.lo.v - 1 ≤ c.v by omega)
      have h4 := hm (show r.lo.v - 1 ≤ c'.v by omega)
      simp only at h3 h4
      exact iff_of_true (by omega) (by omega)
    · have h3 := hm (show c.v ≤ r.hi.v - 1 by omega)
      have h4 := hm (show c'.v ≤ r.hi.v - 1 by omega)
      simp only at h3 h4
      exact iff_of_false (by omega) (by omega)

/-- A group of helium and vacancies away from the edge. -/
def exOpts : GOpts ℚ := ⟨⟨8, 1, 1, 40, 40, 6, 4, 4⟩, 4, 4⟩

example : Final true true exOpts ⟨⟨16, 0, 0, 12, 0⟩, ⟨20, 1, 1, 16, 1⟩⟩ ∧ Mem ⟨19, 0, 0, 15, 0⟩ ⟨⟨16, 0, 0, 12, 0⟩, ⟨20, 1, 1, 16, 1⟩⟩ ∧
    Allowed exOpts.toOpts ⟨19, 0, 0, 15, 0⟩ ∧ exOpts.ratio ≤ 9 := by
  have e : maxHePerV 15 (4 : ℚ) = 75 := maxHePerV_small (by decide) _
  refine ⟨by decide +kernel, by unfold Mem; decide, .bubble 19 0 0 15 (by decide) (by decide) (by decide) (by decide) (by decide) ?_ ?_ ?_ (by decide) (by decide),
    by norm_num [exOpts]⟩ <;> simp [exOpts, e]

/-- At the edge, the same widths are subdivided. -/
example : (refine true true exOpts ⟨⟨64, 0, 0, 12, 0⟩, ⟨68, 1, 1, 16, 1⟩⟩).2 = allAxes := by decide +kernel

end Xolotl.Network.Psi

namespace Xolotl.Network.Select

variable {K : Type*} [Field K] [LinearOrder K] [IsStrictOrderedRing K]

/-- **C69, iron.** An axis that is not refined begins above zero, ends at the maximum or below, and is narrow; below the minimum size for grouping on both axes, and for interstitials, every axis is refined. -/
theorem fe_grouped (o : O3) (bound : K) (r : R3) :
    ((feRefine o bound r).2.1 = false → 0 < r.lo.g ∧ r.hi.g ≤ o.maxG + 1 ∧ Psi.narrow r.lo.g r.hi.g o.wG bound) ∧
    ((feRefine o bound r).2.2.1 = false → 0 < r.lo.v ∧ r.hi.v ≤ o.maxV + 1 ∧ Psi.narrow r.lo.v r.hi.v o.wV bound) ∧
    (feRefine o bound r).2.2.2 = true ∧
    (0 < r.lo.i ∨ (r.lo.g < o.gmin ∧ r.lo.v < o.gmin) → feRefine o bound r = (true, true, true, true)) ∧
    ((feRefine o bound r).1 = ((feRefine o bound r).2.1 || (feRefine o bound r).2.2.1)) := by
  unfold feRefine
  split_ifs with h1 h2 h3 h4 h5
  · simp
  · simp
  · simp
  · simp
  · simp
  · dsimp only
    simp only [decide_eq_false_iff_not, not_or, not_not, not_lt]
    refine ⟨fun h => ⟨by omega, h.2.2, h.1⟩, fun h => ⟨by omega, h.2.2, h.1⟩, trivial, fun h => ?_, trivial⟩
    rcases h with h | h
    · exact absurd h h1
    · exact absurd h h4

/-- **C69, iron, which axes are left.** The helium axis exactly when the region has helium and no interstitials, is not helium alone below nine, not below the minimum on both axes,
not beyond the maximum, and narrow; likewise the vacancy axis, with vacancies alone below eleven. -/
theorem fe_grouped_iff (o : O3) (bound : K) (r : R3) (hg : r.lo.g < r.hi.g) (hv : r.lo.v < r.hi.v) :
    ((feRefine o bound r).2.1 = false ↔ r.lo.i = 0 ∧ 0 < r.lo.g ∧ (r.lo.v = 0 → 9 ≤ r.lo.g) ∧ (o.gmin ≤ r.lo.g ∨ o.gmin ≤ r.lo.v) ∧ r.hi.g ≤ o.maxG + 1 ∧
      ((r.hi.g - r.lo.g : ℕ) : K) < max ((o.wG : K) + 1) bound) ∧
    ((feRefine o bound r).2.2.1 = false ↔ r.lo.i = 0 ∧ 0 < r.lo.v ∧ (r.lo.g = 0 → 11 ≤ r.lo.v) ∧ (o.gmin ≤ r.lo.g ∨ o.gmin ≤ r.lo.v) ∧ r.hi.v ≤ o.maxV + 1 ∧
      ((r.hi.v - r.lo.v : ℕ) : K) < max ((o.wV : K) + 1) bound) := by
  unfold feRefine
  split_ifs with h1 h2 h3 h4 h5
  · simp only [Bool.true_eq_false, false_iff]
    constructor <;> (rintro ⟨h, -⟩; omega)
  · simp only [Bool.true_eq_false, false_iff]
    constructor <;> (rintro ⟨-, h, h', -⟩; omega)
  · simp only [Bool.true_eq_false, false_iff]
    constructor <;> (rintro ⟨-, h, h', -⟩; omega)
  · simp only [Bool.true_eq_false, false_iff]
    constructor <;> (rintro ⟨-, -, -, h, -⟩; omega)
  · simp only [Bool.true_eq_false, false_iff]
    constructor <;> (rintro ⟨-, -, -, -, h, -⟩; omega)
  · dsimp only
    simp only [decide_eq_false_iff_not, not_or, not_not, not_le, not_lt, Psi.narrow, Nat.cast_add, Nat.cast_one]
    constructor
    · constructor
      · rintro ⟨a, b, c⟩; exact ⟨by omega, by omega, by omega, by omega, c, a⟩
      · rintro ⟨-, b, -, -, c, a⟩; exact ⟨a, by omega, c⟩
    · constructor
      · rintro ⟨a, b, c⟩; exact ⟨by omega, by omega, by omega, by omega, c, a⟩
      · rintro ⟨-, b, -, -, c, a⟩; exact ⟨a, by omega, c⟩

/-- **C69, iron, sizes.** A selected region that is subdivided no more, along both axes, holds at most the maximum amounts, and all its compositions have the same species. -/
theorem fe_sizes (o : O3) (bound : K) (r : R3) (hg : (feRefine o bound r).2.1 = true → r.hi.g = r.lo.g + 1) (hv : (feRefine o bound r).2.2.1 = true → r.hi.v = r.lo.v + 1)
    (hS : feSelect o r = true) (g v : ℕ) (h1 : r.lo.g ≤ g ∧ g < r.hi.g) (h2 : r.lo.v ≤ v ∧ v < r.hi.v) :
    g ≤ o.maxG ∧ v ≤ o.maxV ∧ (g = 0 ↔ r.lo.g = 0) ∧ (v = 0 ↔ r.lo.v = 0) := by
  obtain ⟨k1, k2, -⟩ := fe_grouped o bound r
  have s1 : r.lo.g ≤ o.maxG := by
    by_contra h; unfold feSelect at hS; split_ifs at hS; omega
  have s2 : r.lo.v ≤ o.maxV := by
    by_contra h; unfold feSelect at hS; split_ifs at hS; omega
  rcases e1 : (feRefine o bound r).2.1 with _ | _ <;> rcases e2 : (feRefine o bound r).2.2.1 with _ | _
  · have := k1 e1; have := k2 e2; omega
  · have := k1 e1; have := hv e2; omega
  · have := hg e1; have := k2 e2; omega
  · have := hg e1; have := hv e2; omega

/-- A group of four by four. -/
example : feRefine ⟨100, 100, 5, 4, 4⟩ (1 : ℚ) ⟨⟨8, 12, 0⟩, ⟨12, 16, 1⟩⟩ = (false, false, false, true) ∧ feSelect ⟨100, 100, 5, 4, 4⟩ ⟨⟨8, 12, 0⟩, ⟨12, 16, 1⟩⟩ = true := by
  decide +kernel

end Xolotl.Network.Select
