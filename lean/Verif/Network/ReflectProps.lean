import Verif.Network.Reflect
import Verif.Network.Layout
import Mathlib.Algebra.Order.Ring.Int
import Mathlib.Tactic.Linarith
import Mathlib.Tactic.LinearCombination
import Mathlib.Data.Int.DivMod

/-!
# C46: reflected regions
-/

set_option linter.unusedSectionVars false

namespace Xolotl.Network.Reflect

open Xolotl.Network

/-- Selections of one size from each axis of a list. -/
def Sel (axes : List Ival) (ns : List ℤ) : Prop := List.Forall₂ (fun I n => n ∈ I.pts) axes ns

/-- Smallest and largest plus one net content of a box, on the side of the first list. -/
def span (p m : List Ival) : Ival :=
  ⟨(p.map (·.b)).sum - (m.map fun x => x.e - 1).sum, (p.map fun x => x.e - 1).sum - (m.map (·.b)).sum + 1⟩

theorem sel_sum (axes : List Ival) (h : ∀ I ∈ axes, I.b < I.e) (x : ℤ) :
    (∃ ns, Sel axes ns ∧ ns.sum = x) ↔
      (axes.map (·.b)).sum ≤ x ∧ x ≤ (axes.map fun y => y.e - 1).sum := by
  induction axes generalizing x with
  | nil =>
    constructor
    · rintro ⟨ns, hs, rfl⟩
      cases hs
      simp
    · intro hx
      refine ⟨[], List.Forall₂.nil, ?_⟩
      simp at hx ⊢
      omega
  | cons I axes ih =>
    have hI := h I (by simp)
    have ih' := ih fun J hJ => h J (by simp [hJ])
    have hle : (axes.map (·.b)).sum ≤ (axes.map fun y => y.e - 1).sum := by
      refine List.sum_le_sum fun J hJ => ?_
      have := h J (by simp [hJ])
      omega
    simp only [List.map_cons, List.sum_cons]
    constructor
    · rintro ⟨ns, hs, rfl⟩
      obtain _ | ⟨hn, hs'⟩ := hs
      rename_i n ns
      have h1 := (ih' ns.sum).mp ⟨ns, hs', rfl⟩
      rw [mem_pts] at hn
      simp only [List.sum_cons]
      omega
    · intro hx
      -- choose the head
      obtain ⟨n, hn1, hn2, hn3, hn4⟩ : ∃ n, I.b ≤ n ∧ n < I.e ∧ (axes.map (·.b)).sum ≤ x - n ∧
          x - n ≤ (axes.map fun y => y.e - 1).sum := by
        refine ⟨max I.b (x - (axes.map fun y => y.e - 1).sum), ?_, ?_, ?_, ?_⟩ <;> omega
      obtain ⟨ns, hs, hsum⟩ := (ih' (x - n)).mpr ⟨hn3, hn4⟩
      exact ⟨n :: ns, List.Forall₂.cons (by rw [mem_pts]; exact ⟨hn1, hn2⟩) hs, by simp [hsum]⟩

/-- **C46** The span of a box contains exactly the net contents of its compositions. -/
theorem span_exact (p m : List Ival) (hp : ∀ I ∈ p, I.b < I.e) (hm : ∀ I ∈ m, I.b < I.e) (x : ℤ) :
    x ∈ (span p m).pts ↔ ∃ ns ms, Sel p ns ∧ Sel m ms ∧ ns.sum - ms.sum = x := by
  rw [mem_pts]
  constructor
  · intro hx
    simp only [span] at hx
    have hlep : (p.map (·.b)).sum ≤ (p.map fun y => y.e - 1).sum :=
      List.sum_le_sum fun J hJ => by have := hp J hJ; omega
    have hlem : (m.map (·.b)).sum ≤ (m.map fun y => y.e - 1).sum :=
      List.sum_le_sum fun J hJ => by have := hm J hJ; omega
    obtain ⟨a, ha1, ha2, ha3, ha4⟩ : ∃ a, (p.map (·.b)).sum ≤ a ∧ a ≤ (p.map fun y => y.e - 1).sum ∧
        (m.map (·.b)).sum ≤ a - x ∧ a - x ≤ (m.map fun y => y.e - 1).sum := by
      refine ⟨max (p.map (·.b)).sum (x + (m.map (·.b)).sum), ?_, ?_, ?_, ?_⟩ <;> omega
    obtain ⟨ns, h1, h2⟩ := (sel_sum p hp a).mpr ⟨ha1, ha2⟩
    obtain ⟨ms, h3, h4⟩ := (sel_sum m hm (a - x)).mpr ⟨ha3, ha4⟩
    exact ⟨ns, ms, h1, h3, by rw [h2, h4]; omega⟩
  · rintro ⟨ns, ms, h1, h2, rfl⟩
    have a := (sel_sum p hp ns.sum).mp ⟨ns, h1, rfl⟩
    have b := (sel_sum m hm ms.sum).mp ⟨ms, h2, rfl⟩
    simp only [span]
    omega

/-- **C46** The formulas of the code, for each family of networks and both projections, are the span. -/
theorem reflected_eq_span (v w u i j k : Ival) :
    one_V v i = span [v] [i] ∧ one_I v i = span [i] [v] ∧
    zr_V v w i = span [v, w] [i] ∧ zr_I v w i = span [i] [v, w] ∧
    alloy_V v w u i j k = span [v, w, u] [i, j, k] ∧ alloy_I v w u i j k = span [i, j, k] [v, w, u] := by
  simp only [one_V, one_I, zr_V, zr_I, alloy_V, alloy_I, span, Ival.mk.injEq, List.map_cons,
    List.map_nil, List.sum_cons, List.sum_nil]
  refine ⟨⟨?_, ?_⟩, ⟨?_, ?_⟩, ⟨?_, ?_⟩, ⟨?_, ?_⟩, ⟨?_, ?_⟩, ⟨?_, ?_⟩⟩ <;> ring

/-- **C46** Directly for the one vacancy species case: the reflected interval is the set of `V - I` values of the box. -/
theorem one_V_exact (v i : Ival) (hv : v.b < v.e) (hi : i.b < i.e) (x : ℤ) :
    x ∈ (one_V v i).pts ↔ ∃ a ∈ v.pts, ∃ b ∈ i.pts, a - b = x := by
  simp only [mem_pts, one_V]
  constructor
  · intro h
    refine ⟨max v.b (x + i.b), ⟨?_, ?_⟩, max v.b (x + i.b) - x, ⟨?_, ?_⟩, ?_⟩ <;> omega
  · rintro ⟨a, ha, b, hb, rfl⟩
    omega

variable {K : Type*} [Field K] [LinearOrder K] [IsStrictOrderedRing K]

theorem sum_mid (axes : List Ival) :
    ((axes.map (·.b)).sum + (axes.map fun y => y.e - 1).sum : ℤ) = (2 * (axes.map fun y => (y.mid : K)).sum : K) := by
  induction axes with
  | nil => simp
  | cons I axes ih =>
    simp only [List.map_cons, List.sum_cons]
    push_cast at ih ⊢
    have : (I.mid : K) = ((I.e : K) - 1 + I.b) / 2 := by simp [Ival.mid]
    rw [this]
    linear_combination ih

theorem mid_span (p m : List Ival) :
    ((span p m).mid : K) = (p.map fun y => (y.mid : K)).sum - (m.map fun y => (y.mid : K)).sum := by
  have h1 := sum_mid (K := K) p
  have h2 := sum_mid (K := K) m
  simp only [Ival.mid, span] at h1 h2 ⊢
  push_cast at h1 h2 ⊢
  linear_combination (1 / 2 : K) * h1 - (1 / 2 : K) * h2

/-- **C46** Deviations from the centre of the reflected axis: the deviations on the axes of the side projected on, minus those of the other side. -/
theorem dev_span (p m : List Ival) (ns ms : List ℤ) (hn : ns.length = p.length)
    (hm : ms.length = m.length) :
    ((ns.sum - ms.sum : ℤ) : K) - (span p m).mid =
      ((p.zip ns).map fun q => (q.2 : K) - q.1.mid).sum - ((m.zip ms).map fun q => (q.2 : K) - q.1.mid).sum := by
  have key : ∀ (axes : List Ival) (ns : List ℤ), ns.length = axes.length →
      ((axes.zip ns).map fun q => (q.2 : K) - q.1.mid).sum =
        ((ns.sum : ℤ) : K) - (axes.map fun y => (y.mid : K)).sum := by
    intro axes
    induction axes with
    | nil => intro ns h; cases ns with
      | nil => simp
      | cons => simp at h
    | cons I axes ih =>
      intro ns h
      cases ns with
      | nil => simp at h
      | cons n ns =>
        simp only [List.zip_cons_cons, List.map_cons, List.sum_cons]
        rw [ih ns (by simpa using h)]
        push_cast
        ring
  rw [key p ns hn, key m ms hm, mid_span]
  push_cast
  ring

/-- **C46** The sum of the deviations over the reflected axis vanishes. -/
theorem reflected_sum_dev (p m : List Ival) : ∑ x ∈ (span p m).pts, ((x : K) - (span p m).mid) = 0 :=
  Ival.sum_dev _

/-- Orientation: in the one vacancy species case, projection on V, the deviation of a composition of a group whose interstitial axis is single is the deviation on the
vacancy axis, and that of a group whose vacancy axis is single is *minus* the deviation on the interstitial axis. -/
theorem one_V_dev (v i : Ival) {a b : ℤ} (ha : a ∈ v.pts) (hb : b ∈ i.pts) :
    (i.e = i.b + 1 → ((a - b : ℤ) : K) - (one_V v i).mid = (a : K) - v.mid) ∧
    (v.e = v.b + 1 → ((a - b : ℤ) : K) - (one_V v i).mid = -((b : K) - i.mid)) := by
  rw [mem_pts] at ha hb
  constructor
  · intro h
    have : b = i.b := by omega
    subst this
    simp only [Ival.mid, one_V, h]; push_cast; ring
  · intro h
    have : a = v.b := by omega
    subst this
    simp only [Ival.mid, one_V, h]; push_cast; ring

/-! ### Dispersions -/

/-- Mean square deviation of an interval. -/
def ivar (I : Ival) : K := (∑ x ∈ I.pts, ((x : K) - I.mid) ^ 2) / (I.pts.card : K)

/-- `Region::dispersion()` on one axis: 1 when there is only one size (plsm, trusted), otherwise the mean square deviation. -/
def rdisp (I : Ival) : K := if I.e = I.b + 1 then 1 else ivar I

theorem ivar_shift (I : Ival) (s : ℤ) : (ivar ⟨I.b + s, I.e + s⟩ : K) = ivar I := by
  unfold ivar
  have hc : (Ival.pts ⟨I.b + s, I.e + s⟩).card = I.pts.card := by
    simp only [Ival.pts, Int.card_Ico]; congr 1; ring
  rw [hc]
  congr 1
  refine Finset.sum_bij' (fun x _ => x - s) (fun x _ => x + s) ?_ ?_ ?_ ?_ ?_
  · intro x hx; rw [mem_pts] at hx ⊢; dsimp only at hx; omega
  · intro x hx; rw [mem_pts] at hx ⊢; dsimp only; omega
  · intro x _; ring
  · intro x _; ring
  · intro x _; simp only [Ival.mid]; push_cast; ring

theorem ivar_flip (I : Ival) : (ivar ⟨1 - I.e, 1 - I.b⟩ : K) = ivar I := by
  unfold ivar
  have hc : (Ival.pts ⟨1 - I.e, 1 - I.b⟩).card = I.pts.card := by
    simp only [Ival.pts, Int.card_Ico]; congr 1; ring
  rw [hc]
  congr 1
  refine Finset.sum_bij' (fun x _ => -x) (fun x _ => -x) ?_ ?_ ?_ ?_ ?_
  · intro x hx; rw [mem_pts] at hx ⊢; dsimp only at hx; omega
  · intro x hx; rw [mem_pts] at hx ⊢; dsimp only; omega
  · intro x _; ring
  · intro x _; ring
  · intro x _; simp only [Ival.mid]; push_cast; ring

/-- **C46 (dispersion)** When the group is grouped along at most one of the two axes, the reflected dispersion is the dispersion of the reflected axis, for both projections. -/
theorem dispOne_eq (v i : Ival) (h : v.e = v.b + 1 ∨ i.e = i.b + 1) :
    (dispOne (rdisp v) (rdisp i) : K) = rdisp (one_V v i) ∧
    (dispOne (rdisp v) (rdisp i) : K) = rdisp (one_I v i) := by
  have hV : i.e = i.b + 1 → one_V v i = ⟨v.b + (-i.b), v.e + (-i.b)⟩ := fun h => by
    simp only [one_V, h, Ival.mk.injEq]; omega
  have hV' : v.e = v.b + 1 → one_V v i = ⟨(1 - i.e) + v.b, (1 - i.b) + v.b⟩ := fun h => by
    simp only [one_V, h, Ival.mk.injEq]; omega
  have hI : v.e = v.b + 1 → one_I v i = ⟨i.b + (-v.b), i.e + (-v.b)⟩ := fun h => by
    simp only [one_I, h, Ival.mk.injEq]; omega
  have hI' : i.e = i.b + 1 → one_I v i = ⟨(1 - v.e) + i.b, (1 - v.b) + i.b⟩ := fun h => by
    simp only [one_I, h, Ival.mk.injEq]; omega
  have s1 : ∀ (I : Ival) (s : ℤ), (rdisp ⟨I.b + s, I.e + s⟩ : K) = rdisp I := by
    intro I s
    unfold rdisp
    dsimp only
    rw [ivar_shift]
    by_cases hh : I.e = I.b + 1
    · rw [if_pos hh, if_pos (by omega)]
    · rw [if_neg hh, if_neg (by omega)]
  have s2 : ∀ (I : Ival) (s : ℤ), (rdisp ⟨(1 - I.e) + s, (1 - I.b) + s⟩ : K) = rdisp I := by
    intro I s
    have := s1 ⟨1 - I.e, 1 - I.b⟩ s
    dsimp only at this
    rw [this]
    unfold rdisp
    dsimp only
    rw [ivar_flip]
    by_cases hh : I.e = I.b + 1
    · rw [if_pos hh, if_pos (by omega)]
    · rw [if_neg hh, if_neg (by omega)]
  rcases h with h | h
  · have : (rdisp v : K) = 1 := by simp [rdisp, h]
    rw [hV' h, hI h, s2, s1, dispOne, this]
    constructor <;> ring
  · have : (rdisp i : K) = 1 := by simp [rdisp, h]
    rw [hV h, hI' h, s2, s1, dispOne, this]
    constructor <;> ring

/-- **C46 (dispersion)** For networks with several vacancy species: when at most one axis has a dispersion different from 1, the reflected dispersion is that one. -/
theorem dispMany_eq (l r : List K) (x : K) (hl : ∀ y ∈ l, y = 1) (hr : ∀ y ∈ r, y = 1) :
    dispMany (l ++ x :: r) = x := by
  have h : ∀ t : List K, (∀ y ∈ t, y = 1) → t.sum = t.length := by
    intro t
    induction t with
    | nil => simp
    | cons a t ih =>
      intro ht
      rw [List.sum_cons, ht a (by simp), ih fun y hy => ht y (by simp [hy])]
      push_cast [List.length_cons]
      ring
  simp only [dispMany, List.sum_append, List.sum_cons, List.length_append, List.length_cons, h l hl, h r hr]
  push_cast
  ring

/-! ### 32 bit arithmetic -/

/-- Conversion of a 32 bit unsigned value to a signed one. -/
def toSigned (u : ℤ) : ℤ := if u < 2 ^ 31 then u else u - 2 ^ 32

/-- Computing with wrap around and converting at the end gives the true value when it fits. -/
theorem toSigned_wrap (x : ℤ) (h1 : -2 ^ 31 ≤ x) (h2 : x < 2 ^ 31) : toSigned (x % 2 ^ 32) = x := by
  unfold toSigned
  split <;> omega

/-! ### The orientation problem -/

/-- The reaction `I_[1,3) + V_5 → V_[3,5)` on the reflected axis: the first product is a vacancy cluster, so everything is projected on V and the interstitial group becomes the interval `[-2, 0)`. -/
def witIn : ProdIn 1 ℚ where
  c1 _ := one_V ⟨0, 1⟩ ⟨1, 3⟩
  c2 _ := one_V ⟨5, 6⟩ ⟨0, 1⟩
  p1 _ := one_V ⟨3, 5⟩ ⟨0, 1⟩
  p2 _ := ⟨0, 1⟩
  d1 _ := 1 / 4
  d2 _ := 1
  dp1 _ := 1 / 4
  dp2 _ := 1
  prod1 := some 3
  prod2 := none

/-- Degrees of freedom: 0 and 1 for the interstitial group, 2 for V_5, 3 and 4 for the product group. -/
def witRx : ProdRxn 1 ℚ where
  r1 := 0
  r2 := 2
  prod1 := some 3
  prod2 := none
  mom q _ := match q with
    | .r1 => some 1
    | .p1 => some 4
    | _ => none
  vol q := match q with
    | .r1 => 2
    | .p1 => 2
    | _ => 1
  rate := 1
  coefs := witIn.coefs

/-- Vacancies minus interstitials represented by a state, from the sizes of the groups themselves: I_1, I_2 with centre 3/2, V_5, V_3 and V_4 with centre 7/2. -/
def netVacancies (x : ℕ → ℚ) : ℚ :=
  -(1 * (x 0 + x 1 * (1 - 3 / 2)) + 2 * (x 0 + x 1 * (2 - 3 / 2))) + 5 * x 2 +
    (3 * (x 3 + x 4 * (3 - 7 / 2)) + 4 * (x 3 + x 4 * (4 - 7 / 2)))

/-- **C46/C04 (negation)** The projection flips the sign of the first moment of a grouped reactant of the other kind: recombination of a grouped interstitial with a vacancy does not
conserve vacancies minus interstitials. With mean 1 and first moment 1 of I_[1,3) and concentration 1 of V_5, the net number changes at rate 1; it does not change when the first moment is zero. -/
theorem reflection_flips_moment :
    netVacancies (netOf (witRx.computeFlux fun n => if n = 0 ∨ n = 1 ∨ n = 2 then 1 else 0)) = 1 ∧
    netVacancies (netOf (witRx.computeFlux fun n => if n = 0 ∨ n = 2 then 1 else 0)) = 0 := by
  decide +kernel

/-- Non-vacuity: a box with vacancies 2 to 4 and interstitials 0 to 1. -/
example : (1 : ℤ) ∈ (one_V ⟨2, 5⟩ ⟨0, 2⟩).pts ∧ (4 : ℤ) ∈ (one_V ⟨2, 5⟩ ⟨0, 2⟩).pts ∧
    (5 : ℤ) ∉ (one_V ⟨2, 5⟩ ⟨0, 2⟩).pts := by decide

/-- **The side that is chosen**: interstitials, exactly if a composition of the first product has one. -/
theorem side_chosen (pr1 : Box) (h : ∀ I ∈ pr1.i, I.b < I.e) : projectOnI pr1 = true ↔ ∃ I ∈ pr1.i, ∃ n ∈ I.pts, 1 ≤ n := by
  unfold projectOnI
  rw [List.any_eq_true]
  constructor
  · rintro ⟨I, hI, he⟩
    have he := of_decide_eq_true he
    have := h I hI
    exact ⟨I, hI, I.e - 1, mem_pts.2 ⟨by omega, by omega⟩, by omega⟩
  · rintro ⟨I, hI, n, hn, h1⟩
    have := (mem_pts.1 hn).2
    exact ⟨I, hI, decide_eq_true (by omega)⟩

/-- On its own side a group of one species keeps its sizes and their direction. -/
theorem own_side (x : Ival) : one_V x ⟨0, 1⟩ = x ∧ one_I ⟨0, 1⟩ x = x ∧ zr_V x ⟨0, 1⟩ ⟨0, 1⟩ = x ∧ zr_V ⟨0, 1⟩ x ⟨0, 1⟩ = x ∧ zr_I ⟨0, 1⟩ ⟨0, 1⟩ x = x ∧
    alloy_V x ⟨0, 1⟩ ⟨0, 1⟩ ⟨0, 1⟩ ⟨0, 1⟩ ⟨0, 1⟩ = x ∧ alloy_I ⟨0, 1⟩ ⟨0, 1⟩ ⟨0, 1⟩ x ⟨0, 1⟩ ⟨0, 1⟩ = x := by
  obtain ⟨b, e⟩ := x
  simp only [one_V, one_I, zr_V, zr_I, alloy_V, alloy_I, Ival.mk.injEq]
  omega

/-- A product that is a group of interstitials 2 and 3, and a vacancy as product. -/
example : projectOnI ⟨[⟨0, 1⟩], [⟨2, 4⟩]⟩ = true ∧ projectOnI ⟨[⟨1, 2⟩], [⟨0, 1⟩]⟩ = false ∧ one_I ⟨0, 1⟩ ⟨2, 4⟩ = ⟨2, 4⟩ := by
  decide

end Xolotl.Network.Reflect
