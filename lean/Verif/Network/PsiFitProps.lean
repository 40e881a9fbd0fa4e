import Verif.Network.PsiSelectProps
import Mathlib.Data.Rat.Cast.Order
import Mathlib.Tactic.FieldSimp

/-!
# C60: the fitted energies bind helium and vacancies

The fit of the formation energies (`PSIClusterGenerator.tpp:797-912`) is a polynomial in the number of helium atoms; its differences are bounded by their Bernstein coefficients, which are evaluated for each number of
vacancies of the range of the fit.
-/

set_option maxRecDepth 100000
set_option linter.unusedSectionVars false

namespace Xolotl.Network.Psi

/-- Column `j` of the table summed with the Legendre polynomials of `y`. -/
def colA (v : ℕ) (j : ℕ) : ℚ :=
  if v ≤ 27 then Util.computeNthOrderLegendre (2 * (((v : ℚ) - 1) / 26) - 1) (coefLow.map fun r => r.getD j 0)
  else Util.computeNthOrderLegendre (2 * (((v : ℚ) - 1) / 451) - 1) (coefHigh.map fun r => r.getD j 0)

/-- The coefficients of the fit as a polynomial of the number of helium atoms. -/
def gs (v : ℕ) : List ℚ :=
  let a := colA v
  let a0 := a 0; let a1 := a 1; let a2 := a 2; let a3 := a 3; let a4 := a 4; let a5 := a 5
  let s : ℚ := 1 / (9 * v)
  [a0 - a1 + a2 - a3 + a4 - a5, (2 * a1 - 6 * a2 + 12 * a3 - 20 * a4 + 30 * a5) * s, (6 * a2 - 30 * a3 + 90 * a4 - 210 * a5) * s ^ 2, (20 * a3 - 140 * a4 + 560 * a5) * s ^ 3, (70 * a4 - 630 * a5) * s ^ 4, 252 * a5 * s ^ 5]

def ev (l : List ℚ) (h : ℚ) : ℚ := l.foldr (fun c t => c + h * t) 0

theorem fit_poly (he v : ℕ) : fit (K := ℚ) he v = ev (gs v) he := by
  unfold fit gs colA ev
  simp only [Util.computeNthOrderLegendre, Util.legendrePolynomial, Util.legendreLoop, coefLow, coefHigh, List.map, List.foldl, List.getD_cons_zero, List.getD_cons_succ, List.foldr]
  norm_num
  split_ifs <;> ring

/-- Bernstein coefficients on `[0, m]` of a polynomial of degree five. -/
def bern (l : List ℚ) (m : ℚ) : List ℚ :=
  let c0 := l.getD 0 0; let c1 := l.getD 1 0 * m; let c2 := l.getD 2 0 * m ^ 2; let c3 := l.getD 3 0 * m ^ 3; let c4 := l.getD 4 0 * m ^ 4; let c5 := l.getD 5 0 * m ^ 5
  [c0, c0 + c1 / 5, c0 + 2 * c1 / 5 + c2 / 10, c0 + 3 * c1 / 5 + 3 * c2 / 10 + c3 / 10, c0 + 4 * c1 / 5 + 6 * c2 / 10 + 4 * c3 / 10 + c4 / 5, c0 + c1 + c2 + c3 + c4 + c5]

theorem bern_le (c0 c1 c2 c3 c4 c5 m h b B : ℚ) (hm : 0 < m) (h0 : 0 ≤ h) (h1 : h ≤ m) (hb : ∀ x ∈ bern [c0, c1, c2, c3, c4, c5] m, b ≤ x ∧ x ≤ B) :
    b ≤ ev [c0, c1, c2, c3, c4, c5] h ∧ ev [c0, c1, c2, c3, c4, c5] h ≤ B := by
  simp only [bern, List.mem_cons, List.not_mem_nil, or_false, forall_eq_or_imp, forall_eq, List.getD_cons_zero, List.getD_cons_succ] at hb
  obtain ⟨⟨l0, u0⟩, ⟨l1, u1⟩, ⟨l2, u2⟩, ⟨l3, u3⟩, ⟨l4, u4⟩, ⟨l5, u5⟩⟩ := hb
  obtain ⟨t, rfl⟩ : ∃ t, h = m * t := ⟨h / m, by field_simp⟩
  have t0 : 0 ≤ t := by by_contra hh; nlinarith
  have t1 : 0 ≤ 1 - t := by by_contra hh; nlinarith
  simp only [ev, List.foldr]
  have p0 := pow_nonneg t1 5
  have p1 := mul_nonneg t0 (pow_nonneg t1 4)
  have p2 := mul_nonneg (pow_nonneg t0 2) (pow_nonneg t1 3)
  have p3 := mul_nonneg (pow_nonneg t0 3) (pow_nonneg t1 2)
  have p4 := mul_nonneg (pow_nonneg t0 4) t1
  have p5 := pow_nonneg t0 5
  constructor
  · have := add_nonneg (add_nonneg (add_nonneg (mul_nonneg (sub_nonneg.mpr l0) p0) (mul_nonneg (sub_nonneg.mpr l1) (mul_nonneg (by norm_num : (0:ℚ) ≤ 5) p1)))
      (add_nonneg (mul_nonneg (sub_nonneg.mpr l2) (mul_nonneg (by norm_num : (0:ℚ) ≤ 10) p2)) (mul_nonneg (sub_nonneg.mpr l3) (mul_nonneg (by norm_num : (0:ℚ) ≤ 10) p3))))
      (add_nonneg (mul_nonneg (sub_nonneg.mpr l4) (mul_nonneg (by norm_num : (0:ℚ) ≤ 5) p4)) (mul_nonneg (sub_nonneg.mpr l5) p5))
    rw [← sub_nonneg]
    refine this.trans (le_of_eq ?_)
    ring
  · have := add_nonneg (add_nonneg (add_nonneg (mul_nonneg (sub_nonneg.mpr u0) p0) (mul_nonneg (sub_nonneg.mpr u1) (mul_nonneg (by norm_num : (0:ℚ) ≤ 5) p1)))
      (add_nonneg (mul_nonneg (sub_nonneg.mpr u2) (mul_nonneg (by norm_num : (0:ℚ) ≤ 10) p2)) (mul_nonneg (sub_nonneg.mpr u3) (mul_nonneg (by norm_num : (0:ℚ) ≤ 10) p3))))
      (add_nonneg (mul_nonneg (sub_nonneg.mpr u4) (mul_nonneg (by norm_num : (0:ℚ) ≤ 5) p4)) (mul_nonneg (sub_nonneg.mpr u5) p5))
    rw [← sub_nonneg]
    refine this.trans (le_of_eq ?_)
    ring

/-- The range of helium contents looked at: what a ratio of four allows. -/
def mx (v : ℕ) : ℕ := if v < 30 then maxHeTable.getD v 0 else 4 * v

/-- `f(h + 1) - f(h)`. -/
def dl (l : List ℚ) : List ℚ :=
  let c1 := l.getD 1 0; let c2 := l.getD 2 0; let c3 := l.getD 3 0; let c4 := l.getD 4 0; let c5 := l.getD 5 0
  [c1 + c2 + c3 + c4 + c5, 2 * c2 + 3 * c3 + 4 * c4 + 5 * c5, 3 * c3 + 6 * c4 + 10 * c5, 4 * c4 + 10 * c5, 5 * c5, 0]

theorem he_check : ∀ v < 453, 3 ≤ v → ∀ x ∈ bern (dl (gs v)) ((mx v : ℚ) - 1), -(19 / 10) ≤ x ∧ x ≤ 5 := by decide +kernel

theorem v_check : ∀ v < 453, 4 ≤ v → v ≠ 4 ∧ v ≠ 5 ∧ v ≠ 28 → ∀ x ∈ bern (List.zipWith (fun a b => a - b) (gs (v - 1)) (gs v)) (mx v : ℚ), -(36 / 10) < x ∧ x ≤ 15 := by decide +kernel

theorem v_check_few : ∀ v ∈ [4, 5, 28], ∀ he < mx v + 1, -(36 / 10) < ev (gs (v - 1)) he - ev (gs v) he ∧ ev (gs (v - 1)) he - ev (gs v) he ≤ 15 := by decide +kernel

theorem mx_eq {K : Type*} [Field K] [LinearOrder K] [IsStrictOrderedRing K] [FloorSemiring K] (v : ℕ) : mx v = maxHePerV v (4 : K) := by
  unfold mx maxHePerV
  split_ifs with h
  · rfl
  · have : ⌊(4 : K) * (v : K)⌋₊ = 4 * v := by
      rw [show (4 : K) * (v : K) = ((4 * v : ℕ) : K) by push_cast; ring, Nat.floor_natCast]
    rw [this]; omega

theorem he_step (he v : ℕ) (h3 : 3 ≤ v) (hv : v ≤ 452) (hh : he < mx v) : -(19 / 10) ≤ fit (K := ℚ) (he + 1) v - fit he v ∧ fit (K := ℚ) (he + 1) v - fit he v ≤ 5 := by
  have hc := he_check v (by omega) h3
  have hm : (1 : ℚ) < mx v := by
    have : 1 < mx v := by
      unfold mx
      split_ifs with h
      · interval_cases v <;> decide
      · omega
    exact_mod_cast this
  have e : fit (K := ℚ) (he + 1) v - fit he v = ev (dl (gs v)) he := by
    rw [fit_poly, fit_poly]
    simp only [gs, dl, ev, List.foldr, List.getD_cons_zero, List.getD_cons_succ]
    push_cast
    ring
  rw [e]
  refine bern_le _ _ _ _ _ _ _ _ _ _ (by linarith) (Nat.cast_nonneg _) ?_ hc
  have : ((he + 1 : ℕ) : ℚ) ≤ mx v := by exact_mod_cast hh
  push_cast at this
  linarith

theorem v_step (he v : ℕ) (h3 : 3 < v) (hv : v ≤ 452) (hh : he ≤ mx v) : -(36 / 10) < fit (K := ℚ) he (v - 1) - fit he v ∧ fit (K := ℚ) he (v - 1) - fit he v ≤ 15 := by
  by_cases hf : v ∈ [4, 5, 28]
  · rw [fit_poly, fit_poly]
    exact v_check_few v hf he (by omega)
  · simp only [List.mem_cons, List.not_mem_nil, or_false, not_or] at hf
    have hc := v_check v (by omega) h3 hf
    have hm : (0 : ℚ) < mx v := by
      have : 0 < mx v := by
        unfold mx
        split_ifs with h
        · interval_cases v <;> decide
        · omega
      exact_mod_cast this
    obtain ⟨b, hb, hc⟩ : ∃ b : ℚ, -(36 / 10) < b ∧ ∀ x ∈ bern (List.zipWith (fun a b => a - b) (gs (v - 1)) (gs v)) (mx v : ℚ), b ≤ x ∧ x ≤ 15 := by
      have : ∀ l : List ℚ, (∀ x ∈ l, -(36 / 10) < x ∧ x ≤ 15) → ∃ b : ℚ, -(36 / 10) < b ∧ ∀ x ∈ l, b ≤ x ∧ x ≤ 15 := by
        intro l
        induction l with
        | nil => exact fun _ => ⟨0, by norm_num, by simp⟩
        | cons a l ih =>
          intro h
          obtain ⟨b, hb, hl⟩ := ih fun x hx => h x (List.mem_cons_of_mem _ hx)
          have ha := h a List.mem_cons_self
          refine ⟨min a b, lt_min ha.1 hb, fun x hx => ?_⟩
          rcases List.mem_cons.mp hx with rfl | hx
          · exact ⟨min_le_left _ _, ha.2⟩
          · exact ⟨(min_le_right _ _).trans (hl x hx).1, (hl x hx).2⟩
      exact this _ hc
    have e : fit (K := ℚ) he (v - 1) - fit he v = ev (List.zipWith (fun a b => a - b) (gs (v - 1)) (gs v)) he := by
      rw [fit_poly, fit_poly]
      simp only [gs, ev, List.zipWith, List.foldr]
      ring
    rw [e]
    have := bern_le _ _ _ _ _ _ _ (he : ℚ) b 15 hm (Nat.cast_nonneg _) (by exact_mod_cast hh) hc
    exact ⟨hb.trans_le this.1, this.2⟩

variable {K : Type*} [Field K] [LinearOrder K] [IsStrictOrderedRing K] [FloorSemiring K]

theorem legendre_cast (x : ℚ) (n : ℕ) : Util.legendrePolynomial (x : K) n = ((Util.legendrePolynomial x n : ℚ) : K) := by
  have loop : ∀ j, Util.legendreLoop (x : K) j = (((Util.legendreLoop x j).1 : K), ((Util.legendreLoop x j).2.1 : K), ((Util.legendreLoop x j).2.2 : K)) := by
    intro j
    induction j with
    | zero => simp [Util.legendreLoop]
    | succ j ih => simp only [Util.legendreLoop, ih]; push_cast; rfl
  unfold Util.legendrePolynomial
  split_ifs
  · simp
  · rfl
  · rw [loop]

theorem order_cast (x : ℚ) (l : List ℚ) : Util.computeNthOrderLegendre (x : K) (l.map fun c : ℚ => (c : K)) = ((Util.computeNthOrderLegendre x l : ℚ) : K) := by
  unfold Util.computeNthOrderLegendre
  have : ∀ (l : List ℚ) (s : ℚ) (n : ℕ), ((l.map fun c : ℚ => (c : K)).foldl (fun (s : K × ℕ) c => (s.1 + c * Util.legendrePolynomial (x : K) s.2, s.2 + 1)) ((s : K), n)).1
      = (((l.foldl (fun (s : ℚ × ℕ) c => (s.1 + c * Util.legendrePolynomial x s.2, s.2 + 1)) (s, n)).1 : ℚ) : K) := by
    intro l
    induction l with
    | nil => intro s n; rfl
    | cons c l ih =>
      intro s n
      simp only [List.map_cons, List.foldl_cons]
      rw [← ih, legendre_cast]
      push_cast
      rfl
  have h := this l 0 0
  rw [Rat.cast_zero] at h
  exact h

theorem fit_cast (he v : ℕ) : fit (K := K) he v = ((fit he v : ℚ) : K) := by
  have e1 : (coefLow : List (List K)) = coefLow.map fun r : List ℚ => r.map fun c : ℚ => (c : K) := by
    simp only [coefLow, List.map]; push_cast; rfl
  have e2 : (coefHigh : List (List K)) = coefHigh.map fun r : List ℚ => r.map fun c : ℚ => (c : K) := by
    simp only [coefHigh, List.map]; push_cast; rfl
  have ex : (2 * ((he : K) / (9 * (v : K))) - 1) = ((2 * ((he : ℚ) / (9 * (v : ℚ))) - 1 : ℚ) : K) := by push_cast; rfl
  have key : ∀ (t : List (List ℚ)) (x y : ℚ), Util.computeNthOrderLegendre (y : K) ((t.map fun r : List ℚ => r.map fun c : ℚ => (c : K)).map (Util.computeNthOrderLegendre (x : K)))
      = ((Util.computeNthOrderLegendre y (t.map (Util.computeNthOrderLegendre x)) : ℚ) : K) := by
    intro t x y
    rw [← order_cast, List.map_map, List.map_map]
    congr 1
    refine List.map_congr_left fun r _ => ?_
    simp [order_cast]
  unfold fit
  simp only
  rw [ex, e1, e2]
  split_ifs
  · rw [← key]; push_cast; rfl
  · rw [← key]; push_cast; rfl

theorem formation_hev (o : Opts K) (m w : ℕ) (hw : 0 < w) (hg : w + 1 < o.gmin) : formation o (point ⟨m, 0, 0, w, 0⟩) = hev m w := by
  unfold formation
  rw [if_neg (show ¬ (point ⟨m, 0, 0, w, 0⟩).hi.v ≥ o.gmin from not_le.mpr hg), if_pos (show simplex (point ⟨m, 0, 0, w, 0⟩) from rfl),
    if_neg (show ¬ onI (point ⟨m, 0, 0, w, 0⟩).lo from by simp [onI, point]), if_neg (show ¬ onHe (point ⟨m, 0, 0, w, 0⟩).lo from by simp [onHe, point]; omega),
    if_neg (show ¬ onD (point ⟨m, 0, 0, w, 0⟩).lo from by simp [onD, point]), if_neg (show ¬ onT (point ⟨m, 0, 0, w, 0⟩).lo from by simp [onT, point])]
  rfl

/-- A group has no formation energy, whatever it holds and wherever the large bubbles begin. -/
theorem group_formation (o : Opts K) (r : Reg) (hg : ¬ simplex r) : formation o r = .num 0 := by
  unfold formation
  by_cases h : r.hi.v ≥ o.gmin
  · rw [if_pos h]
  · rw [if_neg h, if_neg hg]

/-- For instance, two helium atoms with one or two vacancies. -/
example : ¬ simplex ⟨⟨2, 0, 0, 1, 0⟩, ⟨2, 0, 0, 2, 0⟩⟩ := by decide

theorem hev_fit (m w : ℕ) (hw : 3 ≤ w) : hev (K := K) m w = .num (fit m w) := by
  unfold hev; rw [if_neg (by omega), if_pos (by omega)]

/-- **C60, energies.** Every further helium atom in a bubble of three to 452 vacancies, up to four for each vacancy (or what the table allows), is bound: by 1.15 to 8.05 eV. -/
theorem helium_bound_fit (o : Opts K) (he v : ℕ) (h3 : 3 ≤ v) (hv : v ≤ 452) (hh : he < maxHePerV v (4 : K)) (hg : v + 1 < o.gmin) :
    ∃ e₁ e e' : K, formation o (point ⟨1, 0, 0, 0, 0⟩) = .num e₁ ∧ formation o (point ⟨he, 0, 0, v, 0⟩) = .num e ∧
    formation o (point ⟨he + 1, 0, 0, v, 0⟩) = .num e' ∧ e' + 115 / 100 ≤ e + e₁ ∧ e + e₁ ≤ e' + 805 / 100 := by
  have val : formation o (point ⟨1, 0, 0, 0, 0⟩) = .num (615 / 100) := by
    unfold formation
    rw [if_neg (show ¬ (point ⟨1, 0, 0, 0, 0⟩).hi.v ≥ o.gmin from not_le.mpr (show 1 < o.gmin by omega)), if_pos (show simplex (point ⟨1, 0, 0, 0, 0⟩) from rfl),
      if_neg (show ¬ onI (point ⟨1, 0, 0, 0, 0⟩).lo from by simp [onI, point]), if_pos (show onHe (point ⟨1, 0, 0, 0, 0⟩).lo from by simp [onHe, point])]
    rfl
  refine ⟨_, _, _, val, (formation_hev o he v (by omega) hg).trans (hev_fit _ _ h3), (formation_hev o (he + 1) v (by omega) hg).trans (hev_fit _ _ h3), ?_⟩
  obtain ⟨h1, h2⟩ := he_step he v h3 hv (by rw [mx_eq (K := K)]; exact hh)
  rw [fit_cast (K := K) he v, fit_cast (K := K) (he + 1) v]
  have h1 : ((-(19 / 10) : ℚ) : K) ≤ ((fit (K := ℚ) (he + 1) v - fit he v : ℚ) : K) := by exact_mod_cast h1
  have h2 : ((fit (K := ℚ) (he + 1) v - fit he v : ℚ) : K) ≤ ((5 : ℚ) : K) := by exact_mod_cast h2
  push_cast at h1 h2
  constructor <;> linarith

/-- **C60, energies.** Every vacancy of a bubble of four to 452 vacancies with up to four helium atoms for each (or what the table allows), or of a void of that size, is bound, by less than 19 eV. -/
theorem vacancy_bound_fit (o : Opts K) (he v : ℕ) (h3 : 3 < v) (hv : v ≤ 452) (hh : he ≤ maxHePerV v (4 : K)) (hg : v + 1 < o.gmin) :
    ∃ e₁ e e' : K, formation o (point ⟨0, 0, 0, 1, 0⟩) = .num e₁ ∧ formation o (point ⟨he, 0, 0, v - 1, 0⟩) = .num e ∧
    formation o (point ⟨he, 0, 0, v, 0⟩) = .num e' ∧ e' < e + e₁ ∧ e + e₁ < e' + 19 := by
  refine ⟨36 / 10, _, _, (formation_hev o 0 1 (by omega) (by omega)).trans rfl, (formation_hev o he (v - 1) (by omega) (by omega)).trans (hev_fit _ _ (by omega)),
    (formation_hev o he v (by omega) hg).trans (hev_fit _ _ h3.le), ?_⟩
  obtain ⟨h1, h2⟩ := v_step he v h3 hv (by rw [mx_eq (K := K)]; exact hh)
  rw [fit_cast (K := K) he (v - 1), fit_cast (K := K) he v]
  have h1 : ((-(36 / 10) : ℚ) : K) < ((fit (K := ℚ) he (v - 1) - fit he v : ℚ) : K) := by exact_mod_cast h1
  have h2 : ((fit (K := ℚ) he (v - 1) - fit he v : ℚ) : K) ≤ ((15 : ℚ) : K) := by exact_mod_cast h2
  push_cast at h1 h2
  constructor <;> linarith

/-- A bubble of thirty vacancies and 100 helium atoms, of a network that groups from 400 vacancies on. -/
example : ∃ e₁ e e' : ℚ, formation (⟨8, 1, 1, 450, 100, 6, 400, 4⟩ : Opts ℚ) (point ⟨1, 0, 0, 0, 0⟩) = .num e₁ ∧ formation (⟨8, 1, 1, 450, 100, 6, 400, 4⟩ : Opts ℚ) (point ⟨99, 0, 0, 30, 0⟩) = .num e ∧
    formation (⟨8, 1, 1, 450, 100, 6, 400, 4⟩ : Opts ℚ) (point ⟨100, 0, 0, 30, 0⟩) = .num e' ∧ e' + 115 / 100 ≤ e + e₁ ∧ e + e₁ ≤ e' + 805 / 100 :=
  helium_bound_fit _ 99 30 (by norm_num) (by norm_num) (by decide +kernel) (by decide)

end Xolotl.Network.Psi
