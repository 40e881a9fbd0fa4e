import Verif.Network.Rates
import Mathlib.Analysis.Convex.SpecificFunctions.Pow
import Mathlib.Tactic.LinearCombination
import Mathlib.Tactic.Positivity
import Mathlib.Tactic.FieldSimp
import Mathlib.Tactic.NormNum

/-!
# C58: rate constants

Symmetry, positivity and finiteness of the capture rates, agreement between the capture rate used by a dissociation and the rate of the reverse production, and detailed balance.
-/

set_option linter.unusedSectionVars false

namespace Xolotl.Network.Rates

open Real

/-! ## Order of the two clusters -/

/-- **C58, tungsten and iron.** The capture rate does not depend on the order of the two clusters. -/
theorem sphere_symm (r0 r1 d0 d1 : ℝ) : sphereRate r0 r1 d0 d1 = sphereRate r1 r0 d1 d0 := by
  simp only [sphereRate]; ring

theorem alloyZs_symm (r0 r1 : ℝ) : alloyZs r0 r1 = alloyZs r1 r0 := by simp only [alloyZs]; ring

/-- **C58, alloy.** The capture rate does not depend on the order of the two clusters, whatever their types. -/
theorem alloy_symm (k0 k1 : AlloyKind) (r0 r1 d0 d1 : ℝ) : alloyRate k0 k1 r0 r1 d0 d1 = alloyRate k1 k0 r1 r0 d1 d0 := by
  have hb : (if k0 = .i ∨ k1 = .i then (1.2 : ℝ) else 1) = if k1 = .i ∨ k0 = .i then 1.2 else 1 := by
    simp only [or_comm]
  have hmax : (if r0 < r1 then r1 else r0) = if r1 < r0 then r0 else r1 := by
    split_ifs with a b b
    · exact absurd a (not_lt.mpr b.le)
    · rfl
    · rfl
    · exact le_antisymm (not_lt.mp b) (not_lt.mp a) |>.symm ▸ rfl
  have hmin : (if r0 < r1 then r0 else r1) = if r1 < r0 then r1 else r0 := by
    split_ifs with a b b
    · exact absurd a (not_lt.mpr b.le)
    · rfl
    · rfl
    · exact le_antisymm (not_lt.mp a) (not_lt.mp b)
  unfold alloyRate
  rw [alloyZs_symm r1 r0, add_comm d1 d0, hb, hmax, hmin]
  cases h0 : k0.sphere <;> cases h1 : k1.sphere <;> simp

/-- **C58, zirconium, partial.** The capture rate does not depend on the order of the two clusters unless both are dislocation loops.  Missing: two loops, see `zr_asymmetric`. -/
theorem zr_symm_partial (c0 c1 : Cl ZrKind) (p : ℝ) (t : ℕ) (h : ¬ (ZrLoop c0 ∧ ZrLoop c1)) : zrRate c0 c1 p t = zrRate c1 c0 p t := by
  unfold zrRate
  rw [add_comm c1.dc c0.dc]
  by_cases a : ZrLoop c0 <;> by_cases b : ZrLoop c1 <;> simp only [a, b, if_true, if_false]
  · exact absurd ⟨a, b⟩ h
  · rw [add_comm c1.radius c0.radius]

/-- The generator gives a diffusion factor only to clusters that are no loops. -/
theorem zr_mobile_small (k : ZrKind) (n : ℕ) (h : zrDiffusionFactor k n ≠ 0) : n ≤ 6 := by
  unfold zrDiffusionFactor at h
  split_ifs at h with a b c
  · exact a.2
  · omega
  · exact absurd rfl h
  · exact absurd rfl h

/-- **C58, zirconium, generated pairs.** The generator pairs clusters only when one of them is mobile; for all these pairs the capture rate, with the anisotropy of the mobile cluster, does not depend on the order, unless both are mobile, in which case none is a loop and the anisotropy is not used. -/
theorem zr_pair_symm (c0 c1 : Cl ZrKind) (t : ℕ) (h0 : c0.dc > 0 → zrDiffusionFactor c0.kind c0.size ≠ 0)
    (h1 : c1.dc > 0 → zrDiffusionFactor c1.kind c1.size ≠ 0) (hm : c0.dc > 0 ∨ c1.dc > 0) :
    zrRate c0 c1 (zrP c0 c1) t = zrRate c1 c0 (zrP c1 c0) t := by
  have hl : ¬ (ZrLoop c0 ∧ ZrLoop c1) := by
    rintro ⟨a, b⟩
    unfold ZrLoop at a b
    rcases hm with m | m
    · have := zr_mobile_small _ _ (h0 m); omega
    · have := zr_mobile_small _ _ (h1 m); omega
  rw [zr_symm_partial c0 c1 _ t hl]
  by_cases a : c0.dc > 0 <;> by_cases b : c1.dc > 0
  · have e0 : ¬ ZrLoop c0 := by have := zr_mobile_small _ _ (h0 a); unfold ZrLoop; omega
    have e1 : ¬ ZrLoop c1 := by have := zr_mobile_small _ _ (h1 b); unfold ZrLoop; omega
    unfold zrRate
    rw [if_neg e1, if_neg e0, if_neg e1, if_neg e0]
  · simp only [zrP, a, b, if_true, if_false]
  · simp only [zrP, a, b, if_true, if_false]
  · exact absurd hm (by simp [a, b])

/-- **C58 fails for two zirconium loops.** With a mobile one among them the first is taken as the one that captures, and the order matters. -/
theorem zr_asymmetric : ∃ c0 c1 : Cl ZrKind, zrRate c0 c1 1 20 ≠ zrRate c1 c0 1 20 := by
  refine ⟨⟨.basal, 10, 1, 1, 1, 1, 1⟩, ⟨.basal, 10, 1, 0, 1, 2, 2⟩, ?_⟩
  have e0 : ZrLoop ⟨.basal, 10, 1, 1, 1, 1, 1⟩ := by unfold ZrLoop; norm_num
  have e1 : ZrLoop ⟨.basal, 10, 1, 0, 1, 2, 2⟩ := by unfold ZrLoop; norm_num
  unfold zrRate
  rw [if_pos e0, if_pos e1]
  simp only [zrLoopRate, zrRd, zrEfficiency]
  norm_num

/-! ## Sign -/

/-- **C58, tungsten and iron, sign.** The rate is positive when one of the clusters is mobile. -/
theorem sphere_pos (r0 r1 d0 d1 : ℝ) (hr : 0 < r0 + r1) (hd : 0 < d0 + d1) : 0 < sphereRate r0 r1 d0 d1 := by
  have := pi_pos
  unfold sphereRate
  positivity

theorem alloyLoop_pos (zs rl rs d : ℝ) (hz : 0 < zs) (hl : 0 < rl) (hs : 0 ≤ rs) (hd : 0 < d) : 0 < alloyLoop zs rl rs d := by
  have hpi := pi_pos
  have hc : 0 < rs + alloyCore := by unfold alloyCore; linarith [show (0 : ℝ) < 0.36 by norm_num]
  have hlog : 0 < log (1 + 8 * rl / (rs + alloyCore)) := log_pos (by linarith [show 0 < 8 * rl / (rs + alloyCore) by positivity])
  have hp1 : 1 / (1 + (rl / (rs + alloyCore)) ^ 2) ≤ 1 := by
    rw [div_le_one (by positivity)]
    linarith [sq_nonneg (rl / (rs + alloyCore))]
  have hp : 0 < 1 / (1 + (rl / (rs + alloyCore)) ^ 2) := by positivity
  have hzl : 0 < 4 * π * π * rl / log (1 + 8 * rl / (rs + alloyCore)) := by positivity
  simp only [alloyLoop]
  have : 0 < 1 / (1 + (rl / (rs + alloyCore)) ^ 2) * zs := mul_pos hp hz
  have : 0 ≤ (1 - 1 / (1 + (rl / (rs + alloyCore)) ^ 2)) * (4 * π * π * rl / log (1 + 8 * rl / (rs + alloyCore))) :=
    mul_nonneg (by linarith) hzl.le
  exact mul_pos hd (by linarith)

/-- **C58, alloy, sign.** The rate is positive when one of the clusters is mobile, whatever their types. -/
theorem alloy_pos (k0 k1 : AlloyKind) (r0 r1 d0 d1 : ℝ) (h0 : 0 < r0) (h1 : 0 < r1) (hd : 0 < d0 + d1) : 0 < alloyRate k0 k1 r0 r1 d0 d1 := by
  have hpi := pi_pos
  have hz : 0 < alloyZs r0 r1 := by
    unfold alloyZs alloyCore
    have : (0 : ℝ) < r0 + r1 + 0.36 := by linarith [show (0 : ℝ) < 0.36 by norm_num]
    positivity
  unfold alloyRate
  split_ifs
  all_goals first
    | exact mul_pos hz hd
    | exact mul_pos (alloyLoop_pos _ _ _ _ hz (by assumption) (by linarith) hd) (by norm_num)

theorem efficiency_pos (k : ZrKind) (p pl : ℝ) (hp : 0 < p) (h : zrEfficiency k p = some pl) : 0 < pl := by
  cases k <;> simp only [zrEfficiency, if_neg hp.ne', Option.some.injEq] at h
  · subst h
    have : 0.78 * (1 / p ^ 2) + 0.66 * p - 0.44 = (0.78 + 0.66 * p ^ 3 - 0.44 * p ^ 2) / p ^ 2 := by field_simp
    rw [this]
    apply div_pos _ (by positivity)
    rcases le_total (2 / 3) p with c | c
    · nlinarith [sq_nonneg p, mul_nonneg (sq_nonneg p) (sub_nonneg.mpr c)]
    · nlinarith [pow_pos hp 3, mul_nonneg (sub_nonneg.mpr c) (by linarith : 0 ≤ p + 2 / 3)]
  · exact h ▸ hp
  · subst h
    have : 0.70 * (1 / p ^ 2) + 0.78 * p - 0.47 = (0.70 + 0.78 * p ^ 3 - 0.47 * p ^ 2) / p ^ 2 := by field_simp
    rw [this]
    apply div_pos _ (by positivity)
    rcases le_total (2 / 3) p with c | c
    · nlinarith [sq_nonneg p, mul_nonneg (sq_nonneg p) (sub_nonneg.mpr c)]
    · nlinarith [pow_pos hp 3, mul_nonneg (sub_nonneg.mpr c) (by linarith : 0 ≤ p + 2 / 3)]

theorem zrLoopRate_pos (c o : Cl ZrKind) (p : ℝ) (t : ℕ) (d : ℝ) (hc : 0 < c.radius) (ho : 0 < o.radius) (hI : 0 ≤ c.rdI) (hV : 0 ≤ c.rdV)
    (hp : 0 < p) (hd : 0 < d) : ∃ x, zrLoopRate c o p t d = some x ∧ 0 < x := by
  have hpi := pi_pos
  have hrd : 0 ≤ zrRd c o := by unfold zrRd; split_ifs <;> assumption
  have hs : 0 < o.radius + zrRd c o := by linarith
  obtain ⟨pl, hpl⟩ : ∃ pl, zrEfficiency c.kind p = some pl := by
    cases c.kind <;> simp [zrEfficiency, hp.ne']
  have hpp := efficiency_pos _ _ _ hp hpl
  have hlog : 0 < log (1 + 8 * c.radius / (o.radius + zrRd c o)) := log_pos (by linarith [show 0 < 8 * c.radius / (o.radius + zrRd c o) by positivity])
  simp only [zrLoopRate, if_neg (not_or.mpr ⟨not_le.mpr hs, not_le.mpr hc⟩), hpl, Option.map_some]
  refine ⟨_, rfl, mul_pos ?_ hd⟩
  have hsph : 0 < 4 * π * (c.radius + o.radius + zrRd c o) := by
    have : 0 < c.radius + o.radius + zrRd c o := by linarith
    positivity
  have htor : 0 < 4 * π * π * c.radius / log (1 + 8 * c.radius / (o.radius + zrRd c o)) := by positivity
  split_ifs
  · linarith
  · have ha : 0 < (1 + (c.radius / (3 * (o.radius + zrRd c o))) ^ 2)⁻¹ := by positivity
    have ha1 : (1 + (c.radius / (3 * (o.radius + zrRd c o))) ^ 2)⁻¹ ≤ 1 := inv_le_one_of_one_le₀ (by linarith [sq_nonneg (c.radius / (3 * (o.radius + zrRd c o)))])
    have h1 := mul_nonneg (mul_nonneg (sub_nonneg.mpr ha1) htor.le) hpp.le
    have h2 := mul_pos ha hsph
    linarith

/-- **C58, zirconium, finite and positive.** When the radii are positive and the mobile cluster has a positive anisotropy ratio, the rate of a pair with a mobile cluster is a positive number. -/
theorem zr_pos (c0 c1 : Cl ZrKind) (t : ℕ) (h0 : 0 < c0.radius) (h1 : 0 < c1.radius) (r0 : 0 ≤ c0.rdI ∧ 0 ≤ c0.rdV) (r1 : 0 ≤ c1.rdI ∧ 0 ≤ c1.rdV)
    (d0 : 0 ≤ c0.dc) (d1 : 0 ≤ c1.dc) (a0 : c0.dc > 0 → 0 < c0.aniso) (a1 : c1.dc > 0 → 0 < c1.aniso) (hm : c0.dc > 0 ∨ c1.dc > 0) :
    ∃ x, zrRate c0 c1 (zrP c0 c1) t = some x ∧ 0 < x := by
  have hd : 0 < c0.dc + c1.dc := by rcases hm with m | m <;> linarith
  have hp : 0 < zrP c0 c1 := by
    unfold zrP
    split_ifs with a b
    · exact a0 a
    · exact a1 b
    · exact absurd hm (by simp [a, b])
  unfold zrRate
  split_ifs with a b
  · exact zrLoopRate_pos c0 c1 _ t _ h0 h1 r0.1 r0.2 hp hd
  · exact zrLoopRate_pos c1 c0 _ t _ h1 h0 r1.1 r1.2 hp hd
  · refine ⟨_, rfl, mul_pos ?_ hd⟩
    have := pi_pos
    have : 0 < c0.radius + c1.radius + zrCore := by unfold zrCore; linarith [show (0 : ℝ) < 0.645 by norm_num]
    positivity

/-- Without a mobile cluster the anisotropy is zero and the rate of an interstitial or vacancy loop is not a number. -/
theorem zr_immobile_undefined (c0 c1 : Cl ZrKind) (t : ℕ) (h0 : c0.dc ≤ 0) (h1 : c1.dc ≤ 0) (hl : ZrLoop c0) (hk : c0.kind ≠ .basal) :
    zrRate c0 c1 (zrP c0 c1) t = none := by
  have hp : zrP c0 c1 = 0 := by simp [zrP, not_lt.mpr h0, not_lt.mpr h1]
  have he : zrEfficiency c0.kind (zrP c0 c1) = none := by
    rcases hk' : c0.kind with _ | _ | _
    · simp [zrEfficiency, hp]
    · exact absurd hk' hk
    · simp [zrEfficiency, hp]
  rw [zrRate, if_pos hl]
  simp only [zrLoopRate, he, Option.map_none, ite_self]

/-! ## A dissociation and the production it reverses -/

/-- **C58, reverse rate.** For tungsten and iron: the rate of `k → i + j` is the rate of the production of `i` and `j`, in either order, times `exp(-E_b / k_B T)` over the atomic volume. -/
theorem sphere_reverse {κ : Type} (cl : ℕ → Cl κ) (omega T eb : ℝ) (i j k : ℕ) :
    kMinus omega T (sphereCapture cl k i j) eb = sphereProduction cl i j * exp (-eb / (kB * T)) / omega ∧
    kMinus omega T (sphereCapture cl k i j) eb = sphereProduction cl j i * exp (-eb / (kB * T)) / omega := by
  have : sphereProduction cl j i = sphereProduction cl i j := sphere_symm ..
  rw [this]
  simp only [kMinus, sphereCapture, sphereProduction, and_self]
  ring

/-- **C58, reverse rate, alloy.** The halved rates included. -/
theorem alloy_reverse (cl : ℕ → Cl AlloyKind) (omega T eb : ℝ) (i j k : ℕ) :
    kMinus omega T (alloyCapture cl k i j) eb = alloyProduction cl i j k * exp (-eb / (kB * T)) / omega ∧
    kMinus omega T (alloyCapture cl k i j) eb = alloyProduction cl j i k * exp (-eb / (kB * T)) / omega := by
  have e : alloyProduction cl j i k = alloyProduction cl i j k := by
    unfold alloyProduction
    rw [alloy_symm (cl j).kind (cl i).kind]
    simp only [and_left_comm (a := (cl j).kind = _)]
  have c : alloyCapture cl k i j = alloyProduction cl i j k := rfl
  rw [e, c]
  simp only [kMinus, and_self]
  ring

/-- **C58, reverse rate, zirconium.** For the order of the generator; with a mobile cluster in the pair in either order. -/
theorem zr_reverse (cl : ℕ → Cl ZrKind) (t : ℕ) (omega T eb : ℝ) (i j k : ℕ)
    (hi : (cl i).dc > 0 → zrDiffusionFactor (cl i).kind (cl i).size ≠ 0)
    (hj : (cl j).dc > 0 → zrDiffusionFactor (cl j).kind (cl j).size ≠ 0) (hm : (cl i).dc > 0 ∨ (cl j).dc > 0) :
    (zrCapture cl t k i j).map (kMinus omega T · eb) = (zrProduction cl t i j).map (fun x => x * exp (-eb / (kB * T)) / omega) ∧
    (zrCapture cl t k i j).map (kMinus omega T · eb) = (zrProduction cl t j i).map (fun x => x * exp (-eb / (kB * T)) / omega) := by
  have e : zrProduction cl t j i = zrProduction cl t i j := (zr_pair_symm _ _ t hi hj hm).symm
  have c : zrCapture cl t k i j = zrProduction cl t i j := rfl
  have f : (fun x => kMinus omega T x eb) = fun x => x * exp (-eb / (kB * T)) / omega := by
    funext x; simp only [kMinus]; ring
  rw [e, c, f]
  exact ⟨rfl, rfl⟩

/-- **C58, detailed balance.** Whatever the capture rate, the forward and the reverse reaction cancel exactly when the concentrations satisfy the law of mass action for the binding energy. -/
theorem mass_action (omega T eb kPlus ca cb ck : ℝ) (hk : 0 < kPlus) :
    kPlus * ca * cb = kMinus omega T kPlus eb * ck ↔ ca * cb = ck * exp (-eb / (kB * T)) / omega := by
  have e : kMinus omega T kPlus eb * ck = kPlus * (ck * exp (-eb / (kB * T)) / omega) := by simp only [kMinus]; ring
  rw [e, mul_assoc]
  exact mul_right_inj' hk.ne'

theorem kB_pos : 0 < kB := by unfold kB; norm_num

/-- **C58, order of the binding energies.** A more strongly bound cluster dissociates more slowly. -/
theorem kMinus_anti (omega T kPlus e1 e2 : ℝ) (ho : 0 < omega) (hT : 0 < T) (hk : 0 < kPlus) (h : e1 < e2) :
    kMinus omega T kPlus e2 < kMinus omega T kPlus e1 := by
  unfold kMinus
  have := kB_pos
  have hx : -e2 / (kB * T) < -e1 / (kB * T) := div_lt_div_of_pos_right (by linarith) (by positivity)
  exact mul_lt_mul_of_pos_left (exp_lt_exp.mpr hx) (by positivity)

/-- **C58, order of the temperatures.** A bound cluster (positive binding energy) dissociates faster when it is hotter, at the same capture rate. -/
theorem kMinus_mono (omega T1 T2 kPlus eb : ℝ) (ho : 0 < omega) (hT : 0 < T1) (h : T1 < T2) (hk : 0 < kPlus) (he : 0 < eb) :
    kMinus omega T1 kPlus eb < kMinus omega T2 kPlus eb := by
  unfold kMinus
  have := kB_pos
  have hx : -eb / (kB * T1) < -eb / (kB * T2) := by
    rw [neg_div, neg_div, neg_lt_neg_iff]
    exact div_lt_div_of_pos_left he (by positivity) (by nlinarith)
  exact mul_lt_mul_of_pos_left (exp_lt_exp.mpr hx) (by positivity)

/-- **C58, alloy binding energies** lie between 0.1 and 5, so a dissociation is slower than the capture rate over the atomic volume. -/
theorem alloyBinding_bounds (k p1 p2 : AlloyKind) (n : ℝ) : 0.1 ≤ alloyBinding k p1 p2 n ∧ alloyBinding k p1 p2 n ≤ 5 :=
  ⟨le_min (by norm_num) (le_max_right _ _), min_le_left _ _⟩

theorem alloy_slower (k p1 p2 : AlloyKind) (n omega T kPlus : ℝ) (ho : 0 < omega) (hT : 0 < T) (hk : 0 < kPlus) :
    kMinus omega T kPlus (alloyBinding k p1 p2 n) < kPlus / omega := by
  have h := kMinus_anti omega T kPlus 0 (alloyBinding k p1 p2 n) ho hT hk (by linarith [(alloyBinding_bounds k p1 p2 n).1, show (0 : ℝ) < 0.1 by norm_num])
  have e : kMinus omega T kPlus 0 = kPlus / omega := by simp [kMinus]; ring
  rwa [e] at h

/-- The increments of the power 2/3 decrease. -/
theorem increments (n m : ℝ) (hn : 1 ≤ n) (h : n ≤ m) : m ^ (2 / 3 : ℝ) - (m - 1) ^ (2 / 3 : ℝ) ≤ n ^ (2 / 3 : ℝ) - (n - 1) ^ (2 / 3 : ℝ) := by
  rcases eq_or_lt_of_le h with rfl | h
  · exact le_rfl
  have hc : ConcaveOn ℝ (Set.Ici 0) fun x : ℝ => x ^ (2 / 3 : ℝ) := Real.concaveOn_rpow (by norm_num) (by norm_num)
  -- both `n` and `m - 1` lie between `n - 1` and `m`
  have key : ∀ x : ℝ, n - 1 ≤ x → x ≤ m → ((m - x) / (m - (n - 1))) * (n - 1) ^ (2 / 3 : ℝ) + ((x - (n - 1)) / (m - (n - 1))) * m ^ (2 / 3 : ℝ) ≤ x ^ (2 / 3 : ℝ) := by
    intro x h1 h2
    have hpos : 0 < m - (n - 1) := by linarith
    have := hc.2 (show n - 1 ∈ Set.Ici (0 : ℝ) from by simp; linarith) (show m ∈ Set.Ici (0 : ℝ) from by simp; linarith)
      (div_nonneg (sub_nonneg.mpr h2) hpos.le) (div_nonneg (sub_nonneg.mpr h1) hpos.le) (by field_simp; ring)
    simp only [smul_eq_mul] at this
    have e : (m - x) / (m - (n - 1)) * (n - 1) + (x - (n - 1)) / (m - (n - 1)) * m = x := by field_simp; ring
    rwa [e] at this
  have a := key n (by linarith) (by linarith)
  have b := key (m - 1) (by linarith) (by linarith)
  have hpos : m - (n - 1) ≠ 0 := by intro hz; linarith
  have s : (m - n) / (m - (n - 1)) + (m - (m - 1)) / (m - (n - 1)) = 1 := by field_simp; ring
  have s' : (n - (n - 1)) / (m - (n - 1)) + (m - 1 - (n - 1)) / (m - (n - 1)) = 1 := by field_simp; ring
  linear_combination a + b - (n - 1) ^ (2 / 3 : ℝ) * s - m ^ (2 / 3 : ℝ) * s'

/-- **C58, alloy binding energies** of vacancies, voids and faulted loops do not decrease with the size of the cluster. -/
theorem alloyBinding_mono (k p1 p2 : AlloyKind) (n m : ℝ) (hn : 1 ≤ n) (h : n ≤ m) : alloyBinding k p1 p2 n ≤ alloyBinding k p1 p2 m := by
  have fit : ∀ a : ℝ, 0 ≤ a → alloyFit a n ≤ alloyFit a m := by
    intro a ha
    unfold alloyFit
    have := mul_le_mul_of_nonneg_left (increments n m hn h) ha
    linarith
  unfold alloyBinding
  refine min_le_min le_rfl (max_le_max ?_ le_rfl)
  cases k <;> dsimp only <;> (try split_ifs) <;> first | exact le_rfl | exact fit _ (by norm_num)

/-- **C58, zirconium sinks.** For every cluster the generator gives a sink (mobile, with a positive anisotropy ratio) the sink rate is a positive number proportional to the diffusion coefficient. -/
theorem zrSink_pos (c : Cl ZrKind) (hm : zrDiffusionFactor c.kind c.size ≠ 0) (ha : 0 < c.aniso) :
    ∃ s, 0 < s ∧ (∀ d, zrSink { c with dc := d } = some (d * s)) ∧ zrSink c = some (c.dc * s) := by
  have hn := zr_mobile_small _ _ hm
  have hs : 0 < 2.25e-8 * c.aniso + 7.25e-8 / (c.aniso * c.aniso) := by positivity
  rcases hk : c.kind with _ | _ | _
  · refine ⟨_, hs, fun d => ?_, ?_⟩ <;> simp [zrSink, hk, ha.ne']
  · exact absurd (by simp [zrDiffusionFactor, hk]) hm
  · refine ⟨1.1 * (2.25e-8 * c.aniso + 7.25e-8 / (c.aniso * c.aniso)), by positivity, fun d => ?_, ?_⟩ <;>
      simp [zrSink, hk, ha.ne', show c.size < 9 by omega, mul_assoc]

/-! ## Examples -/

example : 0 < alloyRate .i .perfect 0.2 1.5 3 0 := alloy_pos _ _ _ _ _ _ (by norm_num) (by norm_num) (by norm_num)

example : alloyProduction (fun n => if n = 0 then ⟨.i, 1, 0.2, 3, 0, 0, 0⟩ else ⟨.frank, 2, 0.4, 0, 0, 0, 0⟩) 0 0 1 =
    alloyZs 0.2 0.2 * (3 + 3) * 0.5 := by
  simp [alloyProduction, alloyRate, AlloyKind.sphere]

example : ∃ x, zrRate ⟨.v, 2, 0.2, 5, 1.1, 0.3, 0.2⟩ ⟨.i, 40, 1, 0, 0, 0.9, 0.8⟩ (zrP ⟨.v, 2, 0.2, 5, 1.1, 0.3, 0.2⟩ ⟨.i, 40, 1, 0, 0, 0.9, 0.8⟩) 325 = some x ∧ 0 < x :=
  zr_pos _ _ _ (by norm_num) (by norm_num) (by norm_num) (by norm_num) (by norm_num) (by norm_num) (by norm_num) (by norm_num) (by norm_num)

example : kMinus 0.01 600 2 1.5 < kMinus 0.01 900 2 1.5 := kMinus_mono _ _ _ _ _ (by norm_num) (by norm_num) (by norm_num) (by norm_num) (by norm_num)

end Xolotl.Network.Rates
