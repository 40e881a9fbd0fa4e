import Verif.Network.Fuel
import Verif.Network.AssembleProps
import Mathlib.Analysis.Calculus.Deriv.Pow
import Mathlib.Analysis.Calculus.Deriv.Inv
import Mathlib.Analysis.Calculus.Deriv.Mul
import Mathlib.Analysis.Calculus.Deriv.Comp
import Mathlib.Analysis.Calculus.Deriv.Add

/-!
# C76: the reactions of the fuel network
-/

set_option linter.unusedSectionVars false

namespace Xolotl.Network.Fuel

open Xolotl.Network Xolotl.Network.Dispatch Xolotl.Network.Products Xolotl.Network.Reflect

section
variable {K : Type*} [Field K] [LinearOrder K] [IsStrictOrderedRing K]

/-- Two clusters that leave nothing are single ones with opposite contents. -/
theorem annihilate_weight {σ : Type} [DecidableEq σ] {sp : List σ} {N : Net σ sp} {mom : ℕ → Fin (sp.length + 1) → Option ℕ} (h : Ready N mom) {a b : ℕ} (ha : a < N.n) (hb : b < N.n)
    (hB : Balance sp (N.cl a) (N.cl b) dummy dummy) (k : Fin (sp.length + 1)) :
    simplex sp (N.cl a) ∧ simplex sp (N.cl b) ∧ (weight (boxes N mom) k a : K) + weight (boxes N mom) k b = 0 := by
  obtain ⟨x1, v1, i1, x2, v2, i2, x3, v3, i3, x4, v4, i4, m1, m2, m3, m4, hx, hv⟩ := hB
  obtain ⟨g3, v3z, i3z⟩ := dummy_mem.mp m3
  obtain ⟨g4, v4z, i4z⟩ := dummy_mem.mp m4
  have key : ∀ l ∈ sp, x1 l + x2 l = 0 := fun l hl => by
    have := hx l hl
    rw [g3 l hl, g4 l hl] at this
    omega
  have z1 : ∀ l ∈ sp, ((N.cl a).g l).b = 0 ∧ ((N.cl b).g l).b = 0 := fun l hl => by
    have := key l hl
    have := mem_pts.mp (m1.1 l hl)
    have := mem_pts.mp (m2.1 l hl)
    have := h.gnonneg ha l hl
    have := h.gnonneg hb l hl
    omega
  have s1 := h.pure ha fun l hl => (z1 l hl).1.le
  have s2 := h.pure hb fun l hl => (z1 l hl).2.le
  refine ⟨s1, s2, ?_⟩
  rw [h.weight ha s1, h.weight hb s2]
  refine Fin.lastCases ?_ (fun j => ?_) k
  · have a1 := mem_pts.mp m1.2.1
    have a2 := mem_pts.mp m1.2.2
    have b1 := mem_pts.mp m2.2.1
    have b2 := mem_pts.mp m2.2.2
    have c1 := s1.1
    have c2 := s1.2.1
    have d1 := s2.1
    have d2 := s2.2.1
    simp only [refl_last, one_V, Bool.false_eq_true, if_false]
    rw [← Int.cast_add]
    norm_cast
    omega
  · simp only [refl_cast]
    rw [(z1 _ (List.get_mem sp j)).1, (z1 _ (List.get_mem sp j)).2]
    simp

/-- **C76** The fuel network with its own reactions: the amount of xenon does not change, and vacancies less interstitials change exactly by what is exchanged with the sinks, whatever the rates, sources,
equilibrium concentrations, concentrations and the schedule of the updates. -/
theorem network_content_partial (N : Net Unit [()]) {mom : ℕ → Fin 2 → Option ℕ} (h : Ready N mom) {i0 : Fin 2} (hO : OneAxis N i0) (R : Rates K) (mob : ℕ → Bool) (M : Network 2 K) (hM : M.rxns = neRxns N mom R mob)
    (E : Extra K) (c : ℕ → K) (depth spacing : K) {l : List (ℕ × K)} (hl : Interleaves (threads M E c depth spacing) l) :
    totalContent (boxes N mom) 0 (netOf l) = 0 ∧
    totalContent (boxes N mom) 1 (netOf l) = ∑ k ∈ Finset.range N.n,
      if mob k = true ∧ simplex [()] (N.cl k) ∧ (onI [()] (N.cl k) ∨ (onV [()] (N.cl k) ∧ (N.cl k).v.b ≤ 2)) then (((N.cl k).v.b : K) - (N.cl k).i.b) * (R.sink k * (E.eq k - c k)) else 0 := by
  have hN := h.layS
  have key : ∀ k : Fin 2, totalContent (boxes N mom) k (netOf l) =
      ∑ i ∈ Finset.range N.n, (neSinks (mob i) (N.cl i) : K) * (((refl [()] false (N.cl i) k).b : K) * (R.sink i * (E.eq i - c i))) := by
    intro k
    rw [totalContent_netOf _ h.wf]
    have hperm : wsum (weight (boxes N mom) k) l = wsum (weight (boxes N mom) k) (threads M E c depth spacing).flatten := (hl.perm.map _).sum_eq
    rw [hperm, wsum_flatten, threads, hM]
    generalize M.preProcess c depth spacing = t
    rw [List.map_map, neRxns]
    refine (rxns_sum N mom R _ _ _ (wsum (weight (boxes N mom) k) ∘ flux E t c) ?_ ?_ ?_).trans ?_
    rotate_left 3
    · refine Finset.sum_congr rfl fun i hi => ?_
      by_cases h0 : neSinks (mob i) (N.cl i) = 0
      · simp [h0]
      · simp only [Function.comp, flux, wsum_cons, wsum_nil, h.weight (Finset.mem_range.mp hi) (ne_sinks_simplex N h0), add_zero]
    · intro i j hi hj q hq
      obtain ⟨h1, h2, h3, h4, h5⟩ := ne_prods_sound N hN hi hj hq
      simp only [Function.comp, flux]
      rw [wsum_append, prod_conserves h hO _ hi hj q h1 h2 h3 h4 h5 k c, add_zero, source]
      split_ifs with hn
      · obtain ⟨q1, q2⟩ := q
        obtain ⟨e1, e2⟩ : q1 = none ∧ q2 = none := hn
        subst e1 e2
        obtain ⟨s1, s2, hw⟩ := annihilate_weight (K := K) h hi hj h5 k
        have e3 : (N.mkProd mom (R.prod i j (none, none)) i j (none, none)).vol .r1 = 1 := volume_simplex s1
        have e4 : (N.mkProd mom (R.prod i j (none, none)) i j (none, none)).vol .r2 = 1 := volume_simplex s2
        simp only [wsum_cons, wsum_nil, e3, e4, div_one, add_zero]
        change weight (boxes N mom) k i * _ + weight (boxes N mom) k j * _ = 0
        rw [← add_mul, hw, zero_mul]
      · rfl
    · intro i j hi hj k' hk'
      obtain ⟨h1, h2⟩ := ne_diss_sound N hN hi hj hk'
      exact diss_conserves h _ h1 hi hj h2 k c
    · intro i j hi hj k' hk'
      obtain ⟨h1, h2⟩ := ne_reso_sound N hN hi hj hk'
      exact diss_conserves h _ h1 hi hj h2 k c
  constructor
  · refine (key (Fin.castSucc 0)).trans (Finset.sum_eq_zero fun i hi => ?_)
    rw [ne_sinks]
    split_ifs with hc
    · have : ((N.cl i).g ()).b = 0 := by
        rcases hc.2.2 with a | a
        · exact a.2.2 () (by simp)
        · exact a.1.2.2 () (by simp)
      simp only [refl_cast]
      simp [this]
    · simp
  · refine (key (Fin.last _)).trans (Finset.sum_congr rfl fun i hi => ?_)
    have hi1 := h.isingle (Finset.mem_range.mp hi)
    rw [ne_sinks]
    split_ifs with hc
    · have e : refl [()] false (N.cl i) (Fin.last _) = one_V (N.cl i).v (N.cl i).i := refl_last _ _
      rw [show ((refl [()] false (N.cl i) (Fin.last 1)).b : K) = ((one_V (N.cl i).v (N.cl i).i).b : K) from by rw [← e]; rfl]
      simp only [one_V, hi1]
      push_cast
      ring
    · simp

/-- **C76** The sources and equilibrium concentrations do not depend on the concentrations: two states differ in their fluxes by what the base classes compute, so that the derivatives are those of the base
classes. -/
theorem flux_difference {d : ℕ} (M : Network d K) (E : Extra K) (c c' : ℕ → K) (depth spacing : K) (k : ℕ) :
    netOf (threads M E c depth spacing).flatten k - netOf (threads M E c' depth spacing).flatten k =
      netOf (M.fluxThreads c depth spacing).flatten k - netOf (M.fluxThreads c' depth spacing).flatten k := by
  unfold threads Network.fluxThreads
  generalize M.preProcess c depth spacing = t
  generalize M.preProcess c' depth spacing = t'
  induction M.rxns with
  | nil => rfl
  | cons r L ih =>
    simp only [List.map_cons, List.flatten_cons, netOf_append]
    have : netOf (flux E t c r) k - netOf (flux E t' c' r) k = netOf (r.flux t c) k - netOf (r.flux t' c') k := by
      cases r with
      | prod r => simp only [flux, Rxn.flux, netOf_append]; ring
      | sink r =>
        simp only [flux, Rxn.flux, SinkRxn.computeFlux, netOf_cons, netOf_nil]
        split_ifs <;> ring
      | _ => rfl
    linear_combination this + ih

/-! ### Binding energies -/

/-- **C76** The energy is within its limits. -/
theorem binding_range (E : Energies K) (c p1 p2 : Clu Unit) : -1 ≤ binding E c p1 p2 ∧ binding E c p1 p2 ≤ 5 := by
  unfold binding
  simp only
  split_ifs
  · constructor <;> norm_num
  · exact ⟨le_min (by norm_num) (le_max_right _ _), min_le_left _ _⟩

/-- **C76** The order of the products does not matter. -/
theorem binding_comm (E : Energies K) (c p1 p2 : Clu Unit) : binding E c p1 p2 = binding E c p2 p1 := by
  unfold binding
  simp only
  refine if_congr Iff.rfl rfl ?_
  congr 2
  unfold rawBinding
  simp only [or_comm (a := onV [()] p1), or_comm (a := onI [()] p1), or_comm (a := onG [()] () p1)]
  by_cases h1 : onV [()] p1 ∧ p1.v.b = 2 <;> by_cases h2 : onV [()] p2 ∧ p2.v.b = 2 <;> simp [h1, h2]

/-- **C76** Without vacancies the energy is 5. -/
theorem binding_noV (E : Energies K) (c p1 p2 : Clu Unit) (h : c.v = ⟨0, 1⟩) : binding E c p1 p2 = 5 := by
  unfold binding
  simp [h]

end

/-- The energy of a bubble of `v` vacancies with `xe` xenon atoms that the derivatives belong to: `v` times a polynomial of the ratio, without constant and linear term. -/
noncomputable def bubble (xe v : ℝ) : ℝ := v * ∑ i ∈ Finset.range 8, fitParams.getD (7 - i) 0 * (xe / v) ^ (i + 2)

theorem phi_deriv (x : ℝ) : HasDerivAt (fun x : ℝ => ∑ i ∈ Finset.range 8, (fitParams : List ℝ).getD (7 - i) 0 * x ^ (i + 2)) (-xeLoop x) x := by
  have h := HasDerivAt.fun_sum (u := Finset.range 8) (A := fun i (x : ℝ) => (fitParams : List ℝ).getD (7 - i) 0 * x ^ (i + 2)) (A' := fun i => (fitParams : List ℝ).getD (7 - i) 0 * (((i + 2 : ℕ) : ℝ) * x ^ (i + 2 - 1))) (x := x)
    fun i _ => (hasDerivAt_pow (i + 2) x).const_mul _
  refine h.congr_deriv ?_
  simp only [xeLoop, List.range, List.range.loop, List.foldl, Finset.sum_range_succ, Finset.sum_range_zero]
  generalize (fitParams : List ℝ) = l
  push_cast
  ring

/-- **C76** A xenon atom is bound by its formation energy less the derivative of the energy of the bubble by its xenon content. -/
theorem xenon_derivative (xe v : ℝ) (hv : v ≠ 0) : HasDerivAt (fun y => bubble y v) (-xeLoop (xe / v)) xe := by
  have h1 := (phi_deriv (xe / v)).comp xe ((hasDerivAt_id xe).div_const v)
  have h2 := h1.const_mul v
  unfold bubble
  refine h2.congr_deriv ?_
  field_simp

/-- **C76** A vacancy is bound by its formation energy less the derivative by the number of vacancies, an interstitial by its own plus it. -/
theorem vacancy_derivative (xe v : ℝ) (hv : v ≠ 0) : HasDerivAt (fun w => bubble xe w) (-vacLoop (xe / v)) v ∧ intLoop (xe / v) = -vacLoop (xe / v) := by
  constructor
  · have h0 : HasDerivAt (fun w : ℝ => xe / w) (-(xe / v ^ 2)) v := by
      have := (hasDerivAt_inv hv).const_mul xe
      simp only [div_eq_mul_inv]
      refine this.congr_deriv ?_
      ring
    have h1 := (phi_deriv (xe / v)).comp v h0
    have h2 := (hasDerivAt_id v).mul h1
    unfold bubble
    refine h2.congr_deriv ?_
    have e : ∀ x : ℝ, vacLoop x = -(∑ i ∈ Finset.range 8, (fitParams : List ℝ).getD (7 - i) 0 * x ^ (i + 2)) - x * xeLoop x := by
      intro x
      simp only [vacLoop, xeLoop, List.range, List.range.loop, List.foldl, Finset.sum_range_succ, Finset.sum_range_zero]
      generalize (fitParams : List ℝ) = l
      push_cast
      ring
    rw [e]
    simp only [id, Function.comp]
    field_simp
    ring
  · simp only [vacLoop, intLoop, List.range, List.range.loop, List.foldl]
    ring

/-- **C76** The energies in terms of the energy of the bubble: a vacancy leaves with its formation energy less what the bubble gains with one more, a pair with twice that, an interstitial with the opposite sign, a xenon
atom likewise. Xenon takes precedence. -/
theorem binding_derivative (E : Energies ℝ) (xe v : ℝ) (hv : v ≠ 0) (p1 p2 : Clu Unit) :
    ((onG [()] () p1 ∨ onG [()] () p2) → rawBinding E xe v p1 p2 = E.xe - deriv (fun y => bubble y v) xe) ∧
    (¬ (onG [()] () p1 ∨ onG [()] () p2) → (onI [()] p1 ∨ onI [()] p2) → rawBinding E xe v p1 p2 = E.i + deriv (fun w => bubble xe w) v) ∧
    (¬ (onG [()] () p1 ∨ onG [()] () p2) → ¬ (onI [()] p1 ∨ onI [()] p2) → (onV [()] p1 ∨ onV [()] p2) →
      rawBinding E xe v p1 p2 = if (onV [()] p1 ∧ p1.v.b = 2) ∨ (onV [()] p2 ∧ p2.v.b = 2) then E.v2 - 2 * deriv (fun w => bubble xe w) v else E.v - deriv (fun w => bubble xe w) v) := by
  have d1 := (xenon_derivative xe v hv).deriv
  have d2 := (vacancy_derivative xe v hv).1.deriv
  have d3 := (vacancy_derivative xe v hv).2
  rw [d1, d2]
  unfold rawBinding
  refine ⟨fun h => ?_, fun h h' => ?_, fun h h' h'' => ?_⟩
  · simp only [if_pos h]
    ring
  · simp only [if_neg h, if_pos h', d3]
    ring
  · simp only [if_neg h, if_neg h', if_pos h'']
    by_cases h1 : onV [()] p1 ∧ p1.v.b = 2
    · rw [if_pos h1, if_pos (.inl h1)]; ring
    · by_cases h2 : onV [()] p2 ∧ p2.v.b = 2
      · rw [if_neg h1, if_pos h2, if_pos (.inr h2)]; ring
      · rw [if_neg h1, if_neg h2, if_neg (by tauto)]; ring

/-- **C76** Within the limits, what a cluster pays for a vacancy and for an interstitial adds up to the energy of the pair, whatever its xenon content. -/
theorem pair_sum {K : Type*} [Field K] [LinearOrder K] [IsStrictOrderedRing K] (E : Energies K) (xe v : K) {p1 p2 q1 q2 : Clu Unit} (hp : onV [()] p1 ∧ p1.v.b = 1) (hp2 : ¬ onV [()] p2 ∧ ¬ onI [()] p2 ∧ ¬ onG [()] () p2)
    (hpi : ¬ onI [()] p1 ∧ ¬ onG [()] () p1) (hq : onI [()] q1) (hq2 : ¬ onG [()] () q1 ∧ ¬ onG [()] () q2) :
    rawBinding E xe v p1 p2 + rawBinding E xe v q1 q2 = E.v + E.i := by
  have d3 : ∀ x : K, intLoop x = -vacLoop x := fun x => by
    simp only [vacLoop, intLoop, List.range, List.range.loop, List.foldl]
    ring
  unfold rawBinding
  simp [hp, hp2, hpi, hq, hq2, d3]
  ring

/-! ### Concrete cases -/

def fuelM : Network 2 ℚ := ⟨neRxns grNet grMom grRates fun _ => true, false, ⟨none, 0, 0, 0, fun _ => 0, fun _ => 0, fun _ => false⟩⟩

def fuelE : Extra ℚ := ⟨fun a b => a + b, fun k => 1 / (k + 1)⟩

/-- Xe_1, V_1, V_2, I_1, I_2, XeV_1, XeV_[2,5): xenon unchanged although its clusters change, lattice sites changed by the sinks only; the sources do contribute. -/
example : totalContent (boxes grNet grMom) 0 (netOf (threads fuelM fuelE grC 0 0).flatten) = 0 ∧
    totalContent (boxes grNet grMom) 1 (netOf (threads fuelM fuelE grC 0 0).flatten) = 2 * (1 / 2 - 2) + 2 * (3 * (1 / 3 - 3)) - 4 * (1 / 4 - 4) - 2 * (5 * (1 / 5 - 5)) ∧
    netOf (threads fuelM fuelE grC 0 0).flatten 0 ≠ 0 ∧ netOf (threads fuelM fuelE grC 0 0).flatten 1 ≠ netOf (threads fuelM ⟨fun _ _ => 0, fuelE.eq⟩ grC 0 0).flatten 1 := by
  decide +kernel

example {l : List (ℕ × ℚ)} (hl : Interleaves (threads fuelM fuelE grC 0 0) l) : totalContent (boxes grNet grMom) 0 (netOf l) = 0 :=
  (network_content_partial grNet grNet_ready grNet_oneAxis grRates (fun _ => true) fuelM rfl fuelE grC 0 0 hl).1

def fuelEn : Energies ℚ := ⟨10, 3, 5, 7⟩

/-- Two vacancies with one xenon atom: the energies of a vacancy and an interstitial are in range and add up; without vacancies the energy is 5. -/
example : 3 < binding fuelEn (cl1 (1, 2) (2, 3) (0, 1)) (cl1 (0, 1) (1, 2) (0, 1)) (cl1 (1, 2) (1, 2) (0, 1)) ∧ binding fuelEn (cl1 (1, 2) (2, 3) (0, 1)) (cl1 (0, 1) (1, 2) (0, 1)) (cl1 (1, 2) (1, 2) (0, 1)) < 4 ∧
    rawBinding fuelEn (1 / 2) 1 (cl1 (0, 1) (1, 2) (0, 1)) (cl1 (1, 2) (1, 2) (0, 1)) + rawBinding fuelEn (1 / 2) 1 (cl1 (0, 1) (0, 1) (1, 2)) (cl1 (1, 2) (3, 4) (0, 1)) = 13 ∧
    binding fuelEn (cl1 (0, 1) (0, 1) (3, 4)) (cl1 (0, 1) (0, 1) (1, 2)) (cl1 (0, 1) (0, 1) (2, 3)) = 5 := by
  decide +kernel

example : onV [()] (cl1 (0, 1) (1, 2) (0, 1)) ∧ (¬ onV [()] (cl1 (1, 2) (1, 2) (0, 1)) ∧ ¬ onI [()] (cl1 (1, 2) (1, 2) (0, 1)) ∧ ¬ onG [()] () (cl1 (1, 2) (1, 2) (0, 1))) ∧ onI [()] (cl1 (0, 1) (0, 1) (1, 2)) := by
  decide

end Xolotl.Network.Fuel
