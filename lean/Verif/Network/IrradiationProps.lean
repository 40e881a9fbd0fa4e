import Verif.Network.Irradiation
import Mathlib.Tactic.Linarith
import Mathlib.Tactic.NormNum
import Mathlib.Tactic.Positivity
import Mathlib.Tactic.SplitIfs
import Mathlib.Tactic.GCongr
import Mathlib.Tactic.Ring
import Mathlib.Tactic.Tauto

/-!
# Theorems about the rates of re-solution and nucleation and the sinks (property C105)
-/

namespace Xolotl.Network.Irradiation

open Real

/-- What the variables of a fit have in common. -/
structure Good (p : Fit) : Prop where
  a1 : 0 < p.a1
  y0 : p.a1 < p.y0
  b1 : 0 < p.b1
  b2 : 0 < p.b2
  c : 0 < p.c

lemma fit_good (zeta : ℝ) : Good (fit zeta) := by
  unfold fit; split_ifs <;> constructor <;> norm_num

lemma fraction_pos {p : Fit} (h : Good p) (r : ℝ) : 0 < fraction p r := by
  unfold fraction
  have h1 := h.a1
  have h2 : 0 < p.y0 - p.a1 := by linarith [h.y0]
  have h3 : 0 < 1 + p.c * r ^ 2 := by have := h.c; positivity
  positivity

/-- The rate of re-solution is positive when there is fission, at any radius and stopping power, and zero without. -/
theorem reSolution_pos (fission zeta r : ℝ) (hf : 0 < fission) : 0 < reSolution fission zeta r ∧ reSolution 0 zeta r = 0 := by
  constructor
  · exact mul_pos (fraction_pos (fit_good zeta) r) (by positivity)
  · simp [reSolution]

/-- It is proportional to the fission rate. -/
theorem reSolution_linear (s fission zeta r : ℝ) : reSolution (s * fission) zeta r = s * reSolution fission zeta r := by
  unfold reSolution; ring

lemma fraction_lt {p : Fit} (h : Good p) {r r' : ℝ} (h0 : 0 ≤ r) (hr : r < r') : fraction p r' < fraction p r := by
  have hb1 := h.b1
  have hb2 := h.b2
  have hc := h.c
  have hd : 0 < p.y0 - p.a1 := by linarith [h.y0]
  have hsq : r ^ 2 < r' ^ 2 := by nlinarith
  have e1 : exp (-p.b1 * r') < exp (-p.b1 * r) := exp_lt_exp.mpr (by nlinarith)
  have e2 : exp (-p.b2 * r' ^ 2) ≤ exp (-p.b2 * r ^ 2) := exp_le_exp.mpr (by nlinarith)
  have q : (p.y0 - p.a1) / (1 + p.c * r' ^ 2) ≤ (p.y0 - p.a1) / (1 + p.c * r ^ 2) := by
    apply div_le_div_of_nonneg_left hd.le (by positivity)
    nlinarith
  have m : (p.y0 - p.a1) / (1 + p.c * r' ^ 2) * exp (-p.b2 * r' ^ 2) ≤ (p.y0 - p.a1) / (1 + p.c * r ^ 2) * exp (-p.b2 * r ^ 2) :=
    mul_le_mul q e2 (exp_pos _).le (by positivity)
  have n : p.a1 * exp (-p.b1 * r') < p.a1 * exp (-p.b1 * r) := mul_lt_mul_of_pos_left e1 h.a1
  unfold fraction
  have : (0 : ℝ) < 1.0e-4 := by norm_num
  exact mul_lt_mul_of_pos_right (by linarith) this

/-- A larger bubble loses atoms more slowly: the rate falls strictly with the radius. -/
theorem reSolution_radius (fission zeta r r' : ℝ) (hf : 0 < fission) (h0 : 0 ≤ r) (hr : r < r') :
    reSolution fission zeta r' < reSolution fission zeta r :=
  mul_lt_mul_of_pos_right (fraction_lt (fit_good zeta) h0 hr) (by positivity)

lemma fraction_le {p q : Fit} (hp : Good p) (hq : Good q) (ha : p.a1 ≤ q.a1) (hy : p.y0 - p.a1 ≤ q.y0 - q.a1) (hb1 : q.b1 ≤ p.b1)
    (hb2 : q.b2 ≤ p.b2) (hc : q.c ≤ p.c) {r : ℝ} (h0 : 0 ≤ r) : fraction p r ≤ fraction q r := by
  have hd : 0 < p.y0 - p.a1 := by linarith [hp.y0]
  have hsq : 0 ≤ r ^ 2 := by positivity
  have := hq.c
  have e1 : exp (-p.b1 * r) ≤ exp (-q.b1 * r) := exp_le_exp.mpr (by nlinarith)
  have e2 : exp (-p.b2 * r ^ 2) ≤ exp (-q.b2 * r ^ 2) := exp_le_exp.mpr (by nlinarith)
  have f : (p.y0 - p.a1) / (1 + p.c * r ^ 2) ≤ (q.y0 - q.a1) / (1 + q.c * r ^ 2) :=
    div_le_div₀ (by linarith) hy (by positivity) (by nlinarith)
  have m : (p.y0 - p.a1) / (1 + p.c * r ^ 2) * exp (-p.b2 * r ^ 2) ≤ (q.y0 - q.a1) / (1 + q.c * r ^ 2) * exp (-q.b2 * r ^ 2) :=
    mul_le_mul f e2 (exp_pos _).le (div_nonneg (by linarith) (by positivity))
  have n : p.a1 * exp (-p.b1 * r) ≤ q.a1 * exp (-q.b1 * r) := mul_le_mul ha e1 (exp_pos _).le hq.a1.le
  unfold fraction
  have : (0 : ℝ) ≤ 1.0e-4 := by norm_num
  exact mul_le_mul_of_nonneg_right (by linarith) this

/-- One fit is above another at all radii. -/
structure Below (p q : Fit) : Prop where
  a1 : p.a1 ≤ q.a1
  y0 : p.y0 - p.a1 ≤ q.y0 - q.a1
  b1 : q.b1 ≤ p.b1
  b2 : q.b2 ≤ p.b2
  c : q.c ≤ p.c

lemma Below.refl (p : Fit) : Below p p := ⟨le_rfl, le_rfl, le_rfl, le_rfl, le_rfl⟩

lemma Below.trans {p q s : Fit} (h : Below p q) (h' : Below q s) : Below p s :=
  ⟨h.a1.trans h'.a1, h.y0.trans h'.y0, h'.b1.trans h.b1, h'.b2.trans h.b2, h'.c.trans h.c⟩

/-- A choice of fits that grows and stays below `top`. -/
structure Grows (top : Fit) (f : ℝ → Fit) : Prop where
  mono : ∀ z z', z ≤ z' → Below (f z) (f z')
  top : ∀ z, Below (f z) top

lemma Grows.const (p : Fit) : Grows p fun _ => p := ⟨fun _ _ _ => .refl p, fun _ => .refl p⟩

lemma Grows.next {top hi : Fit} {f : ℝ → Fit} (h : Grows top f) (t : ℝ) (hb : Below top hi) : Grows hi fun z => if z > t then hi else f z := by
  constructor
  · intro z z' hz
    by_cases h1 : z > t
    · have h2 : z' > t := lt_of_lt_of_le h1 hz
      simp only [h1, h2, if_true]; exact .refl hi
    · by_cases h2 : z' > t
      · simp only [h1, h2, if_true, if_false]; exact (h.top z).trans hb
      · simp only [h1, h2, if_false]; exact h.mono z z' hz
  · intro z
    by_cases h1 : z > t
    · simp only [h1, if_true]; exact .refl hi
    · simp only [h1, if_false]; exact (h.top z).trans hb

lemma fit_below {z z' : ℝ} (h : z ≤ z') : Below (fit z) (fit z') := by
  have g := (((((((((Grows.const ⟨2.3061, 0.2786, 1.1008, 1.605, 150.6689⟩).next
    (hi := ⟨4.6175, 0.3433, 0.2284, 0.1276, 45.6624⟩) 0.52 (by constructor <;> norm_num)).next
    (hi := ⟨6.3925, 0.5025, 0.1411, 0.0727, 23.1967⟩) 0.57 (by constructor <;> norm_num)).next
    (hi := ⟨7.6984, 0.6721, 0.1028, 0.0526, 14.272⟩) 0.62 (by constructor <;> norm_num)).next
    (hi := ⟨8.6745, 0.8401, 0.0792, 0.0407, 9.6585⟩) 0.67 (by constructor <;> norm_num)).next
    (hi := ⟨9.1816, 0.949, 0.0703, 0.0371, 7.982⟩) 0.71 (by constructor <;> norm_num)).next
    (hi := ⟨10.1521, 1.1986, 0.0546, 0.0299, 5.4612⟩) 0.77 (by constructor <;> norm_num)).next
    (hi := ⟨10.6297, 1.3479, 0.0438, 0.0241, 4.2214⟩) 0.82 (by constructor <;> norm_num)).next
    (hi := ⟨11.0851, 1.5052, 0.0362, 0.0203, 3.4123⟩) 0.87 (by constructor <;> norm_num))
  exact g.mono z z' h

/-- A higher stopping power never makes it slower, at any radius: the nine fits lie above each other. -/
theorem reSolution_zeta (fission z z' r : ℝ) (hf : 0 ≤ fission) (h0 : 0 ≤ r) (h : z ≤ z') : reSolution fission z r ≤ reSolution fission z' r := by
  have b := fit_below h
  exact mul_le_mul_of_nonneg_right (fraction_le (fit_good z) (fit_good z') b.a1 b.y0 b.b1 b.b2 b.c h0) (by positivity)

/-- It is at most `1.10851e5` times the fission rate, which is what a cluster without radius has at the highest
stopping powers. -/
theorem reSolution_bound (fission zeta r : ℝ) (hf : 0 ≤ fission) (h0 : 0 ≤ r) :
    reSolution fission zeta r ≤ 110851 * fission ∧ (zeta > 0.87 → reSolution fission zeta 0 = 110851 * fission) := by
  have top : ∀ z : ℝ, z > 0.87 → reSolution fission z 0 = 110851 * fission := by
    intro z hz
    simp only [reSolution, fit, hz, if_true, fraction]
    norm_num
    ring
  refine ⟨?_, top zeta⟩
  have h1 : reSolution fission zeta r ≤ reSolution fission (max zeta 1) r := reSolution_zeta fission _ _ r hf h0 (le_max_left _ _)
  have h2 : reSolution fission (max zeta 1) r ≤ reSolution fission (max zeta 1) 0 := by
    rcases h0.eq_or_lt with h | h
    · rw [← h]
    · rcases hf.eq_or_lt with h' | h'
      · rw [← h']; simp [reSolution]
      · exact (reSolution_radius fission _ 0 r h' le_rfl h).le
  have h3 := top (max zeta 1) (lt_of_lt_of_le (by norm_num) (le_max_right _ _))
  linarith

/-- The stopping power counts only through its interval: the rate jumps between them. -/
theorem zeta_steps : (∀ fission r : ℝ, reSolution fission 0.73 r = reSolution fission 0.77 r) ∧
    reSolution 1 0.77 0 = 91816 ∧ reSolution 1 0.78 0 = 101521 := by
  refine ⟨fun fission r => ?_, ?_, ?_⟩
  · have a : fit 0.73 = fit 0.77 := by unfold fit; norm_num
    unfold reSolution; rw [a]
  · simp only [reSolution, fit, fraction]; norm_num
  · simp only [reSolution, fit, fraction]; norm_num

/-! ### Nucleation -/

/-- The fluxes of a nucleation reaction in two units of time, one of which is `s` of the other: when there is more xenon
than `2 * rate` in both, they are the same fluxes … -/
theorem nucleation_units (fission s : ℝ) (i j : ℕ) (c : ℕ → ℝ) (h1 : 2 * nucleation fission < c i) (h2 : 2 * nucleation (s * fission) < c i) :
    NucRxn.computeFlux ⟨i, j, nucleation (s * fission)⟩ c =
      (NucRxn.computeFlux ⟨i, j, nucleation fission⟩ c).map fun p => (p.1, s * p.2) := by
  simp only [NucRxn.computeFlux, gt_iff_lt]
  rw [if_pos h1, if_pos h2]
  simp only [List.map_cons, List.map_nil, nucleation, List.cons.injEq, Prod.mk.injEq, true_and, and_true]
  constructor <;> ring

example : 2 * nucleation 1 < (fun _ => 1000 : ℕ → ℝ) 0 ∧ 2 * nucleation (3 * 1) < (fun _ => 1000 : ℕ → ℝ) 0 := by
  constructor <;> norm_num [nucleation]

/-- … but below it the flux is the concentration itself, as though a second were the unit of nature: it does not
change with the unit of time, because a concentration is compared with a rate. -/
theorem nucleation_no_units (fission s : ℝ) (i j : ℕ) (c : ℕ → ℝ) (h1 : c i ≤ 2 * nucleation fission) (h2 : c i ≤ 2 * nucleation (s * fission)) :
    NucRxn.computeFlux ⟨i, j, nucleation (s * fission)⟩ c = NucRxn.computeFlux ⟨i, j, nucleation fission⟩ c := by
  simp only [NucRxn.computeFlux, not_lt.mpr h1, not_lt.mpr h2, if_false]

example : (fun _ => 1 : ℕ → ℝ) 0 ≤ 2 * nucleation 1 ∧ (fun _ => 1 : ℕ → ℝ) 0 ≤ 2 * nucleation (3600 * 1) := by
  constructor <;> norm_num [nucleation]

/-- Twenty-five bubbles for each of the two fragments, and no more xenon is taken than there would be lost in a
second. -/
theorem nucleation_bounds (fission : ℝ) (hf : 0 ≤ fission) (i j : ℕ) (c : ℕ → ℝ) (hc : 0 ≤ c i) :
    ∃ g, NucRxn.computeFlux ⟨i, j, nucleation fission⟩ c = [(i, -(2 * g)), (j, g)] ∧ 0 ≤ g ∧ g ≤ 2 * 25 * fission ∧ 2 * g ≤ c i := by
  by_cases h : c i > 2 * nucleation fission
  · refine ⟨nucleation fission, ?_, ?_, ?_, h.le⟩
    · simp [NucRxn.computeFlux, h]
    · unfold nucleation; positivity
    · unfold nucleation; linarith
  · refine ⟨c i / 2, ?_, by positivity, ?_, by linarith⟩
    · simp only [NucRxn.computeFlux, h, if_false]; ring_nf
    · have := not_lt.mp h
      unfold nucleation at this; linarith

/-! ### Sinks -/

/-- The sinks of both networks take, and those of the alloy take interstitials faster than vacancies that diffuse as
fast. -/
theorem sinks (dc : ℝ) (hd : 0 < dc) : 0 < psiSink dc ∧ 0 < alloySink false dc ∧ alloySink true dc = 6 / 5 * alloySink false dc := by
  refine ⟨?_, ?_, ?_⟩
  · have := pi_pos
    simp only [psiSink, SinkRxn.computeRate, psiBias, psiStrength]; positivity
  · simp only [alloySink, SinkRxn.computeRate, alloyBias, alloyStrength]; norm_num; exact hd
  · simp only [alloySink, SinkRxn.computeRate, alloyBias, alloyStrength]; norm_num; ring

/-- In the time a cluster takes to diffuse over the area of a disc of 50 micrometres radius its concentration falls by a factor e in the PSI network; in that of alloys over 100000 square nanometres. -/
theorem sinks_area (dc : ℝ) : psiSink dc * (π * 50000 ^ 2) = dc ∧ alloySink false dc * 100000 = dc := by
  have := pi_pos.ne'
  constructor
  · simp only [psiSink, SinkRxn.computeRate, psiBias, psiStrength]; field_simp; try ring
  · simp only [alloySink, SinkRxn.computeRate, alloyBias, alloyStrength]; norm_num; ring

/-- Clusters that do not diffuse are not lost. -/
theorem sinks_zero (onI : Bool) : psiSink 0 = 0 ∧ alloySink onI 0 = 0 := by simp [psiSink, alloySink, SinkRxn.computeRate]

/-! ### The fission rate of a run -/

/-- Without a call of the setters, which the solver does not make, the rate in use after any number of steps in time
and changes of temperature is that of the amplitude and stopping power of the options. -/
theorem rate_of_options (r amplitude zeta : ℝ) (ops : List Op) (h : ∀ o ∈ ops, o = .time ∨ o = .temperatures) (hne : ops ≠ []) :
    (ops.foldl (step r) (init amplitude zeta)).rate = reSolution amplitude zeta r := by
  have inv : ∀ (l : List Op) (s : State), (∀ o ∈ l, o = .time ∨ o = .temperatures) → s.fission = amplitude → s.zeta = zeta →
      (l.foldl (step r) s).fission = amplitude ∧ (l.foldl (step r) s).zeta = zeta := by
    intro l
    induction l with
    | nil => intro s _ h1 h2; exact ⟨h1, h2⟩
    | cons o l ih =>
      intro s h h1 h2
      rw [List.foldl_cons]
      refine ih _ (fun o ho => h o (by simp [ho])) ?_ ?_ <;>
        rcases h o (by simp) with rfl | rfl <;> simpa [step]
  obtain ⟨l, o, rfl⟩ : ∃ l o, ops = l ++ [o] := ⟨ops.dropLast, ops.getLast hne, (List.dropLast_append_getLast hne).symm⟩
  obtain ⟨i1, i2⟩ := inv l (init amplitude zeta) (fun o ho => h o (by simp [ho])) rfl rfl
  rw [List.foldl_append, List.foldl_cons, List.foldl_nil]
  rcases h o (by simp) with rfl | rfl <;> simp only [step, i1, i2]

example : ∀ o ∈ [Op.temperatures, Op.time], o = .time ∨ o = .temperatures := by
  intro o ho
  simp only [List.mem_cons, List.not_mem_nil, or_false] at ho
  tauto

/-- After `setFissionRate` the rate in use is the old one until the time or the temperatures are set. -/
theorem stale (r amplitude zeta f : ℝ) :
    ([Op.time, .resetFission f].foldl (step r) (init amplitude zeta)).rate = reSolution amplitude zeta r ∧
    ([Op.time, .resetFission f, .time].foldl (step r) (init amplitude zeta)).rate = reSolution f zeta r := ⟨rfl, rfl⟩

end Xolotl.Network.Irradiation
