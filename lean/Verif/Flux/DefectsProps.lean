import Verif.Flux.Defects
import Verif.Flux.ImplantedProps
import Mathlib.Analysis.Complex.Trigonometric
import Mathlib.Data.List.GetD
import Mathlib.Algebra.BigOperators.Fin
import Mathlib.Tactic.Linarith
import Mathlib.Tactic.Ring
import Mathlib.Tactic.FieldSimp
import Mathlib.Tactic.NormNum
import Mathlib.Tactic.Positivity

set_option linter.unusedSectionVars false

/-!
# Properties of the sources of defects (C72)
-/

namespace Xolotl.Flux.Defects

/-! ### Attenuation -/

/-- The hyperbolic tangent increases. -/
theorem tanh_lt {x y : ℝ} (h : x < y) : Real.tanh x < Real.tanh y := by
  rw [Real.tanh_eq_sinh_div_cosh, Real.tanh_eq_sinh_div_cosh, div_lt_div_iff₀ (Real.cosh_pos x) (Real.cosh_pos y)]
  have := Real.sinh_sub y x
  have h0 : 0 < Real.sinh (y - x) := Real.sinh_pos_iff.2 (sub_pos.2 h)
  nlinarith

/-- **C72, attenuation, no dose.** -/
theorem attenuation_off (dose eff amp t : ℝ) (h : dose ≤ 0) : attenuation dose eff amp t = 1 := by
  rw [attenuation, if_neg (not_lt.2 h)]

/-- **C72, attenuation, bounds.** With a dose and an efficiency below 1 the factor lies strictly between the efficiency and 1. -/
theorem attenuation_bounds (dose eff amp t : ℝ) (h : 0 < dose) (he : eff < 1) :
    eff < attenuation dose eff amp t ∧ attenuation dose eff amp t < 1 := by
  rw [attenuation, if_pos h]
  have h1 := Real.tanh_lt_one (47 * (t * amp - dose))
  have h2 := Real.neg_one_lt_tanh (47 * (t * amp - dose))
  constructor <;> nlinarith

/-- **C72, attenuation, in time.** Production only goes down as the dose accumulates. -/
theorem attenuation_decreasing (dose eff amp t₁ t₂ : ℝ) (h : 0 < dose) (he : eff < 1) (ha : 0 < amp) (ht : t₁ < t₂) :
    attenuation dose eff amp t₂ < attenuation dose eff amp t₁ := by
  rw [attenuation, attenuation, if_pos h, if_pos h]
  have : Real.tanh (47 * (t₁ * amp - dose)) < Real.tanh (47 * (t₂ * amp - dose)) := tanh_lt (by nlinarith)
  nlinarith

/-- **C72, attenuation, half way.** The factor is half way when the accumulated dose equals the one given, and only then. -/
theorem attenuation_half (dose eff amp t : ℝ) (h : 0 < dose) (he : eff < 1) :
    attenuation dose eff amp t = (1 + eff) / 2 ↔ t * amp = dose := by
  rw [attenuation, if_pos h]
  constructor
  · intro e
    have h0 : Real.tanh (47 * (t * amp - dose)) = 0 := by
      have : (1 - eff) * Real.tanh (47 * (t * amp - dose)) = 0 := by linarith
      exact (mul_eq_zero.1 this).resolve_left (by linarith)
    rcases lt_trichotomy (t * amp) dose with l | l | l
    · have := tanh_lt (x := 47 * (t * amp - dose)) (y := 0) (by linarith)
      rw [h0, Real.tanh_zero] at this
      exact absurd this (lt_irrefl _)
    · exact l
    · have := tanh_lt (x := 0) (y := 47 * (t * amp - dose)) (by linarith)
      rw [h0, Real.tanh_zero] at this
      exact absurd this (lt_irrefl _)
  · intro e
    rw [e, sub_self, mul_zero, Real.tanh_zero]
    ring

/-- **C72, attenuation, symmetric.** As far below the given dose as above, the two factors add up to one plus the efficiency. -/
theorem attenuation_mirror (dose eff amp d : ℝ) (h : 0 < dose) (ha : amp ≠ 0) :
    attenuation dose eff amp ((dose + d) / amp) + attenuation dose eff amp ((dose - d) / amp) = 1 + eff := by
  rw [attenuation, attenuation, if_pos h, if_pos h, div_mul_cancel₀ _ ha, div_mul_cancel₀ _ ha]
  have : (47 : ℝ) * (dose - d - dose) = -(47 * (dose + d - dose)) := by ring
  rw [this, Real.tanh_neg]
  ring

example : attenuation 1 (1 / 2) 2 (1 / 2) = 3 / 4 := by
  rw [show (3 : ℝ) / 4 = (1 + 1 / 2) / 2 by norm_num]
  exact (attenuation_half 1 (1 / 2) 2 (1 / 2) (by norm_num) (by norm_num)).2 (by norm_num)
example : attenuation 1 (1 / 2) 2 3 < attenuation 1 (1 / 2) 2 (1 / 4) := attenuation_decreasing _ _ _ _ _ (by norm_num) (by norm_num) (by norm_num) (by norm_num)
example : attenuation (-1) (1 / 2) 2 3 = 1 := attenuation_off _ _ _ _ (by norm_num)

/-! ### Amplitude -/

section
variable {K : Type*} [Field K]

/-- **C72, amplitude, base class.** With a profile the amplitude after any evaluations is the profile at the last time. -/
theorem profile_used (f : K → K) (a t : K) (times : List K) : amplitudeAfter .base (some f) a (times ++ [t]) = f t := by
  simp [amplitudeAfter, amplitudeAt]

/-- **C72 fails: amplitude in the other classes.** With a profile they never ask for it, and their amplitude is 0 at all times. -/
theorem profile_ignored (s : Source) (h : s ≠ .base) (f : K → K) (a : K) (times : List K) : amplitudeAfter s (some f) a times = 0 := by
  have : ∀ b : K, times.foldl (fun a t => amplitudeAt s (some f) a t) b = b := by
    induction times with
    | nil => exact fun _ => rfl
    | cons t r ih =>
      intro b
      rw [List.foldl_cons, ih]
      cases s <;> first | exact absurd rfl h | rfl
  rw [amplitudeAfter, this]
  rfl

/-- Without a profile every class uses the constant. -/
theorem constant_used (s : Source) (a : K) (times : List K) : amplitudeAfter s none a times = a := by
  have : ∀ b : K, times.foldl (fun a t => amplitudeAt s (none : Option (K → K)) a t) b = b := by
    induction times with
    | nil => exact fun _ => rfl
    | cons t r ih =>
      intro b
      rw [List.foldl_cons, ih]
      cases s <;> rfl
  rw [amplitudeAfter, this]
  rfl

end

example : amplitudeAfter .base (some fun t : ℚ => 2 * t) 7 [1, 3] = 6 ∧ amplitudeAfter .alloy (some fun t : ℚ => 2 * t) 7 [1, 3] = 0 :=
  ⟨by simpa using (profile_used (fun t : ℚ => 2 * t) 7 3 [1]).trans (by norm_num), profile_ignored .alloy (by decide) _ _ _⟩

/-! ### Fuel -/

section
variable {K : Type*} [Field K]

/-- The sum of what the pure vacancy clusters hold. -/
def occupied (factors : List K) (ids : List ℕ) (c : ℕ → K) : K := ((factors.zip ids).map fun p => c p.2 * p.1).sum

theorem foldl_sub (l : List (K × ℕ)) (c : ℕ → K) (b : K) : l.foldl (fun a p => a - c p.2 * p.1) b = b - (l.map fun p => c p.2 * p.1).sum := by
  induction l generalizing b with
  | nil => simp
  | cons p r ih => rw [List.foldl_cons, ih, List.map_cons, List.sum_cons, sub_sub]

/-- **C72, fuel, sites.** The fraction of sites is one minus the sum over the pure vacancies divided by the density. -/
theorem available_eq (uConc : K) (hu : uConc ≠ 0) (st : Fuel K) (c : ℕ → K) (h : st.factors.length ≤ st.defectIds.length) :
    available uConc st c = some (1 - occupied st.factors st.defectIds c / uConc) := by
  rw [available, if_neg (not_lt.2 h), foldl_sub, sub_div, div_self hu, occupied]

/-- **C72, fuel, one initialisation.** From the empty state, with the four clusters there, the flux gives the vacancy and the interstitial the same amount, xenon its yield, and every other cluster nothing. -/
theorem fuel_pairs (find : FuelKind → Option ℕ) (v v2 i xe : ℕ) (hv : find .v = some v) (hv2 : find .v2 = some v2) (hi : find .i = some i) (hxe : find .xe = some xe)
    (hvi : v ≠ i) (hvx : v ≠ xe) (hix : i ≠ xe) (f1 f2 uConc yield xeYield amp : K) (hu : uConc ≠ 0) (c u : ℕ → K) :
    ∃ st w, fuelInit find [f1, f2] false {} = some st ∧ fuelFlux uConc yield xeYield amp st c u = some w ∧
      w v - u v = yield * amp * (1 - (c v * f1 + c v2 * f2) / uConc) ∧ w i - u i = w v - u v ∧ w xe - u xe = xeYield * amp ∧
      ∀ k, k ≠ v → k ≠ i → k ≠ xe → w k = u k := by
  refine ⟨⟨[v, i, xe], [v, v2], [f1, f2]⟩, _, by simp [fuelInit, hv, hv2, hi, hxe], by
    rw [fuelFlux, available_eq uConc hu _ c (by simp)]; rfl, ?_, ?_, ?_, ?_⟩
  · simp [Function.update_apply, hvi, hvx, occupied]
  · simp [Function.update_apply, hvi, hvx, hix, hvi.symm, occupied]
  · simp [Function.update_apply, hvx.symm, hix.symm]
  · intro k h1 h2 h3
    simp [Function.update_apply, h1, h2, h3]

/-- **C72, fuel, initialised again.** Any number of further initialisations leaves the flux as it was. -/
theorem fuel_again (find : FuelKind → Option ℕ) (fs : List K) (hfs : fs.length = 2) (st st' : Fuel K) (h : fuelInit find fs false {} = some st) (n : ℕ)
    (h' : (List.replicate n ()).foldlM (fun s _ => fuelInit find fs false s) st = some st') (uConc yield xeYield amp : K) (c u : ℕ → K) :
    fuelFlux uConc yield xeYield amp st' c u = fuelFlux uConc yield xeYield amp st c u := by
  simp only [fuelInit, Bool.false_eq_true, if_false, Option.bind_eq_some_iff, Option.map_eq_some_iff, List.nil_append] at h
  obtain ⟨v, hv, v2, hv2, i, hi, xe, hxe, rfl⟩ := h
  have inv : ∀ n st₀, (∃ ra rb, st₀ = (⟨v :: i :: xe :: ra, v :: v2 :: rb, fs⟩ : Fuel K)) →
      ∀ st', (List.replicate n ()).foldlM (fun s _ => fuelInit find fs false s) st₀ = some st' → ∃ ra rb, st' = ⟨v :: i :: xe :: ra, v :: v2 :: rb, fs⟩ := by
    intro n
    induction n with
    | zero =>
      intro st₀ h0 st' h
      have : st₀ = st' := by simpa using h
      exact this ▸ h0
    | succ n ih =>
      rintro st₀ ⟨ra, rb, rfl⟩ st' h
      rw [List.replicate_succ, List.foldlM_cons] at h
      have step : fuelInit find fs false ⟨v :: i :: xe :: ra, v :: v2 :: rb, fs⟩ = some ⟨v :: i :: xe :: (ra ++ [v, i, xe]), v :: v2 :: (rb ++ [v, v2]), fs⟩ := by
        simp [fuelInit, hv, hv2, hi, hxe]
      rw [step] at h
      exact ih _ ⟨ra ++ [v, i, xe], rb ++ [v, v2], rfl⟩ st' h
  obtain ⟨ra, rb, rfl⟩ := inv n _ ⟨[], [], rfl⟩ st' h'
  obtain ⟨f1, f2, rfl⟩ : ∃ f1 f2, fs = [f1, f2] := by
    match fs, hfs with
    | [a, b], _ => exact ⟨a, b, rfl⟩
  simp [fuelFlux, available]

/-- **C72, fuel, no amplitude.** The flux of a handler that was skipped changes nothing. -/
theorem fuel_skipped (find : FuelKind → Option ℕ) (fs : List K) (uConc yield xeYield amp : K) (c u : ℕ → K) :
    (fuelInit find fs true {}).bind (fun st => fuelFlux uConc yield xeYield amp st c u) = some u := rfl

/-- **C72, fuel, a cluster is missing.** Initialising stops exactly when one of the four is not in the network. -/
theorem fuel_missing (find : FuelKind → Option ℕ) (fs : List K) (st : Fuel K) :
    fuelInit find fs false st = none ↔ ∃ k, find k = none := by
  constructor
  · intro h
    by_contra hc
    push Not at hc
    obtain ⟨a, ha⟩ := Option.ne_none_iff_exists'.1 (hc .v)
    obtain ⟨b, hb⟩ := Option.ne_none_iff_exists'.1 (hc .v2)
    obtain ⟨d, hd⟩ := Option.ne_none_iff_exists'.1 (hc .i)
    obtain ⟨e, he⟩ := Option.ne_none_iff_exists'.1 (hc .xe)
    simp [fuelInit, ha, hb, hd, he] at h
  · rintro ⟨k, hk⟩
    cases k <;> simp only [fuelInit, Bool.false_eq_true, if_false, hk]
    · rfl
    · cases find .v <;> rfl
    · cases find .v <;> cases find .v2 <;> rfl
    · cases find .v <;> cases find .v2 <;> cases find .i <;> rfl

variable [LinearOrder K] [IsStrictOrderedRing K]

/-- **C72, fuel, sign.** The fraction of sites is at most 1 for concentrations and factors that are not negative, and it is negative exactly when the pure vacancies hold more than the density. -/
theorem available_sign (uConc : K) (hu : 0 < uConc) (st : Fuel K) (c : ℕ → K) (h : st.factors.length ≤ st.defectIds.length) (a : K) (ha : available uConc st c = some a) :
    ((∀ k, 0 ≤ c k) → (∀ f ∈ st.factors, 0 ≤ f) → a ≤ 1) ∧ (a < 0 ↔ uConc < occupied st.factors st.defectIds c) := by
  rw [available_eq uConc hu.ne' st c h, Option.some.injEq] at ha
  subst ha
  constructor
  · intro hc hf
    have : 0 ≤ occupied st.factors st.defectIds c := by
      apply List.sum_nonneg
      intro x hx
      obtain ⟨p, hp, rfl⟩ := List.mem_map.1 hx
      exact mul_nonneg (hc _) (hf _ (List.of_mem_zip hp).1)
    have := div_nonneg this hu.le
    linarith
  · rw [sub_neg, one_lt_div hu]

end

/-- **C72 fails: the source of the fuel as a production.** With more vacancies than sites the handler takes defects away. -/
theorem fuel_negative : ∃ w : ℕ → ℚ, fuelFlux 1 1 1 1 ⟨[0, 2, 3], [0, 1], [1, 2]⟩ (fun _ => 1) (fun _ => 0) = some w ∧ w 0 = -2 := by
  refine ⟨_, rfl, ?_⟩
  norm_num [Function.update_apply]

/-- **C72 fails: derivatives of the fuel source.** The handler has none, but what it gives to the vacancy changes with the concentration. -/
theorem fuel_depends : ∃ c c' w w' : ℕ → ℚ, fuelFlux 1 1 1 1 ⟨[0, 2, 3], [0, 1], [1, 2]⟩ c (fun _ => 0) = some w ∧
    fuelFlux 1 1 1 1 ⟨[0, 2, 3], [0, 1], [1, 2]⟩ c' (fun _ => 0) = some w' ∧ w 0 ≠ w' 0 := by
  refine ⟨fun _ => 0, fun _ => 1, _, _, rfl, rfl, ?_⟩
  norm_num [Function.update_apply]

example : ∃ st w, fuelInit (fun k => some (match k with | .v => 0 | .v2 => 1 | .i => 2 | .xe => 3)) [1, 2] false {} = some st ∧
    fuelFlux (10 : ℚ) 3 5 2 st (fun _ => 1) (fun _ => 0) = some w ∧ w 0 = 21 / 5 ∧ w 2 = 21 / 5 ∧ w 3 = 10 ∧ w 1 = 0 := by
  refine ⟨_, _, rfl, rfl, ?_⟩
  norm_num [Function.update_apply]

/-! The factors -/

/-- The row is about vacancies alone. -/
def FuelRow.pure (r : FuelRow) : Prop := r.xe = 0 ∧ r.i = 0

/-- **The states have the weights of Boltzmann**: the ratio of the terms of two states is that of their energies, times the one of their entropies, whatever the reference is. -/
theorem boltzmann (kT : ℝ) (hk : kT ≠ 0) (m : ℝ) (s s' : ℝ × ℝ) :
    Real.exp ((m - gibbs kT s) / kT) / Real.exp ((m - gibbs kT s') / kT) = Real.exp (-(s.1 - s'.1) / kT) * Real.exp (s.2 - s'.2) := by
  rw [← Real.exp_sub, ← Real.exp_add]
  congr 1
  unfold gibbs
  field_simp
  ring

/-- The lowest energy of the states is one of them and below all. -/
theorem smallest_spec (kT : ℝ) (l : List (ℝ × ℝ)) (m : ℝ) (h : smallest kT l = some m) : (∀ s ∈ l, m ≤ gibbs kT s) ∧ ∃ s ∈ l, m = gibbs kT s := by
  cases l with
  | nil => simp [smallest] at h
  | cons a r =>
    have key : ∀ (l : List (ℝ × ℝ)) (b : ℝ), let m := l.foldl (fun m x => if gibbs kT x < m then gibbs kT x else m) b
        (m ≤ b ∧ ∀ s ∈ l, m ≤ gibbs kT s) ∧ (m = b ∨ ∃ s ∈ l, m = gibbs kT s) := by
      intro l
      induction l with
      | nil => intro b; simp
      | cons x t ih =>
        intro b
        simp only [List.foldl_cons]
        obtain ⟨⟨h1, h2⟩, h3⟩ := ih (if gibbs kT x < b then gibbs kT x else b)
        have hb : (if gibbs kT x < b then gibbs kT x else b) ≤ b := by split_ifs with h <;> linarith
        have hx : (if gibbs kT x < b then gibbs kT x else b) ≤ gibbs kT x := by split_ifs with h <;> linarith
        refine ⟨⟨h1.trans hb, ?_⟩, ?_⟩
        · intro s hs
          rcases List.mem_cons.1 hs with rfl | hs
          · exact h1.trans hx
          · exact h2 s hs
        · rcases h3 with h3 | ⟨s, hs, h3⟩
          · by_cases hlt : gibbs kT x < b
            · rw [if_pos hlt] at h3
              exact Or.inr ⟨x, by simp, by rw [if_pos hlt]; exact h3⟩
            · rw [if_neg hlt] at h3
              exact Or.inl (by rw [if_neg hlt]; exact h3)
          · exact Or.inr ⟨s, by simp [hs], h3⟩
    simp only [smallest, List.head?_cons, Option.map_some, Option.some.injEq] at h
    obtain ⟨⟨h1, h2⟩, h3⟩ := key (a :: r) (gibbs kT a)
    rw [h] at h1 h2 h3
    refine ⟨h2, ?_⟩
    rcases h3 with h3 | h3
    · exact ⟨a, by simp, h3⟩
    · exact h3

/-- The weight of a row: the vacancies times the number of states, each counted with its Boltzmann factor. -/
noncomputable def weight (kT : ℝ) (r : FuelRow) (m : ℝ) : ℝ := r.v * (r.states.map fun s => Real.exp ((m - gibbs kT s) / kT)).sum

theorem foldl_weight (kT m x : ℝ) (v : ℕ) (l : List (ℝ × ℝ)) :
    l.foldl (fun a s => a + v * Real.exp ((m - gibbs kT s) / kT)) x = x + v * (l.map fun s => Real.exp ((m - gibbs kT s) / kT)).sum := by
  induction l generalizing x with
  | nil => simp
  | cons a t ih => rw [List.foldl_cons, ih, List.map_cons, List.sum_cons]; ring

/-- **C72, factors, one row.** A row of one or two vacancies with states adds its weight to the factor of that size and to no other. -/
theorem addRow_pure (kT a b : ℝ) (r : FuelRow) (hp : r.pure) (hs : r.states ≠ []) :
    ∃ m, smallest kT r.states = some m ∧
      (r.v = 1 → addRow kT [a, b] r = some [a + weight kT r m, b]) ∧ (r.v = 2 → addRow kT [a, b] r = some [a, b + weight kT r m]) ∧
      (r.v = 0 ∨ 2 < r.v → addRow kT [a, b] r = none) := by
  obtain ⟨s, t, hst⟩ := List.exists_cons_of_ne_nil hs
  obtain ⟨m, hm⟩ : ∃ m, smallest kT r.states = some m := by rw [hst]; exact ⟨_, rfl⟩
  refine ⟨m, hm, ?_, ?_, ?_⟩ <;> intro hv
  · rw [addRow, if_neg (by rw [hp.1, hp.2]; simp), hm, Option.bind_some, if_neg (by simp [hv])]
    simp only [foldl_weight]
    simp [hv, weight]
  · rw [addRow, if_neg (by rw [hp.1, hp.2]; simp), hm, Option.bind_some, if_neg (by simp [hv])]
    simp only [foldl_weight]
    simp [hv, weight]
  · rw [addRow, if_neg (by rw [hp.1, hp.2]; simp), hm, Option.bind_some, if_pos (by simpa using hv)]

/-- **C72, factors, size.** For a positive temperature the weight lies between the number of vacancies and that number times the number of states. -/
theorem weight_bounds (kT : ℝ) (hT : 0 < kT) (r : FuelRow) (m : ℝ) (h : smallest kT r.states = some m) :
    (r.v : ℝ) ≤ weight kT r m ∧ weight kT r m ≤ r.v * r.states.length := by
  obtain ⟨h1, s, hs, h2⟩ := smallest_spec kT r.states m h
  have hle : ∀ x ∈ r.states.map (fun s => Real.exp ((m - gibbs kT s) / kT)), x ≤ 1 := by
    intro x hx
    obtain ⟨s, hs, rfl⟩ := List.mem_map.1 hx
    rw [← Real.exp_zero]
    apply Real.exp_le_exp.2
    apply div_nonpos_of_nonpos_of_nonneg _ hT.le
    linarith [h1 s hs]
  have hpos : ∀ x ∈ r.states.map (fun s => Real.exp ((m - gibbs kT s) / kT)), 0 ≤ x := by
    intro x hx
    obtain ⟨s, hs, rfl⟩ := List.mem_map.1 hx
    exact (Real.exp_pos _).le
  constructor
  · have : (1 : ℝ) ≤ (r.states.map (fun s => Real.exp ((m - gibbs kT s) / kT))).sum := by
      apply List.single_le_sum hpos
      refine List.mem_map.2 ⟨s, hs, ?_⟩
      simp [h2]
    calc (r.v : ℝ) = r.v * 1 := (mul_one _).symm
      _ ≤ _ := mul_le_mul_of_nonneg_left this (Nat.cast_nonneg _)
  · have := List.sum_le_card_nsmul _ 1 hle
    rw [List.length_map, nsmul_eq_mul, mul_one] at this
    exact mul_le_mul_of_nonneg_left this (Nat.cast_nonneg _)

/-- **C72, factors, other rows.** Rows with xenon or interstitials leave the factors alone. -/
theorem addRow_other (kT : ℝ) (f : List ℝ) (r : FuelRow) (h : ¬ r.pure) : addRow kT f r = some f := by
  rw [addRow, if_pos]
  unfold FuelRow.pure at h
  omega

/-- **C72, factors, outside.** Reading the rows stays inside the vector of two exactly when every row without xenon and interstitials has one or two vacancies and at least one state. -/
theorem factorsOf_inside (kT : ℝ) (rows : List FuelRow) :
    (factorsOf kT rows).isSome ↔ ∀ r ∈ rows, r.pure → (r.v = 1 ∨ r.v = 2) ∧ r.states ≠ [] := by
  have key : ∀ a b : ℝ, (rows.foldlM (addRow kT) [a, b]).isSome ↔ ∀ r ∈ rows, r.pure → (r.v = 1 ∨ r.v = 2) ∧ r.states ≠ [] := by
    induction rows with
    | nil => intro a b; simp
    | cons r t ih =>
      intro a b
      rw [List.foldlM_cons, List.forall_mem_cons]
      by_cases hp : r.pure
      · by_cases hs : r.states = []
        · have : addRow kT [a, b] r = none := by
            rw [addRow, if_neg (by rw [hp.1, hp.2]; simp), hs]; rfl
          rw [this]
          simp [hp, hs]
        · obtain ⟨m, -, h1, h2, h3⟩ := addRow_pure kT a b r hp hs
          by_cases e1 : r.v = 1
          · rw [h1 e1]
            exact (ih _ _).trans (by simp [e1, hs])
          · by_cases e2 : r.v = 2
            · rw [h2 e2]
              exact (ih _ _).trans (by simp [e2, hs])
            · rw [h3 (by omega)]
              simp [hp, e1, e2]
      · rw [addRow_other kT _ r hp]
        exact (ih _ _).trans (by simp [hp])
  exact key 0 0

/-- **C72, factors, a usual file.** One row for each of the two sizes, among others that are not pure. -/
theorem factorsOf_two (kT : ℝ) (hT : 0 < kT) (r1 r2 : FuelRow) (h1 : r1.pure) (h2 : r2.pure) (e1 : r1.v = 1) (e2 : r2.v = 2) (s1 : r1.states ≠ []) (s2 : r2.states ≠ [])
    (pre mid post : List FuelRow) (hpre : ∀ r ∈ pre ++ mid ++ post, ¬ r.pure) :
    ∃ f1 f2, factorsOf kT (pre ++ r1 :: mid ++ r2 :: post) = some [f1, f2] ∧ 1 ≤ f1 ∧ f1 ≤ r1.states.length ∧ 2 ≤ f2 ∧ f2 ≤ 2 * r2.states.length := by
  have skip : ∀ (l : List FuelRow) (f : List ℝ), (∀ r ∈ l, ¬ r.pure) → l.foldlM (addRow kT) f = some f := by
    intro l f
    induction l with
    | nil => intro _; rfl
    | cons r t ih =>
      intro h
      rw [List.foldlM_cons, addRow_other kT f r (h r (by simp))]
      exact ih fun r hr => h r (by simp [hr])
  obtain ⟨m1, hm1, a1, -, -⟩ := addRow_pure kT 0 0 r1 h1 s1
  obtain ⟨m2, hm2, -, a2, -⟩ := addRow_pure kT (0 + weight kT r1 m1) 0 r2 h2 s2
  obtain ⟨b1, b2⟩ := weight_bounds kT hT r1 m1 hm1
  obtain ⟨b3, b4⟩ := weight_bounds kT hT r2 m2 hm2
  rw [e1] at b1 b2
  rw [e2] at b3 b4
  refine ⟨0 + weight kT r1 m1, 0 + weight kT r2 m2, ?_, by push_cast at *; linarith, by push_cast at *; linarith, by push_cast at *; linarith, by push_cast at *; linarith⟩
  have q1 := skip pre [0, 0] fun r hr => hpre r (by simp [hr])
  have q2 := skip mid [0 + weight kT r1 m1, 0] fun r hr => hpre r (by simp [hr])
  have q3 := skip post [0 + weight kT r1 m1, 0 + weight kT r2 m2] fun r hr => hpre r (by simp [hr])
  simp only [factorsOf, List.foldlM_append, List.foldlM_cons, q1, q2, q3, a1 e1, a2 e2, Option.bind_eq_bind, Option.bind_some]

example : (factorsOf 1 [⟨1, 1, 0, []⟩, ⟨0, 1, 0, [(1, 0), (2, 0)]⟩, ⟨0, 2, 0, [(3, 1)]⟩]).isSome := (factorsOf_inside _ _).2 (by
  intro r hr hp
  simp only [List.mem_cons, List.not_mem_nil, or_false] at hr
  rcases hr with rfl | rfl | rfl
  · exact absurd hp.1 (by decide)
  · exact ⟨Or.inl rfl, by simp⟩
  · exact ⟨Or.inr rfl, by simp⟩)

/-- A third vacancy size in the file is written outside the vector. -/
example : factorsOf 1 [⟨0, 3, 0, [(1, 0)]⟩] = none := by
  have := (factorsOf_inside 1 [⟨0, 3, 0, [(1, 0)]⟩]).not.2 (by
    intro h
    have := h ⟨0, 3, 0, [(1, 0)]⟩ (by simp) ⟨rfl, rfl⟩
    simp at this)
  simpa using this

/-! ### Iron -/

/-- The number of vacancies and of interstitials made per unit of time. -/
def ironTotal (k : Option Bool) : ℚ := ((ironRates.filter fun p => p.1 = k).map fun p => (p.2.1 : ℚ) * p.2.2).sum

/-- **C72 fails: iron, balance.** More vacancies are made than interstitials, by 4.09e-8 out of 1.49e-5. -/
theorem iron_balance : ironTotal (some true) = 149 / 10 ^ 7 ∧ ironTotal (some false) = 149409 / 10 ^ 10 ∧ ironTotal (some false) - ironTotal (some true) = 409 / 10 ^ 10 := by
  refine ⟨?_, ?_, ?_⟩ <;> decide +kernel

/-- **C72 fails: iron, the check for dimensions.** After any number of initialisations with any grids the check passes. -/
theorem iron_never_throws {K : Type*} (grids : List (List K)) (h : grids ≠ []) : ironCheck grids = .passed := by
  have key : ∀ (l : List (List K)) (n : ℕ), l.foldl (fun (st : List K × List (List K)) _ => if st.1.length = 0 then (st.1, st.2 ++ [[]]) else st) ([], List.replicate n []) =
      ([], List.replicate (n + l.length) []) := by
    intro l
    induction l with
    | nil => intro n; rfl
    | cons a r ih =>
      intro n
      rw [List.foldl_cons]
      simp only [List.length_nil, if_true]
      have : List.replicate n ([] : List K) ++ [[]] = List.replicate (n + 1) [] := by rw [List.replicate_succ']
      rw [this, ih, List.length_cons]
      congr 2
      omega
  have := key grids 0
  unfold ironCheck
  rw [List.replicate_zero] at this
  rw [this]
  obtain ⟨a, r, rfl⟩ := List.exists_cons_of_ne_nil h
  rw [List.length_cons, show 0 + (r.length + 1) = (0 + r.length) + 1 by omega, List.replicate_succ]
  rfl

example : ironCheck [([0, 1, 2, 3] : List ℚ)] = .passed := iron_never_throws _ (by simp)

/-! ### Alloy -/

section
variable {K : Type*} [Field K]

/-- **C72, alloy, damage.** The damage at a depth is the polynomial with the coefficients of the row. -/
theorem damage_eq (coeffs : List K) (x : K) : damage coeffs x = ∑ i : Fin coeffs.length, coeffs[i] * x ^ (i : ℕ) := by
  have key : ∀ (l : List K) (n : ℕ) (b : K), (l.zipIdx n).foldl (fun a p => a + p.1 * x ^ p.2) b = b + ∑ i : Fin l.length, l[i] * x ^ (n + i : ℕ) := by
    intro l
    induction l with
    | nil => intro n b; simp
    | cons c t ih =>
      intro n b
      rw [List.zipIdx_cons, List.foldl_cons, ih]
      change _ = b + ∑ i : Fin (t.length + 1), (c :: t)[i] * x ^ (n + i : ℕ)
      rw [Fin.sum_univ_succ]
      simp only [Fin.getElem_fin, Fin.val_zero, List.getElem_cons_zero, add_zero, Fin.val_succ, List.getElem_cons_succ]
      rw [add_assoc]
      congr 2
      apply Finset.sum_congr rfl
      intro i _
      rw [show n + 1 + (i : ℕ) = n + (i + 1) by omega]
  cases coeffs with
  | nil => simp [damage]
  | cons c t =>
    rw [damage, List.tail_cons, key]
    change _ = ∑ i : Fin (t.length + 1), (c :: t)[i] * x ^ (i : ℕ)
    rw [Fin.sum_univ_succ]
    simp only [List.headD_cons, Fin.getElem_fin, Fin.val_zero, List.getElem_cons_zero, pow_zero, mul_one, Fin.val_succ, List.getElem_cons_succ]
    congr 1
    apply Finset.sum_congr rfl
    intro i _
    rw [add_comm 1]

/-- The depth at which entry `k` of a row of rates is taken; `none` for the entries that are 0. -/
def depth (grid : List K) (k : ℕ) : Option K :=
  if grid.length = 0 then if k = 0 then some 0 else none
  else if 1 ≤ k ∧ k + 3 < grid.length then some (grid.getD (k + 1) 0 - grid.getD 1 0) else none

/-- **C72, alloy, rates along the grid.** -/
theorem generation_getD (rate : K → K) (grid : List K) (k : ℕ) : (generation rate grid).getD k 0 = ((depth grid k).map rate).getD 0 := by
  unfold generation depth
  by_cases h : grid.length = 0
  · rw [if_pos h, if_pos h]
    cases k <;> simp
  · rw [if_neg h, if_neg h]
    rcases k with _ | k
    · simp
    · rw [List.append_assoc, List.getD_append_right _ _ _ _ (by simp)]
      simp only [List.length_singleton, Nat.add_sub_cancel]
      by_cases hk : k < grid.length - 3 - 1
      · rw [List.getD_append _ _ _ _ (by simpa using hk), if_pos (by omega), List.getD_eq_getElem _ _ (by simpa using hk)]
        simp [add_comm 1 k]
      · rw [List.getD_append_right _ _ _ _ (by simpa using hk), if_neg (by omega)]
        simp only [List.length_map, List.length_range', Option.map_none, Option.getD_none]
        cases k - (grid.length - 3 - 1) <;> simp

/-- **C72, alloy, length of a row.** Two entries fewer than faces. -/
theorem generation_length (rate : K → K) (grid : List K) (h : 4 ≤ grid.length) : (generation rate grid).length = grid.length - 2 := by
  rw [generation, if_neg (by omega)]
  simp only [List.length_append, List.length_map, List.length_range', List.length_singleton]
  omega

/-- **C72 fails: the file with the rates.** With the surface at the first or second face the loop that writes it reads past the end of every row of a one-dimensional grid; without a grid, or with the surface further in, it does not. -/
theorem writes_outside (n s : ℕ) (hn : 4 ≤ n) (hs : s < n) : writesInside n s (n - 2) = false ↔ s < 2 := by
  rw [← Bool.not_eq_true, writesInside, List.all_eq_true]
  simp only [List.mem_range'_1, decide_eq_true_eq]
  constructor
  · intro h
    by_contra hc
    exact h fun x hx => by omega
  · intro h hc
    have := hc (n - 1) (by omega)
    omega

theorem writes_inside_0D : writesInside 0 0 1 = true := by decide

/-- The sum of a row position over the clusters of one size. -/
def binRate (b : List (ℕ × List K)) (k : ℕ) : K := (b.map fun p => p.2.getD k 0).sum

/-- Whether clusters of this size are in the network. -/
def found (find : AlloyKind → ℕ → Option ℕ) (size : ℤ) : Bool :=
  if 0 < size then (find .i size.natAbs).isSome || ((find .frank size.natAbs).isSome && (find .perfect size.natAbs).isSome)
  else (find .v size.natAbs).isSome || (find .faulted size.natAbs).isSome

/-- One size: something is produced if clusters are found, however it is split. -/
theorem alloyBin_rate (find : AlloyKind → ℕ → Option ℕ) (perfect : K) (gen : K → List K) (k : ℕ)
    (hg : (gen (1 - perfect)).getD k 0 + (gen perfect).getD k 0 = (gen 1).getD k 0) (size : ℤ) (hs : size ≠ 0) :
    ∃ b, alloyBin find perfect gen size = some b ∧ binRate b k = if found find size then (gen 1).getD k 0 else 0 := by
  unfold alloyBin found
  rcases lt_or_gt_of_ne hs with h | h
  · rw [if_neg (not_lt.2 h.le : ¬ size > 0), if_pos h, if_neg (not_lt.2 h.le : ¬ 0 < size), show (-size).toNat = size.natAbs by omega]
    cases h1 : find .v size.natAbs with
    | some c => exact ⟨_, rfl, by simp [binRate]⟩
    | none =>
      cases h2 : find .faulted size.natAbs with
      | some c => exact ⟨_, rfl, by simp [binRate]⟩
      | none => exact ⟨_, rfl, by simp [binRate]⟩
  · rw [if_pos h, if_pos h, show size.toNat = size.natAbs by omega]
    cases h1 : find .i size.natAbs with
    | some c => exact ⟨_, rfl, by simp [binRate]⟩
    | none =>
      cases h2 : find .frank size.natAbs with
      | some c =>
        cases h3 : find .perfect size.natAbs with
        | some d => exact ⟨_, rfl, by simpa [binRate] using hg⟩
        | none => exact ⟨_, rfl, by simp [binRate]⟩
      | none => exact ⟨_, rfl, by simp [binRate]⟩

/-- The rates with two fractions that add up to one. -/
theorem alloyRate_split (coeffs : List K) (eff amp frac p : K) (size : ℕ) (grid : List K) (k : ℕ) :
    (generation (alloyRate coeffs eff amp frac (1 - p) size) grid).getD k 0 + (generation (alloyRate coeffs eff amp frac p size) grid).getD k 0 =
      (generation (alloyRate coeffs eff amp frac 1 size) grid).getD k 0 := by
  rw [generation_getD, generation_getD, generation_getD]
  cases depth grid k with
  | none => simp
  | some x =>
    simp only [Option.map_some, Option.getD_some, alloyRate]
    ring

theorem mapM_some {α β : Type*} (f : α → Option β) (g : α → β) (l : List α) (h : ∀ a ∈ l, f a = some (g a)) : l.mapM f = some (l.map g) := by
  induction l with
  | nil => rfl
  | cons a t ih =>
    rw [List.mapM_cons, h a (by simp), ih fun b hb => h b (by simp [hb])]
    rfl

theorem cascade_nonzero : ∀ s ∈ cascadeSizes, s ≠ 0 := by decide

/-- The defects of one sign made at position `k`: for every size its rate times the defects in the cluster. -/
def content (sign : Bool) (l : List (ℤ × List (ℕ × List K))) (k : ℕ) : K :=
  ((l.filter fun p => decide (0 < p.1) = sign).map fun p => (p.1.natAbs : K) * binRate p.2 k).sum

/-- The part of the cascade of one sign for which there are clusters. -/
def share (find : AlloyKind → ℕ → Option ℕ) (sign : Bool) : K :=
  (((cascadeSizes.zip fractions).filter fun p => decide (0 < p.1) = sign).map fun p => if found find p.1 then p.2 else (0 : K)).sum

variable [CharZero K]

/-- **C72, alloy, totals.** The loop never stops, and at every depth inside the grid the interstitials (and likewise the vacancies) made are the efficiency times the damage there times the amplitude times the part of the cascade for which there are clusters; elsewhere nothing is made.  The split into Frank and perfect loops plays no role. -/
theorem alloy_total (find : AlloyKind → ℕ → Option ℕ) (coeffs : List K) (eff amp perfect : K) (grid : List K) :
    ∃ l, alloyBins find coeffs eff amp perfect grid = some l ∧ ∀ sign k,
      content sign l k = ((depth grid k).map fun x => eff * damage coeffs x * amp * share find sign).getD 0 := by
  have hb : ∀ p ∈ cascadeSizes.zip (fractions : List K), ∃ b,
      alloyBin find perfect (fun f => generation (alloyRate coeffs eff amp p.2 f p.1.natAbs) grid) p.1 = some b ∧
      ∀ k, binRate b k = if found find p.1 then (generation (alloyRate coeffs eff amp p.2 1 p.1.natAbs) grid).getD k 0 else 0 := by
    intro p hp
    have hs := cascade_nonzero p.1 (List.of_mem_zip hp).1
    obtain ⟨b, hb, -⟩ := alloyBin_rate find perfect (fun f => generation (alloyRate coeffs eff amp p.2 f p.1.natAbs) grid) 0 (alloyRate_split ..) p.1 hs
    refine ⟨b, hb, fun k => ?_⟩
    obtain ⟨b', hb', h'⟩ := alloyBin_rate find perfect (fun f => generation (alloyRate coeffs eff amp p.2 f p.1.natAbs) grid) k (alloyRate_split ..) p.1 hs
    rw [hb, Option.some.injEq] at hb'
    rw [hb', h']
  let g : ℤ × K → ℤ × List (ℕ × List K) := fun p =>
    (p.1, (alloyBin find perfect (fun f => generation (alloyRate coeffs eff amp p.2 f p.1.natAbs) grid) p.1).getD [])
  refine ⟨(cascadeSizes.zip fractions).map g, ?_, ?_⟩
  · apply mapM_some
    intro p hp
    obtain ⟨b, hb, -⟩ := hb p hp
    simp only [g, hb, Option.map_some, Option.getD_some]
  · intro sign k
    have main : ∀ L : List (ℤ × K), (∀ p ∈ L, p ∈ cascadeSizes.zip (fractions : List K)) →
        content sign (L.map g) k = ((depth grid k).map fun x => eff * damage coeffs x * amp *
          ((L.filter fun p => decide (0 < p.1) = sign).map fun p => if found find p.1 then p.2 else (0 : K)).sum).getD 0 := by
      intro L
      induction L with
      | nil => intro _; cases depth grid k <;> simp [content]
      | cons p t ih =>
        intro hL
        have ih := ih fun q hq => hL q (by simp [hq])
        have h0 : ((p.1.natAbs : ℕ) : K) ≠ 0 := by
          have := cascade_nonzero p.1 (List.of_mem_zip (hL p (by simp))).1
          exact Nat.cast_ne_zero.2 (by omega)
        obtain ⟨b, hb1, hb2⟩ := hb p (hL p (by simp))
        have hgp : g p = (p.1, b) := by simp only [g, hb1, Option.getD_some]
        by_cases e : decide (0 < p.1) = sign
        · have step : content sign (List.map g (p :: t)) k = (p.1.natAbs : K) * binRate b k + content sign (List.map g t) k := by
            rw [content, List.map_cons, hgp, List.filter_cons_of_pos (by simpa using e), List.map_cons, List.sum_cons, content]
          rw [step, ih, List.filter_cons_of_pos (by simpa using e), List.map_cons, List.sum_cons, hb2 k, generation_getD]
          cases depth grid k with
          | none => simp
          | some x =>
            simp only [Option.map_some, Option.getD_some, alloyRate]
            by_cases hf : found find p.1 = true
            · rw [if_pos hf, if_pos hf]
              field_simp
              ring
            · rw [if_neg hf, if_neg hf]
              ring
        · have step : content sign (List.map g (p :: t)) k = content sign (List.map g t) k := by
            rw [content, List.map_cons, hgp, List.filter_cons_of_neg (by simpa using e), content]
          rw [step, ih, List.filter_cons_of_neg (by simpa using e)]
    exact main _ fun p hp => hp

/-- The fractions of one sign, all found or not. -/
theorem share_nat (find : AlloyKind → ℕ → Option ℕ) (sign : Bool) : (share find sign : K) =
    ((((cascadeSizes.zip (fractionI ++ fractionV)).filter fun p => decide (0 < p.1) = sign).map fun p => if found find p.1 then p.2 else 0).sum : ℕ) / 1000 := by
  have main : ∀ (L : List ℤ) (M : List ℕ),
      (((L.zip (M.map fun n : ℕ => (n : K) / 1000)).filter fun p => decide (0 < p.1) = sign).map fun p => if found find p.1 then p.2 else (0 : K)).sum =
      ((((L.zip M).filter fun p => decide (0 < p.1) = sign).map fun p => if found find p.1 then p.2 else 0).sum : ℕ) / 1000 := by
    intro L
    induction L with
    | nil => intro M; simp
    | cons a t ih =>
      intro M
      cases M with
      | nil => simp
      | cons n r =>
        rw [List.map_cons, List.zip_cons_cons, List.zip_cons_cons]
        by_cases e : decide (0 < a) = sign
        · rw [List.filter_cons_of_pos (by simpa using e), List.filter_cons_of_pos (by simpa using e), List.map_cons, List.map_cons, List.sum_cons, List.sum_cons, ih r]
          by_cases hf : found find a = true
          · simp only [hf, if_true]
            push_cast
            ring
          · simp only [hf]
            simp
        · rw [List.filter_cons_of_neg (by simpa using e), List.filter_cons_of_neg (by simpa using e), ih r]
  exact main _ _

/-- **C72, alloy, pairs (partial: all sizes of the cascade have clusters).** Then as many vacancies as interstitials are made at every depth, 998 thousandths of the damage times efficiency and amplitude. -/
theorem alloy_pairs_partial (find : AlloyKind → ℕ → Option ℕ) (hf : ∀ s ∈ cascadeSizes, found find s = true) (sign : Bool) : (share find sign : K) = 998 / 1000 := by
  rw [share_nat]
  have : ((cascadeSizes.zip (fractionI ++ fractionV)).filter fun p => decide (0 < p.1) = sign).map (fun p => if found find p.1 then p.2 else 0) =
      ((cascadeSizes.zip (fractionI ++ fractionV)).filter fun p => decide (0 < p.1) = sign).map Prod.snd := by
    apply List.map_congr_left
    intro p hp
    rw [hf p.1 (List.of_mem_zip (List.mem_of_mem_filter hp)).1, if_pos rfl]
  rw [this]
  have h2 : ((((cascadeSizes.zip (fractionI ++ fractionV)).filter fun p => decide (0 < p.1) = sign).map Prod.snd).sum : ℕ) = 998 := by
    cases sign <;> decide +kernel
  rw [h2]
  norm_num

end

/-- **C72 fails: pairs in a smaller network.** With interstitials of size 1 and vacancies up to size 2, what has no cluster is dropped without a word, and more vacancies are made than interstitials. -/
theorem alloy_unequal : ∃ find : AlloyKind → ℕ → Option ℕ, (share find true : ℚ) = 350 / 1000 ∧ (share find false : ℚ) = 450 / 1000 := by
  refine ⟨fun k n => match k, n with | .i, 1 => some 0 | .v, 1 => some 1 | .v, 2 => some 2 | _, _ => none, ?_, ?_⟩ <;> decide +kernel

/-- The tables: the sizes 45 to 1 and -1 to -45 in this order, as many fractions, and the same fraction for a size and its opposite. -/
theorem cascade_tables : cascadeSizes.length = 90 ∧ (fractionI ++ fractionV).length = 90 ∧ fractionV = fractionI.reverse ∧ cascadeSizes.reverse = cascadeSizes.map (-·) ∧
    cascadeSizes.Nodup := by decide +kernel

example : ∃ find : AlloyKind → ℕ → Option ℕ, ∀ s ∈ cascadeSizes, found find s = true := ⟨fun k n => match k with | .i => none | .v => if n < 5 then some n else none | _ => some n, by decide +kernel⟩

example : ∃ l, alloyBins (fun _ n => some n) ([2, 3] : List ℚ) (1 / 2) 4 (1 / 5) [0, 1, 2, 3, 4, 5] = some l ∧ content true l 1 = 499 / 50 ∧ content false l 1 = 499 / 50 ∧ content true l 0 = 0 := by
  obtain ⟨l, h, hc⟩ := alloy_total (fun _ n => some n) ([2, 3] : List ℚ) (1 / 2) 4 (1 / 5) [0, 1, 2, 3, 4, 5]
  have hf : ∀ s ∈ cascadeSizes, found (fun _ n => some n) s = true := by decide +kernel
  refine ⟨l, h, ?_, ?_, ?_⟩ <;> rw [hc]
  · rw [alloy_pairs_partial _ hf]; norm_num [depth, damage]
  · rw [alloy_pairs_partial _ hf]; norm_num [depth, damage]
  · norm_num [depth]

/-! ### Zirconium -/

/-- **C72 fails: zirconium, initialised again.** After `n` initialisations every cluster receives `n` times its source. -/
theorem zr_again {K : Type*} [Field K] (t : Table K) (n : ℕ) (att : K) (u : ℕ → K) (c : ℕ) :
    kernel att (((zrAgain t)^[n]) ⟨[], []⟩).device u c = u c + n * source t c * att := by
  have key : ∀ n, source (((zrAgain t)^[n]) ⟨[], []⟩).host c = n * source t c ∧ (((zrAgain t)^[n]) ⟨[], []⟩).device = (((zrAgain t)^[n]) ⟨[], []⟩).host := by
    intro n
    induction n with
    | zero => simp
    | succ n ih =>
      rw [Function.iterate_succ_apply']
      refine ⟨?_, rfl⟩
      rw [zrAgain, source_append, ih.1]
      push_cast
      ring
  rw [kernel_source, (key n).2, (key n).1]

example : kernel 1 (((zrAgain ([(3, 5)] : Table ℚ))^[3]) ⟨[], []⟩).device (fun _ => 0) 3 = 15 := by
  rw [zr_again]
  norm_num [source]

end Xolotl.Flux.Defects
