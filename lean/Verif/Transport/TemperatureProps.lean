import Verif.Transport.Temperature
import Verif.Util.InterpProps
import Mathlib.Analysis.SpecialFunctions.Exp
import Mathlib.Analysis.Calculus.MeanValue
import Mathlib.Tactic.Linarith
import Mathlib.Tactic.NormNum
import Mathlib.Tactic.FieldSimp

/-!
# Properties of the temperature handlers (C100)
-/

set_option linter.unusedSectionVars false

namespace Xolotl.Transport.Temperature

open Xolotl.Util

section field

variable {K : Type} [Field K] [LinearOrder K] [IsStrictOrderedRing K]

/-! ## Files -/

/-- Whether a line is neither empty nor a comment. -/
def data (l : List Char) : Bool :=
  match l with
  | [] => false
  | c :: _ => c != '#'

theorem skip_iff (l : List Char) : (l.length = 0 ∨ l.head? = some '#') ↔ data l = false := by
  cases l <;> simp [data]

theorem readLine_eq (num : List Char → Option (K × List Char)) (v : List K × List K) (l : List Char) :
    readLine num v l = if data l then (v.1 ++ [(scan num l).1], v.2 ++ [(scan num l).2]) else v := by
  unfold readLine
  by_cases h : data l = true
  · rw [if_neg (by rw [skip_iff]; simp [h]), if_pos h]
  · rw [if_pos (by rw [skip_iff]; simpa using h), if_neg h]

/-- **The rows of the file, in their order.**  Empty lines and comments have no influence. -/
theorem readFile_eq (num : List Char → Option (K × List Char)) (ls : List (List Char)) (v : List K × List K) :
    readFile num v ls = (v.1 ++ (ls.filter data).map (fun l => (scan num l).1), v.2 ++ (ls.filter data).map (fun l => (scan num l).2)) := by
  induction ls generalizing v with
  | nil => simp [readFile]
  | cons l ls ih =>
    have : readFile num v (l :: ls) = readFile num (readLine num v l) ls := rfl
    rw [this, readLine_eq, ih]
    by_cases h : data l = true <;> simp [h]

/-- The table has as many values as times. -/
theorem readFile_length (num : List Char → Option (K × List Char)) (ls : List (List Char)) :
    (readFile num ([], []) ls).1.length = (readFile num ([], []) ls).2.length := by
  simp [readFile_eq]

/-- A line with two numbers. -/
def row (num : List Char → Option (K × List Char)) (l : List Char) (x y : K) : Prop := ∃ r r', num l = some (x, r) ∧ num r = some (y, r')

theorem scan_row {num : List Char → Option (K × List Char)} {l : List Char} {x y : K} (h : row num l x y) : scan num l = (x, y) := by
  obtain ⟨r, r', h1, h2⟩ := h
  simp [scan, h1, h2]

/-! ## Constant and gradient -/

/-- **Constant.** The first parameter, everywhere and always; a file is not even looked at. -/
theorem constant_given (eps : K) (num : List Char → Option (K × List Char)) (o : Opts K) (hn : o.name = "constant") :
    ∃ h, make eps num o = some h ∧ ∀ f t sol, used eps h f t sol = some o.param.1 :=
  ⟨_, by simp [make, hn]; rfl, fun _ _ _ => rfl⟩

/-- **Gradient.** The straight line between the two parameters in the relative depth, always. -/
theorem gradient_given (eps : K) (num : List Char → Option (K × List Char)) (o : Opts K) (hn : o.name = "gradient") :
    ∃ h, make eps num o = some h ∧ ∀ f t sol, used eps h f t sol = some ((1 - f.1) * o.param.1 + f.1 * o.param.2) :=
  ⟨_, by simp [make, hn]; rfl, fun f _ _ => by simp only [used, setTemperature, temperature]; congr 1; ring⟩

open Xolotl.Solver in
/-- The relative position of a point below the surface lies strictly between 0 and 1, on every grid that increases. -/
theorem relative_inside (g : Initial.Setting K) (s i : ℕ) (hg : ∀ a b, a < b → b ≤ g.last → g.grid a < g.grid b) (hs : s < i) (hi : i < g.last) :
    0 < Initial.relative g s i ∧ Initial.relative g s i < 1 := by
  have h1 : g.grid (s + 1) ≤ g.grid i := by
    rcases Nat.lt_or_ge (s + 1) i with h | h
    · exact (hg _ _ h (by omega)).le
    · rw [show i = s + 1 by omega]
  have h2 := hg i (i + 1) (by omega) (by omega)
  have h3 : g.grid (i + 1) ≤ g.grid g.last := by
    rcases Nat.lt_or_ge (i + 1) g.last with h | h
    · exact (hg _ _ h le_rfl).le
    · rw [show g.last = i + 1 by omega]
  have hp : 0 < g.grid g.last - g.grid (s + 1) := by linarith
  rw [Initial.relative, if_neg (by omega)]
  simp only [Int.toNat_natCast]
  exact ⟨div_pos (by linarith) hp, by rw [div_lt_one hp]; linarith⟩

open Xolotl.Solver in
/-- Deeper points have a larger relative position. -/
theorem relative_mono (g : Initial.Setting K) (s i j : ℕ) (hg : ∀ a b, a < b → b ≤ g.last → g.grid a < g.grid b) (hs : s + 1 < g.last) (hij : i < j) (hj : j < g.last) :
    Initial.relative g s i < Initial.relative g s j := by
  have h1 := hg i j hij (by omega)
  have h2 := hg (i + 1) (j + 1) (by omega) (by omega)
  have hp : 0 < g.grid g.last - g.grid (s + 1) := sub_pos.mpr (hg _ _ hs le_rfl)
  rw [Initial.relative, Initial.relative, if_neg (by omega), if_neg (by omega)]
  simp only [Int.toNat_natCast]
  exact (div_lt_div_iff_of_pos_right hp).mpr (by linarith)

open Xolotl.Solver in
/-- **Gradient on a grid.** At every point below the surface the temperature lies strictly between those of the surface and of the bulk, and it goes with the depth from the first to the second. -/
theorem gradient_between (eps : K) (num : List Char → Option (K × List Char)) (o : Opts K) (hn : o.name = "gradient") (hlt : o.param.1 < o.param.2)
    (g : Initial.Setting K) (d : Exchange.Dim) (hd : d ≠ .zero) (hg : ∀ a b, a < b → b ≤ g.last → g.grid a < g.grid b) (k j i i' : ℕ)
    (hs : (if d = .one then 0 else g.surf (if d = .two then 0 else k) j) < i) (hi : i < i') (hi' : i' < g.last) :
    ∃ h, make eps num o = some h ∧ ∀ t t' sol sol', ∃ a b, used eps h (Initial.gridPosition g d k j i) t sol = some a ∧ used eps h (Initial.gridPosition g d k j i') t' sol' = some b ∧
      o.param.1 < a ∧ a < b ∧ b < o.param.2 := by
  obtain ⟨h, hm, hu⟩ := gradient_given eps num o hn
  refine ⟨h, hm, fun t t' sol sol' => ⟨_, _, hu _ _ _, hu _ _ _, ?_⟩⟩
  generalize hS : (if d = .one then 0 else g.surf (if d = .two then 0 else k) j) = s at hs
  have ex : ∀ m : ℕ, (Initial.gridPosition g d k j (m : ℤ)).1 = Initial.relative g s m := by
    intro m
    cases d with
    | zero => exact absurd rfl hd
    | one => simp only [if_true] at hS; subst hS; rfl
    | two => simp at hS; subst hS; rfl
    | three => simp at hS; subst hS; rfl
  rw [ex, ex]
  obtain ⟨a1, a2⟩ := relative_inside g s i hg hs (by omega)
  obtain ⟨b1, b2⟩ := relative_inside g s i' hg (by omega) hi'
  have hm := relative_mono g s i i' hg (by omega) hi hi'
  refine ⟨?_, ?_, ?_⟩ <;> nlinarith

open Xolotl.Solver in
/-- At a point at or above the surface the line is continued beyond the temperature of the surface. -/
theorem gradient_above (eps : K) (s b : K) (hlt : s < b) (g : Initial.Setting K) (p i : ℕ) (hg : ∀ a b, a < b → b ≤ g.last → g.grid a < g.grid b) (hi : i ≤ p) (hp : p + 1 < g.last) (t sol : K) :
    ∃ a, used eps (.gradient s b) (Initial.relative g p i, 0, 0) t sol = some a ∧ a < s := by
  refine ⟨_, rfl, ?_⟩
  have h1 : g.grid i < g.grid (p + 1) := hg _ _ (by omega) (by omega)
  have h2 : g.grid (i + 1) ≤ g.grid (p + 1) := by
    rcases Nat.lt_or_ge i p with h | h
    · exact (hg _ _ (by omega) (by omega)).le
    · rw [show i = p by omega]
  have hq : 0 < g.grid g.last - g.grid (p + 1) := sub_pos.mpr (hg _ _ hp le_rfl)
  have : Initial.relative g p i < 0 := by
    rw [Initial.relative, if_neg (by omega)]
    simp only [Int.toNat_natCast]
    exact div_neg_of_neg_of_pos (by linarith) hq
  nlinarith

/-! ## Profile -/

/-- **Profile.** If every line of the file that is neither empty nor a comment has a time and a temperature, the times increasing, then at each of these times the temperature is the one of the file, between two of them it is on the straight
line, before the first and after the last it is constant. -/
theorem profile_given_partial (eps : K) (num : List Char → Option (K × List Char)) (o : Opts K) (hn : o.name = "profile") (ls : List (List Char)) (hf : o.file = some ls)
    (x y : ℕ → K) (n : ℕ) (hlen : (ls.filter data).length = n + 1) (hrow : ∀ k (hk : k < (ls.filter data).length), row num (ls.filter data)[k] (x k) (y k))
    (hx : ∀ i j, i < j → j ≤ n → x i < x j) :
    ∃ h, make eps num o = some h ∧ ∀ f t sol,
      (∀ k, k ≤ n → t = x k → used eps h f t sol = some (y k)) ∧
      (∀ k, k + 1 ≤ n → x k ≤ t → t ≤ x (k + 1) → used eps h f t sol = some (y k + (y (k + 1) - y k) * (t - x k) / (x (k + 1) - x k))) ∧
      (t ≤ x 0 → used eps h f t sol = some (y 0)) ∧ (x n ≤ t → used eps h f t sol = some (y n)) := by
  refine ⟨.profile (readFile num ([], []) ls), by simp [make, hn, hf], fun f t sol => ?_⟩
  have hT : (readFile num ([], []) ls).1 = (List.range (n + 1)).map x := by
    rw [readFile_eq]
    apply List.ext_getElem (by simp [hlen])
    intro k h1 h2
    simp only [List.nil_append, List.getElem_map, List.getElem_range]
    rw [scan_row (hrow k (by simpa using h1))]
  have hV : (readFile num ([], []) ls).2 = (List.range (n + 1)).map y := by
    rw [readFile_eq]
    apply List.ext_getElem (by simp [hlen])
    intro k h1 h2
    simp only [List.nil_append, List.getElem_map, List.getElem_range]
    rw [scan_row (hrow k (by simpa using h1))]
  have hu : used eps (.profile (readFile num ([], []) ls)) f t sol = Interp.interp ((List.range (n + 1)).map x) ((List.range (n + 1)).map y) t := by
    simp only [used, setTemperature, temperature, hT, hV]
  simp only [hu]
  have hs : ∀ i j (hj : j < ((List.range (n + 1)).map x).length) (hij : i < j), ((List.range (n + 1)).map x)[i] < ((List.range (n + 1)).map x)[j] := by
    intro i j hj hij
    simp only [List.length_map, List.length_range] at hj
    simpa using hx i j hij (by omega)
  refine ⟨fun k hk e => ?_, fun k hk h1 h2 => ?_, fun h => ?_, fun h => ?_⟩
  · have := Interp.exact_at _ ((List.range (n + 1)).map y) (by simp) hs k (by simp; omega)
    simpa [e] using this
  · have := Interp.linear_between _ ((List.range (n + 1)).map y) (by simp) hs k (by simp; omega) t (by simpa using h1) (by simpa using h2)
    simpa using this
  · have := Interp.before ((List.range (n + 1)).map x) ((List.range (n + 1)).map y) (by simp) t (by simp) (by simpa using h)
    simpa using this
  · rcases h.lt_or_eq with h | h
    · have h0 : x 0 < t := by
        rcases Nat.eq_zero_or_pos n with rfl | hn
        · exact h
        · exact (hx 0 n hn le_rfl).trans h
      have := Interp.after ((List.range (n + 1)).map x) ((List.range (n + 1)).map y) (by simp) t (by simp) (by simpa using h.le) (Or.inl (by simpa using h0))
      simpa using this
    · have := Interp.exact_at _ ((List.range (n + 1)).map y) (by simp) hs n (by simp)
      simpa [h] using this

/-- **A line without a number.** A line with only a blank, or with the end of line of another system, at the end of the file is a row with time 0 and temperature 0: at every later time the temperature is 0. -/
theorem profile_blank_line (eps : K) (num : List Char → Option (K × List Char)) (o : Opts K) (hn : o.name = "profile") (l0 l : List Char) (ls : List (List Char)) (x y : K)
    (hf : o.file = some (l0 :: ls ++ [l])) (h0 : data l0 = true) (hr : row num l0 x y) (hd : data l = true) (hl : num l = none) :
    ∃ h, make eps num o = some h ∧ ∀ f t sol, x < t → 0 ≤ t → used eps h f t sol = some 0 := by
  refine ⟨.profile (readFile num ([], []) (l0 :: ls ++ [l])), by simp [make, hn, hf], fun f t sol h1 h2 => ?_⟩
  have hs : scan num l = (0, 0) := by simp [scan, hl]
  have hs0 := scan_row hr
  simp only [used, setTemperature, temperature, readFile_eq]
  have := Interp.after ([] ++ ((l0 :: ls ++ [l]).filter data).map (fun l => (scan num l).1)) ([] ++ ((l0 :: ls ++ [l]).filter data).map (fun l => (scan num l).2)) (by simp) t
    (by simp [h0]) (by simp [List.filter_append, h0, hd, hs, h2]) (Or.inl (by simp [h0, hs0, h1]))
  rw [this]
  simp [List.filter_append, h0, hd, hs]

/-- Without a file, or with one that has only comments, the first temperature asked for is read outside of a vector. -/
theorem profile_no_rows (eps : K) (num : List Char → Option (K × List Char)) (o : Opts K) (hn : o.name = "profile") (hf : ∀ ls, o.file = some ls → ∀ l ∈ ls, data l = false) :
    ∃ h, make eps num o = some h ∧ ∀ f t sol, used eps h f t sol = none := by
  refine ⟨.profile (readFile num ([], []) (o.file.getD [])), by simp [make, hn], fun f t sol => ?_⟩
  have : (o.file.getD []).filter data = [] := by
    rw [List.filter_eq_nil_iff]
    cases h : o.file with
    | none => simp
    | some ls => intro l hl; simpa using hf ls h l hl
  simp only [used, setTemperature, temperature, readFile_eq, this]
  rfl

/-! ## Heat -/

/-- What the option `heat` makes. -/
theorem make_heat (eps : K) (num : List Char → Option (K × List Char)) (o : Opts K) (hn : o.name = "heat") (hm : o.material ∈ heatMaterials) :
    make eps num o = some (.heat (makeHeat eps num o.param.1 o.param.2 o.file)) := by
  simp [make, hn, hm]

/-- What the option `ELM` makes. -/
theorem make_elm (eps : K) (num : List Char → Option (K × List Char)) (o : Opts K) (hn : o.name = "ELM") (hm : o.material ∈ heatMaterials) :
    make eps num o = some (.heat (elm o.param.1 (makeHeat eps num o.param.1 o.param.2 o.file))) := by
  simp [make, hn, hm]

/-- A flux larger than the machine epsilon is not taken for zero. -/
theorem not_zero (eps a : K) (h : eps ≤ |a|) : equal eps a 0 = false := by
  simpa [equal] using h

/-- **Heat.** With a flux that is not zero the temperature is the bulk temperature at time 0 and the temperature of the solution later, and the heat equation is added to its time derivative on every grid. -/
theorem heat_given_partial (eps : K) (he : 0 < eps) (num : List Char → Option (K × List Char)) (o : Opts K) (hn : o.name = "heat") (hm : o.material ∈ heatMaterials) (hq : eps ≤ |o.param.1|) :
    ∃ h, make eps num o = some h ∧ (∀ f sol, used eps h f 0 sol = some o.param.2) ∧ (∀ f t sol, eps ≤ |t| → used eps h f t sol = some sol) ∧ ∀ r, rateT false h r = r := by
  refine ⟨_, make_heat eps num o hn hm, fun f sol => ?_, fun f t sol ht => ?_, fun r => ?_⟩
  · simp [used, setTemperature, temperature, makeHeat, equal, num01, he]
  · simp [used, setTemperature, temperature, makeHeat, not_zero eps _ hq, not_zero eps t ht, num01]
  · simp [rateT, makeHeat, not_zero eps _ hq]

/-- **ELM.** The same with the first parameter as temperature of the bulk, whatever the parameters are. -/
theorem elm_given (eps : K) (he : 0 < eps) (num : List Char → Option (K × List Char)) (o : Opts K) (hn : o.name = "ELM") (hm : o.material ∈ heatMaterials) :
    ∃ h, make eps num o = some h ∧ (∀ f sol, used eps h f 0 sol = some o.param.1) ∧ (∀ f t sol, eps ≤ |t| → used eps h f t sol = some sol) ∧ ∀ r, rateT false h r = r := by
  refine ⟨_, make_elm eps num o hn hm, fun f sol => ?_, fun f t sol ht => ?_, fun r => ?_⟩
  · simp [used, setTemperature, temperature, elm, equal, num01, he]
  · simp [used, setTemperature, temperature, elm, not_zero eps t ht, num01]
  · simp [rateT, elm]

/-- **Heat, the flux.** Without a file it is the first parameter at every time. -/
theorem heat_flux [FloorRing K] (e : K → K) (eps : K) (num : List Char → Option (K × List Char)) (q b t : K) : heatFlux e (makeHeat eps num q b none) t = some q := by
  simp only [heatFlux, makeHeat, Bool.false_eq_true, if_false, Interp.interp]
  rcases le_or_gt t (-1) with h | h
  · simp [h]
  · simp [not_le.mpr h, h.le]

/-- With a file it is the interpolation of the rows of the file, and it has a value at every time if there is a row. -/
theorem heat_flux_file [FloorRing K] (e : K → K) (eps : K) (num : List Char → Option (K × List Char)) (q b : K) (ls : List (List Char)) (t : K) :
    heatFlux e (makeHeat eps num q b (some ls)) t = Interp.interp ((ls.filter data).map (fun l => (scan num l).1)) ((ls.filter data).map (fun l => (scan num l).2)) t ∧
      ((∃ l ∈ ls, data l = true) → ∃ v, heatFlux e (makeHeat eps num q b (some ls)) t = some v) := by
  have h : heatFlux e (makeHeat eps num q b (some ls)) t =
      Interp.interp ((ls.filter data).map (fun l => (scan num l).1)) ((ls.filter data).map (fun l => (scan num l).2)) t := by
    simp [heatFlux, makeHeat, readFile_eq]
  refine ⟨h, fun ⟨l, hl, hd⟩ => ?_⟩
  rw [h]
  exact Interp.defined _ _ (by simp) t (by rw [List.length_map]; exact List.length_pos_of_mem (List.mem_filter.mpr ⟨hl, hd⟩))

/-- **The file of fluxes is not used** if the first parameter is zero, as it is by default: the temperature is that of the bulk at all times, whatever the file has, and the heat equation is not solved. -/
theorem heat_file_ignored (eps : K) (he : 0 < eps) (num : List Char → Option (K × List Char)) (o : Opts K) (hn : o.name = "heat") (hm : o.material ∈ heatMaterials) (hq : o.param.1 = 0) :
    ∃ h, make eps num o = some h ∧ (∀ f t sol, used eps h f t sol = some o.param.2) ∧ ∀ z r, rateT z h r = 0 := by
  refine ⟨_, make_heat eps num o hn hm, fun f t sol => ?_, fun z r => ?_⟩
  · simp [used, setTemperature, temperature, makeHeat, hq, equal, he]
  · simp [rateT, makeHeat, hq, equal, he]

/-- Without heat parameters for the material, and for every other name, an exception is thrown. -/
theorem make_none (eps : K) (num : List Char → Option (K × List Char)) (o : Opts K) :
    make eps num o = none ↔ (o.name ∈ ["heat", "ELM"] ∧ o.material ∉ heatMaterials) ∨ o.name ∉ ["constant", "gradient", "profile", "heat", "ELM"] := by
  unfold make
  by_cases h1 : o.name = "constant"
  · simp [h1]
  by_cases h2 : o.name = "gradient"
  · simp [h2]
  by_cases h3 : o.name = "profile"
  · simp [h3]
  by_cases h4 : o.name = "heat" ∨ o.name = "ELM"
  · by_cases hm : o.material ∈ heatMaterials
    · rw [if_neg h1, if_neg h2, if_neg h3, if_pos h4, if_pos hm]; rcases h4 with h | h <;> simp [h, hm]
    · rw [if_neg h1, if_neg h2, if_neg h3, if_pos h4, if_neg hm]; rcases h4 with h | h <;> simp [h, hm]
  · rw [if_neg h1, if_neg h2, if_neg h3, if_neg h4]
    push Not at h4
    simp [h1, h2, h3, h4]

/-- **In zero dimensions** the options `heat` and `ELM` keep the temperature of the solution. -/
theorem zero_dimensions (h : Handler K) (r : K) : rateT true h r = 0 := by
  cases h <;> simp [rateT]

end field


/-! ## The temperature in the solution -/

/-- A temperature whose time derivative is zero stays what it was. -/
theorem kept (T : ℝ → ℝ) (h : ∀ t, HasDerivAt T 0 t) (t : ℝ) : T t = T 0 :=
  is_const_of_deriv_eq_zero (fun s => (h s).differentiableAt) (fun s => (h s).deriv) t 0

/-- **The temperature in the solution is the one that is used** at all times (later than the machine epsilon), except with a profile: if it starts as the temperature of the handler and changes with the rate of the handler. -/
theorem stored_used_partial (eps : ℝ) (he : 0 < eps) (zeroD : Bool) (h : Handler ℝ) (f : ℝ × ℝ × ℝ) (heat : ℝ → ℝ) (T : ℝ → ℝ)
    (h0 : temperature eps h f 0 = some (T 0)) (hT : ∀ t, HasDerivAt T (rateT zeroD h (heat t)) t) (hp : ∀ tab, h ≠ .profile tab) (t : ℝ) (ht : t = 0 ∨ eps ≤ |t|) :
    used eps h f t (T t) = some (T t) := by
  cases h with
  | constant c => rw [kept T (by simpa [rateT] using hT) t]; simpa [used, setTemperature, temperature] using h0
  | gradient s b => rw [kept T (by simpa [rateT] using hT) t]; simpa [used, setTemperature, temperature] using h0
  | profile tab => exact absurd rfl (hp tab)
  | heat s =>
    by_cases hz : s.zeroFlux = true
    · rw [kept T (by simpa [rateT, hz] using hT) t]
      simpa [used, setTemperature, temperature, hz] using h0
    · rcases ht with rfl | ht
      · simpa [used, setTemperature, temperature, hz, equal, he, num01] using h0
      · simp [used, setTemperature, temperature, hz, not_zero eps t ht, num01]

/-- **With a profile** the temperature in the solution, which goes into the files and the checkpoints, stays that of time 0; it differs from the one that is used whenever the profile differs from its value at time 0. -/
theorem stored_profile (eps : ℝ) (zeroD : Bool) (tab : List ℝ × List ℝ) (f : ℝ × ℝ × ℝ) (heat : ℝ → ℝ) (T : ℝ → ℝ)
    (h0 : temperature eps (.profile tab) f 0 = some (T 0)) (hT : ∀ t, HasDerivAt T (rateT zeroD (.profile tab) (heat t)) t) (t : ℝ) :
    some (T t) = temperature eps (.profile tab) f 0 ∧
      (Interp.interp tab.1 tab.2 t ≠ Interp.interp tab.1 tab.2 0 → used eps (.profile tab) f t (T t) ≠ some (T t)) := by
  have hk := kept T (by simpa [rateT] using hT) t
  refine ⟨by rw [hk, h0], fun hne => ?_⟩
  rw [hk, ← h0]
  simpa [used, setTemperature, temperature] using hne

/-- A profile from 300 K at time 0 to 1300 K at time 10: at time 5 the rates are those of 800 K, the solution has 300 K. -/
theorem stored_profile_wrong : ∃ (tab : List ℝ × List ℝ) (T : ℝ → ℝ), temperature 1 (.profile tab) (0, 0, 0) 0 = some (T 0) ∧ (∀ t, HasDerivAt T (rateT false (.profile tab) 0) t) ∧
    used 1 (.profile tab) (0, 0, 0) 5 (T 5) = some 800 ∧ T 5 = 300 := by
  refine ⟨([0, 10], [300, 1300]), fun _ => 300, ?_, fun t => ?_, ?_, rfl⟩
  · simp [temperature, Interp.interp]
  · simpa [rateT] using hasDerivAt_const t (300 : ℝ)
  · norm_num [used, setTemperature, temperature, Interp.interp, Interp.search, Interp.linear]

/-! ## The ELM flux -/

/-- The time since the start of the period, for the frequency of 50 per second. -/
theorem cycle_shift (t : ℝ) (n : ℤ) : t + n * (1 / 50) - (⌊(t + n * (1 / 50)) * 50⌋ : ℤ) * (1 / 50 : ℝ) = t - (⌊t * 50⌋ : ℤ) * (1 / 50 : ℝ) := by
  have : (t + n * (1 / 50)) * 50 = t * 50 + n := by ring
  rw [this, Int.floor_add_intCast]
  push_cast
  ring

/-- **The flux of ELM has the period 0.02 s.** -/
theorem elm_period (t : ℝ) (n : ℤ) : elmPulse Real.exp (t + n * (1 / 50)) = elmPulse Real.exp t := by
  simp only [elmPulse, cycle_shift]

/-- `(1 + y) y` is at most `e ^ y`. -/
theorem pulse_le (y : ℝ) (hy : 0 ≤ y) : (1 + y) * y * Real.exp (-y) ≤ 1 := by
  have h := Real.sum_le_exp_of_nonneg hy 5
  simp only [Finset.sum_range_succ, Finset.sum_range_zero, Nat.factorial] at h
  norm_num at h
  have h1 : (1 + y) * y ≤ Real.exp y := by nlinarith [sq_nonneg (y ^ 2 - 2), sq_nonneg (y - 1), sq_nonneg (y ^ 2 - y), mul_nonneg hy (sq_nonneg (y - 2)), mul_nonneg hy (sq_nonneg (y - 1))]
  rw [Real.exp_neg]
  have hp := Real.exp_pos y
  rw [← div_eq_mul_inv, div_le_one hp]
  exact h1

/-- **Its bounds**: at least the flux between two ELMs, at most this and the flux of an ELM. -/
theorem elm_bounds (t : ℝ) : 6 / 10 ^ 12 ≤ elmPulse Real.exp t ∧ elmPulse Real.exp t ≤ 6 / 10 ^ 12 + 74 / 10 ^ 11 := by
  simp only [elmPulse]
  generalize (if t - (⌊t * 50⌋ : ℤ) * (1 / 50 : ℝ) > 0 then _ else _ : ℝ) = x
  have h1 := pulse_le (x * x) (mul_self_nonneg x)
  have h2 : 0 ≤ (1 + x * x) * (x * x) * Real.exp (-(x * x)) :=
    mul_nonneg (mul_nonneg (by have := mul_self_nonneg x; linarith) (mul_self_nonneg x)) (Real.exp_pos _).le
  have e : (74 / 10 ^ 11 * (1 + x * x) * x * x * Real.exp (-x * x) : ℝ) = 74 / 10 ^ 11 * ((1 + x * x) * (x * x) * Real.exp (-(x * x))) := by
    rw [neg_mul]; ring
  rw [e]
  constructor <;> nlinarith

/-- At the start of every period it is the flux between two ELMs. -/
theorem elm_start (n : ℤ) : elmPulse Real.exp (n * (1 / 50)) = 6 / 10 ^ 12 := by
  have h := elm_period 0 n
  rw [zero_add] at h
  rw [h]
  simp [elmPulse]

/-- At a time `x * tau` after the start of a period, within it. -/
theorem elm_inside (n : ℤ) (c : ℝ) (h0 : 0 < c) (h1 : c < 1 / 50) :
    elmPulse Real.exp (n * (1 / 50) + c) = 6 / 10 ^ 12 + 74 / 10 ^ 11 * ((1 + (1 / 5000 / c) ^ 2) * (1 / 5000 / c) ^ 2 * Real.exp (-(1 / 5000 / c) ^ 2)) := by
  rw [add_comm, elm_period]
  have hf : ⌊c * 50⌋ = 0 := by
    rw [Int.floor_eq_zero_iff, Set.mem_Ico]
    constructor <;> linarith
  simp only [elmPulse, hf, Int.cast_zero, zero_mul, sub_zero, gt_iff_lt, if_pos h0]
  rw [show (8 / 10 * (25 / 10 ^ 5) : ℝ) = 1 / 5000 by norm_num]
  rw [show -(1 / 5000 / c) * (1 / 5000 / c) = -(1 / 5000 / c) ^ 2 by ring]
  ring

/-- **The flux of the option ELM**, whatever the parameters and the file are: at `c` seconds after the start of a period. -/
theorem elm_flux_given (eps : ℝ) (num : List Char → Option (ℝ × List Char)) (o : Opts ℝ) (hn : o.name = "ELM") (hm : o.material ∈ heatMaterials) :
    ∃ s, make eps num o = some (.heat s) ∧ ∀ (n : ℤ) (c : ℝ), (c = 0 → heatFlux Real.exp s (n * (1 / 50) + c) = some (6 / 10 ^ 12)) ∧ (0 < c → c < 1 / 50 → heatFlux Real.exp s (n * (1 / 50) + c) =
      some (6 / 10 ^ 12 + 74 / 10 ^ 11 * ((1 + (1 / 5000 / c) ^ 2) * (1 / 5000 / c) ^ 2 * Real.exp (-(1 / 5000 / c) ^ 2)))) := by
  refine ⟨_, make_elm eps num o hn hm, fun n c => ⟨?_, fun h0 h1 => ?_⟩⟩
  · rintro rfl
    simp only [heatFlux, elm, if_true, add_zero, elm_start]
  · simp only [heatFlux, elm, if_true, elm_inside n c h0 h1]

open Filter Topology in
/-- **No jump at the start**: just after the start of a period the flux tends to the one at the start. -/
theorem elm_start_continuous : Tendsto (fun c : ℝ => elmPulse Real.exp c) (𝓝[>] 0) (𝓝 (6 / 10 ^ 12)) := by
  have key : Tendsto (fun c : ℝ => 6 / 10 ^ 12 + 74 / 10 ^ 11 * ((1 + (1 / 5000 / c) ^ 2) * (1 / 5000 / c) ^ 2 * Real.exp (-(1 / 5000 / c) ^ 2))) (𝓝[>] 0) (𝓝 (6 / 10 ^ 12 + 74 / 10 ^ 11 * 0)) := by
    refine Tendsto.const_add _ (Tendsto.const_mul _ ?_)
    have a : Tendsto (fun c : ℝ => (1 / 5000 / c) ^ 2) (𝓝[>] 0) atTop := by
      have : Tendsto (fun c : ℝ => 1 / 5000 * c⁻¹) (𝓝[>] 0) atTop := Tendsto.const_mul_atTop (by norm_num) tendsto_inv_nhdsGT_zero
      simpa [div_eq_mul_inv, Function.comp_def] using (tendsto_pow_atTop (two_ne_zero)).comp this
    have b : Tendsto (fun y : ℝ => (1 + y) * y * Real.exp (-y)) atTop (𝓝 0) := by
      have b1 := Real.tendsto_pow_mul_exp_neg_atTop_nhds_zero 1
      have b2 := Real.tendsto_pow_mul_exp_neg_atTop_nhds_zero 2
      have := b1.add b2
      rw [add_zero] at this
      refine this.congr fun y => ?_
      ring
    exact b.comp a
  rw [mul_zero, add_zero] at key
  refine key.congr' ?_
  filter_upwards [Ioo_mem_nhdsGT (show (0 : ℝ) < 1 / 50 by norm_num)] with c hc
  have := elm_inside 0 c hc.1 hc.2
  simp only [Int.cast_zero, zero_mul, zero_add] at this
  exact this.symm

/-- **A jump at the end**: in the second half of a period the flux is always larger than at its start, by at least half of 10^-4 of the flux of an ELM, hence it falls by this when the next period starts. -/
theorem elm_jump (c : ℝ) (h0 : 1 / 100 ≤ c) (h1 : c < 1 / 50) : 6 / 10 ^ 12 + 74 / 10 ^ 11 / 20000 < elmPulse Real.exp c := by
  have := elm_inside 0 c (by linarith) h1
  simp only [Int.cast_zero, zero_mul, zero_add] at this
  rw [this]
  have hc : 0 < c := by linarith
  have hy1 : 1 / 100 < 1 / 5000 / c := by rw [lt_div_iff₀ hc]; linarith
  have hy2 : 1 / 5000 / c ≤ 1 / 50 := by rw [div_le_iff₀ hc]; linarith
  generalize 1 / 5000 / c = x at hy1 hy2
  have hs1 : 1 / 10000 < x ^ 2 := by nlinarith
  have hs2 : x ^ 2 ≤ 1 / 2500 := by nlinarith
  have he := Real.add_one_le_exp (-(x ^ 2))
  rw [show -x ^ 2 = -(x ^ 2) by ring]
  have hpos := Real.exp_pos (-(x ^ 2))
  generalize x ^ 2 = y at *
  have h2 : (1 / 20000 : ℝ) < (1 + y) * y * Real.exp (-y) := by
    have : (1 / 2 : ℝ) < Real.exp (-y) := by linarith
    have h3 : 1 / 10000 < (1 + y) * y := by nlinarith
    nlinarith
  nlinarith


/-! ## Examples -/

/-- A conversion of one digit after blanks, for the examples. -/
def digit : List Char → Option (ℚ × List Char)
  | [] => none
  | c :: r => if c = ' ' then digit r else if c.isDigit then some ((c.toNat - '0'.toNat : ℕ), r) else none

/-- A file with a comment, an empty line and two rows meets the hypotheses of `profile_given_partial`. -/
example : ∃ h, make (1 / 1000 : ℚ) digit ⟨"profile", (0, 0), some [['#', 't'], ['1', ' ', '3'], [], [' ', '2', ' ', '5']], ""⟩ = some h ∧
    used (1 / 1000) h (0, 0, 0) (3 / 2) 7 = some 4 ∧ used (1 / 1000) h (0, 0, 0) 1 7 = some 3 ∧ used (1 / 1000) h (0, 0, 0) 9 7 = some 5 := by
  refine (profile_given_partial (1 / 1000 : ℚ) digit ⟨"profile", (0, 0), some [['#', 't'], ['1', ' ', '3'], [], [' ', '2', ' ', '5']], ""⟩ rfl _ rfl
    (fun k => k + 1) (fun k => 2 * k + 3) 1 (by decide) ?_ ?_).imp fun h hh => ⟨hh.1, ?_, ?_, ?_⟩
  · intro k hk
    have : (([['#', 't'], ['1', ' ', '3'], [], [' ', '2', ' ', '5']] : List (List Char)).filter data) = [['1', ' ', '3'], [' ', '2', ' ', '5']] := by decide
    simp only [this] at hk ⊢
    match k, hk with
    | 0, _ =>
      have h1 : digit ['1', ' ', '3'] = some (((0 : ℕ) : ℚ) + 1, [' ', '3']) := by decide +kernel
      have h2 : digit [' ', '3'] = some (2 * ((0 : ℕ) : ℚ) + 3, []) := by decide +kernel
      exact ⟨_, _, h1, h2⟩
    | 1, _ =>
      have h1 : digit [' ', '2', ' ', '5'] = some (((1 : ℕ) : ℚ) + 1, [' ', '5']) := by decide +kernel
      have h2 : digit [' ', '5'] = some (2 * ((1 : ℕ) : ℚ) + 3, []) := by decide +kernel
      exact ⟨_, _, h1, h2⟩
  · intro i j hij _
    have : (i : ℚ) < j := by exact_mod_cast hij
    linarith
  · rw [(hh.2 (0, 0, 0) (3 / 2) 7).2.1 0 le_rfl (by norm_num) (by norm_num)]; norm_num
  · rw [(hh.2 (0, 0, 0) 1 7).2.2.1 (by norm_num)]; norm_num
  · rw [(hh.2 (0, 0, 0) 9 7).2.2.2 (by norm_num)]; norm_num

/-- The same file with a line of one blank at its end: the temperature is 0 from the first time on. -/
example : ∃ h, make (1 / 1000 : ℚ) digit ⟨"profile", (0, 0), some ([['1', ' ', '3'], ['2', ' ', '5']] ++ [[' ']]), ""⟩ = some h ∧ used (1 / 1000) h (0, 0, 0) (3 / 2) 7 = some 0 :=
  (profile_blank_line (1 / 1000 : ℚ) digit ⟨"profile", (0, 0), some ([['1', ' ', '3'], ['2', ' ', '5']] ++ [[' ']]), ""⟩ rfl ['1', ' ', '3'] [' '] [['2', ' ', '5']] 1 3 rfl
    (by decide) ⟨[' ', '3'], [], by decide +kernel, by decide +kernel⟩ (by decide) (by decide +kernel)).imp fun _ hh => ⟨hh.1, hh.2 _ _ _ (by norm_num) (by norm_num)⟩

/-- The file of a heat flux is not used with the parameters `0 400`; with `1 400` it is. -/
example : (∃ h, make (1 / 1000 : ℚ) digit ⟨"heat", (0, 400), some [['1', ' ', '3']], "W100"⟩ = some h ∧ used (1 / 1000) h (0, 0, 0) 5 700 = some 400) ∧
    ∃ h, make (1 / 1000 : ℚ) digit ⟨"heat", (1, 400), some [['1', ' ', '3']], "W100"⟩ = some h ∧ used (1 / 1000) h (0, 0, 0) 5 700 = some 700 :=
  ⟨(heat_file_ignored (1 / 1000 : ℚ) (by norm_num) digit ⟨"heat", (0, 400), some [['1', ' ', '3']], "W100"⟩ rfl (by decide) rfl).imp fun _ hh => ⟨hh.1, hh.2.1 _ _ _⟩,
    (heat_given_partial (1 / 1000 : ℚ) (by norm_num) digit ⟨"heat", (1, 400), some [['1', ' ', '3']], "W100"⟩ rfl (by decide) (by norm_num)).imp
      fun _ hh => ⟨hh.1, hh.2.2.1 _ _ _ (by norm_num)⟩⟩

/-- A file given with the default handler is not used: 0 K. -/
example : ∃ h, make (1 / 1000 : ℚ) digit ⟨"constant", (0, 0), some [['1', ' ', '3']], "W100"⟩ = some h ∧ ∀ f t sol, used (1 / 1000) h f t sol = some 0 :=
  constant_given (1 / 1000 : ℚ) digit ⟨"constant", (0, 0), some [['1', ' ', '3']], "W100"⟩ rfl

/-- A gradient on the grid 0, 1, 2, …, 10 with the surface at 0. -/
example : ∃ h, make (1 / 1000 : ℚ) digit ⟨"gradient", (300, 400), none, ""⟩ = some h ∧ ∃ a, used (1 / 1000) h
    (Xolotl.Solver.Initial.gridPosition ⟨9, 1, 1, 1, 1, 0, 0, 0, 0, fun _ _ => 0, fun i => i, 10, 1, 1, 3, fun _ => 0, [], []⟩ .one 0 0 4) 0 0 = some a ∧ 300 < a ∧ a < 400 := by
  refine (gradient_between (1 / 1000 : ℚ) digit ⟨"gradient", (300, 400), none, ""⟩ rfl (by norm_num) ⟨9, 1, 1, 1, 1, 0, 0, 0, 0, fun _ _ => 0, fun i => i, 10, 1, 1, 3, fun _ => 0, [], []⟩ .one
    (by decide) (fun a b h _ => show (a : ℚ) < b from by exact_mod_cast h) 0 0 4 5 (by decide) (by norm_num) (by norm_num)).imp fun h hh => ⟨hh.1, ?_⟩
  obtain ⟨a, b, h1, h2, h3, h4, h5⟩ := hh.2 0 0 0 0
  exact ⟨a, h1, h3, h4.trans h5⟩

/-- ELM with the temperature 400 of the bulk. -/
example : ∃ h, make (1 / 1000 : ℝ) (fun _ => none) ⟨"ELM", (400, 0), none, "TRIDYN"⟩ = some h ∧ used (1 / 1000) h (0, 0, 0) 5 700 = some 700 ∧ used (1 / 1000) h (0, 0, 0) 0 700 = some 400 :=
  (elm_given (1 / 1000 : ℝ) (by norm_num) _ ⟨"ELM", (400, 0), none, "TRIDYN"⟩ rfl (by decide)).imp fun _ hh => ⟨hh.1, hh.2.2.1 _ _ _ (by norm_num), hh.2.1 _ _⟩

end Xolotl.Transport.Temperature
