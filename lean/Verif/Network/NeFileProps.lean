import Verif.Network.NeFile
import Mathlib.Analysis.SpecialFunctions.ExpDeriv
import Mathlib.Algebra.BigOperators.Group.List.Basic
import Mathlib.Algebra.Order.BigOperators.Group.List
import Mathlib.Tactic.LinearCombination
import Mathlib.Tactic.Positivity
import Mathlib.Tactic.FieldSimp
import Mathlib.Tactic.NormNum

/-!
# C59: rates read from a file, fission gas network
-/

set_option linter.unusedSectionVars false

namespace Xolotl.Network.NeFile

open Real Xolotl.Network.Rates

theorem kB_pos : 0 < kB := by unfold kB; norm_num

/-! ## Reading the clusters -/

theorem links_defined (T : ℝ) : ∀ (m : ℕ) (l : List ℝ), l.length ≤ m → ((links T l).isSome ↔ 4 ∣ l.length) := by
  intro m
  induction m with
  | zero =>
    intro l h
    obtain rfl := List.length_eq_zero_iff.mp (Nat.le_zero.mp h)
    simp [links]
  | succ m ih =>
    intro l h
    match l, h with
    | [], _ => simp [links]
    | [_], _ => simp [links]
    | [_, _], _ => simp [links]
    | [_, _, _], _ => simp [links]
    | a :: b :: c :: d :: rest, h =>
      simp only [links, Option.isSome_map, List.length_cons] at h ⊢
      rw [ih rest (by omega)]
      constructor <;> intro q <;> omega

/-- **C59, lines about clusters.** A line is read without leaving its numbers exactly when it has seven numbers and then groups of four. -/
theorem entry_defined (T : ℝ) (l : List ℝ) : (entry T l).isSome ↔ 7 ≤ l.length ∧ 4 ∣ l.length - 7 := by
  match l with
  | [] => simp [entry]
  | [_] => simp [entry]
  | [_, _] => simp [entry]
  | [_, _, _] => simp [entry]
  | [_, _, _, _] => simp [entry]
  | [_, _, _, _, _] => simp [entry]
  | [_, _, _, _, _, _] => simp [entry]
  | a :: b :: c :: h :: s :: d :: q :: rest =>
    have := links_defined T rest.length rest le_rfl
    have e : (entry T (a :: b :: c :: h :: s :: d :: q :: rest)).isSome = (links T rest).isSome := by
      simp only [entry]
      cases links T rest <;> rfl
    rw [e, this]
    simp

/-- The loop: the value is the smallest of those seen, and the position is where it stands. -/
theorem smallest_loop : ∀ (rest pre : List Link) (g : ℝ) (low : ℕ), (∀ l ∈ pre, g ≤ l.g) → (∃ h : low < pre.length, pre[low].g = g) →
    let r := rest.foldl (fun (acc : (ℝ × ℕ) × ℕ) l => (if l.g < acc.1.1 then (l.g, acc.2) else acc.1, acc.2 + 1)) ((g, low), pre.length)
    (∀ l ∈ pre ++ rest, r.1.1 ≤ l.g) ∧ ∃ h : r.1.2 < (pre ++ rest).length, (pre ++ rest)[r.1.2].g = r.1.1 := by
  intro rest
  induction rest with
  | nil => intro pre g low h1 h2; simpa using ⟨h1, h2⟩
  | cons x rest ih =>
    intro pre g low h1 h2
    simp only [List.foldl_cons]
    have e : pre ++ x :: rest = (pre ++ [x]) ++ rest := by simp
    rw [e]
    have hl : pre.length + 1 = (pre ++ [x]).length := by simp
    by_cases c : x.g < g
    · simp only [if_pos c, hl]
      refine ih (pre ++ [x]) x.g pre.length ?_ ?_
      · intro l hm
        rcases List.mem_append.mp hm with m | m
        · exact c.le.trans (h1 l m)
        · rw [List.mem_singleton.mp m]
      · exact ⟨by simp, by simp⟩
    · simp only [if_neg c, hl]
      refine ih (pre ++ [x]) g low ?_ ?_
      · intro l hm
        rcases List.mem_append.mp hm with m | m
        · exact h1 l m
        · rw [List.mem_singleton.mp m]; exact not_lt.mp c
      · obtain ⟨h, e⟩ := h2
        exact ⟨by simp; omega, by rw [List.getElem_append_left h]; exact e⟩

/-- **C59, lowest state.** The free energy kept for a cluster is the smallest of its states, and the position kept is that of a state with this energy. -/
theorem entry_lowest (T : ℝ) (l : List ℝ) (e : Entry) (h : entry T l = some e) :
    (∀ s ∈ e.states, e.g ≤ s.g) ∧ ∃ hl : e.low < e.states.length, e.states[e.low].g = e.g := by
  match l, h with
  | a :: b :: c :: h0 :: s :: d :: q :: rest, h =>
    simp only [entry] at h
    cases hl : links T rest with
    | none => rw [hl] at h; exact absurd h (by simp)
    | some ls =>
      rw [hl] at h
      simp only [Option.bind_eq_bind, Option.bind_some, pure, Option.some.injEq] at h
      subst h
      exact smallest_loop ls [link T h0 s d q] (link T h0 s d q).g 0 (by simp) (by simp)

/-! ## Sums -/

theorem foldl_add_eq {α : Type} (f : α → ℝ) : ∀ (l : List α) (x : ℝ), l.foldl (fun acc a => acc + f a) x = x + (l.map f).sum
  | [], x => by simp
  | a :: l, x => by rw [List.foldl_cons, foldl_add_eq f l]; simp [add_assoc]

/-- The partition sum of the states of a cluster, relative to the lowest one. -/
noncomputable def weight (T : ℝ) (e : Entry) : ℝ := (e.states.map fun l => exp ((e.g - l.g) / (kB * T))).sum

theorem diffusivity_sum (T : ℝ) (e : Entry) : diffusivity T e = (e.states.map fun l => l.diff * exp ((e.g - l.g) / (kB * T))).sum := by
  rw [diffusivity, foldl_add_eq, zero_add]

/-- **C59, bounds of the diffusivity.** With states that have no negative diffusivity, that of the cluster lies between the one of its lowest state and the sum of all. -/
theorem diffusivity_bounds (T : ℝ) (hT : 0 < T) (l : List ℝ) (e : Entry) (h : entry T l = some e) (hd : ∀ s ∈ e.states, 0 ≤ s.diff) :
    (e.states.getD e.low ⟨0, 0⟩).diff ≤ diffusivity T e ∧ diffusivity T e ≤ (e.states.map Link.diff).sum := by
  obtain ⟨hmin, hlow, hg⟩ := entry_lowest T l e h
  have := kB_pos
  rw [diffusivity_sum]
  constructor
  · have hm : e.states[e.low].diff * exp ((e.g - e.states[e.low].g) / (kB * T)) ∈ e.states.map fun l => l.diff * exp ((e.g - l.g) / (kB * T)) :=
      List.mem_map.mpr ⟨_, List.getElem_mem hlow, rfl⟩
    rw [hg, sub_self, zero_div, exp_zero, mul_one] at hm
    rw [List.getD_eq_getElem?_getD, List.getElem?_eq_getElem hlow, Option.getD_some]
    refine List.single_le_sum ?_ _ hm
    intro x hx
    obtain ⟨s, hs, rfl⟩ := List.mem_map.mp hx
    exact mul_nonneg (hd s hs) (exp_pos _).le
  · refine List.sum_le_sum fun s hs => ?_
    have : exp ((e.g - s.g) / (kB * T)) ≤ 1 := by
      rw [exp_le_one_iff]
      exact div_nonpos_of_nonpos_of_nonneg (by linarith [hmin s hs]) (by positivity)
    exact mul_le_of_le_one_right (hd s hs) this

theorem sum_map_mul_const {α : Type} (f : α → ℝ) (c : ℝ) (l : List α) : (l.map fun a => f a * c).sum = (l.map f).sum * c := by
  induction l with
  | nil => simp
  | cons a l ih => simp only [List.map_cons, List.sum_cons, ih]; ring

theorem sum_map_add' {α : Type} (f g : α → ℝ) (l : List α) : (l.map fun a => f a + g a).sum = (l.map f).sum + (l.map g).sum := by
  induction l with
  | nil => simp
  | cons a l ih => simp only [List.map_cons, List.sum_cons, ih]; ring

/-- **C59, rate of a pair.** The double sum over the states is the diffusivity of each cluster times the partition sum of the other. -/
theorem pairRate_eq (T : ℝ) (a b : Entry) : pairRate T a b = diffusivity T a * weight T b + diffusivity T b * weight T a := by
  have inner : ∀ (i : Link) (x : ℝ), b.states.foldl (fun acc j =>
      acc + (i.diff + j.diff) * exp ((a.g - i.g) / (kB * T)) * exp ((b.g - j.g) / (kB * T))) x =
      x + (i.diff * exp ((a.g - i.g) / (kB * T)) * weight T b + exp ((a.g - i.g) / (kB * T)) * diffusivity T b) := by
    intro i x
    rw [foldl_add_eq fun (j : Link) => (i.diff + j.diff) * exp ((a.g - i.g) / (kB * T)) * exp ((b.g - j.g) / (kB * T)), diffusivity_sum, weight]
    congr 1
    induction b.states with
    | nil => simp
    | cons j l ih =>
      simp only [List.map_cons, List.sum_cons, ih]
      ring
  rw [pairRate]
  simp only [inner]
  rw [foldl_add_eq fun (i : Link) => i.diff * exp ((a.g - i.g) / (kB * T)) * weight T b + exp ((a.g - i.g) / (kB * T)) * diffusivity T b, zero_add,
    sum_map_add', sum_map_mul_const, sum_map_mul_const, ← diffusivity_sum]
  simp only [weight]
  ring

/-- **C59, order of a pair.** -/
theorem pairRate_symm (T : ℝ) (a b : Entry) : pairRate T a b = pairRate T b a := by
  rw [pairRate_eq, pairRate_eq]; ring

/-- The rate with the states of the product: sum of the diffusivities over all pairs of states times the partition sum of the product. -/
theorem productRate_eq (T : ℝ) (a b z : Entry) : productRate T a b z =
    (b.states.length * (a.states.map Link.diff).sum + a.states.length * (b.states.map Link.diff).sum) * weight T z := by
  have in1 : ∀ (i j : Link) (x : ℝ), z.states.foldl (fun acc k => acc + (i.diff + j.diff) * exp ((z.g - k.g) / (kB * T))) x =
      x + (i.diff + j.diff) * weight T z := by
    intro i j x
    rw [foldl_add_eq fun (k : Link) => (i.diff + j.diff) * exp ((z.g - k.g) / (kB * T)), weight]
    congr 1
    induction z.states with
    | nil => simp
    | cons k l ih => simp only [List.map_cons, List.sum_cons, ih]; ring
  have in2 : ∀ (i : Link) (x : ℝ), b.states.foldl (fun acc j => acc + (i.diff + j.diff) * weight T z) x =
      x + (b.states.length * i.diff + (b.states.map Link.diff).sum) * weight T z := by
    intro i x
    rw [foldl_add_eq fun (j : Link) => (i.diff + j.diff) * weight T z]
    congr 1
    induction b.states with
    | nil => simp
    | cons j l ih => simp only [List.map_cons, List.sum_cons, ih, List.length_cons, Nat.cast_add, Nat.cast_one]; ring
  rw [productRate]
  simp only [in1, in2]
  rw [foldl_add_eq fun (i : Link) => (b.states.length * i.diff + (b.states.map Link.diff).sum) * weight T z, zero_add]
  induction a.states with
  | nil => simp
  | cons i l ih => simp only [List.map_cons, List.sum_cons, ih, List.length_cons, Nat.cast_add, Nat.cast_one]; ring

theorem productRate_symm (T : ℝ) (a b z : Entry) : productRate T a b z = productRate T b a z := by
  rw [productRate_eq, productRate_eq]; ring

/-! ## Reading the reactions -/

/-- The positions of a line are below `n`. -/
def Line.below (n : ℕ) : Line → Prop
  | .sink a _ => a < n
  | .pair a b _ _ => a < n ∧ b < n

/-- A line is about the pair `a`, `b`. -/
def Line.about (a b : ℕ) : Line → Prop
  | .sink _ _ => False
  | .pair c d _ _ => (c = a ∧ d = b) ∨ (c = b ∧ d = a)

/-- One line keeps the tables symmetric. -/
theorem readLine_symm (T : ℝ) (n : ℕ) (es : ℕ → Entry) (t : Tables) (l : Line) (i j : ℕ) (hi : i < n) (hj : j < n)
    (h : (∀ k, t.rate i j k = t.rate j i k) ∧ t.energy i j = t.energy j i) :
    (∀ k, (readLine T n es t l).rate i j k = (readLine T n es t l).rate j i k) ∧
      (readLine T n es t l).energy i j = (readLine T n es t l).energy j i := by
  have sr : ∀ (t : Tables) a b s x, (∀ k, t.rate i j k = t.rate j i k) → ∀ k, (t.setRate a b s x).rate i j k = (t.setRate a b s x).rate j i k := by
    intro t a b s x h k
    simp only [Tables.setRate, h k, show ((i = a ∧ j = b) ∨ (i = b ∧ j = a)) ↔ ((j = a ∧ i = b) ∨ (j = b ∧ i = a)) by tauto]
  have se : ∀ (t : Tables) a b x, t.energy i j = t.energy j i → (t.setEnergy a b x).energy i j = (t.setEnergy a b x).energy j i := by
    intro t a b x h
    simp only [Tables.setEnergy, h, show ((i = a ∧ j = b) ∨ (i = b ∧ j = a)) ↔ ((j = a ∧ i = b) ∨ (j = b ∧ i = a)) by tauto]
  cases l with
  | sink a c =>
    have h1 : ¬ (i = a ∧ j = n) := fun q => by omega
    have h2 : ¬ (j = a ∧ i = n) := fun q => by omega
    simp only [readLine, if_neg h1, if_neg h2]
    exact h
  | pair a b prod on =>
    cases on with
    | false => exact ⟨sr _ _ _ _ _ (sr _ _ _ _ _ h.1), se _ _ _ _ h.2⟩
    | true =>
      cases prod with
      | none => exact ⟨sr _ _ _ _ _ h.1, se _ _ _ _ h.2⟩
      | some z => exact ⟨sr _ _ _ _ _ (sr _ _ _ _ _ h.1), se _ _ _ _ h.2⟩

theorem foldl_symm (T : ℝ) (n : ℕ) (es : ℕ → Entry) (i j : ℕ) (hi : i < n) (hj : j < n) : ∀ (ls : List Line) (t : Tables),
    ((∀ k, t.rate i j k = t.rate j i k) ∧ t.energy i j = t.energy j i) →
    (∀ k, (ls.foldl (readLine T n es) t).rate i j k = (ls.foldl (readLine T n es) t).rate j i k) ∧
      (ls.foldl (readLine T n es) t).energy i j = (ls.foldl (readLine T n es) t).energy j i
  | [], _, h => h
  | l :: ls, t, h => foldl_symm T n es i j hi hj ls _ (readLine_symm T n es t l i j hi hj h)

/-- **C59, symmetric tables.** After any file the rates and energies of a pair are the same in both orders. -/
theorem tables_symm (T : ℝ) (n : ℕ) (es : ℕ → Entry) (ls : List Line) (i j : ℕ) (hi : i < n) (hj : j < n) :
    (∀ k, (readLines T n es ls).rate i j k = (readLines T n es ls).rate j i k) ∧
      (readLines T n es ls).energy i j = (readLines T n es ls).energy j i :=
  foldl_symm T n es i j hi hj ls _ ⟨fun _ => rfl, rfl⟩

/-- Lines about other pairs change nothing for a pair. -/
theorem readLine_other (T : ℝ) (n : ℕ) (es : ℕ → Entry) (a b : ℕ) (hb : b < n) (t : Tables) (l : Line) (h : ¬ l.about a b) :
    (∀ k, (readLine T n es t l).rate a b k = t.rate a b k) ∧ (readLine T n es t l).energy a b = t.energy a b := by
  cases l with
  | sink c x =>
    have h1 : ¬ (a = c ∧ b = n) := fun q => by omega
    simp only [readLine, if_neg h1]
    exact ⟨fun _ => trivial, trivial⟩
  | pair c d prod on =>
    have h1 : ¬ ((a = c ∧ b = d) ∨ (a = d ∧ b = c)) := by simp only [Line.about] at h; tauto
    cases on with
    | false => exact ⟨fun k => by simp [readLine, Tables.setRate, Tables.setEnergy, h1], by simp [readLine, Tables.setRate, Tables.setEnergy, h1]⟩
    | true =>
      cases prod with
      | none => exact ⟨fun k => by simp [readLine, Tables.setRate, Tables.setEnergy, h1], by simp [readLine, Tables.setRate, Tables.setEnergy, h1]⟩
      | some z => exact ⟨fun k => by simp [readLine, Tables.setRate, Tables.setEnergy, h1], by simp [readLine, Tables.setRate, Tables.setEnergy, h1]⟩

theorem foldl_other (T : ℝ) (n : ℕ) (es : ℕ → Entry) (a b : ℕ) (hb : b < n) : ∀ (ls : List Line) (t : Tables), (∀ l ∈ ls, ¬ l.about a b) →
    (∀ k, (ls.foldl (readLine T n es) t).rate a b k = t.rate a b k) ∧ (ls.foldl (readLine T n es) t).energy a b = t.energy a b
  | [], _, _ => ⟨fun _ => rfl, rfl⟩
  | l :: ls, t, h => by
    obtain ⟨h1, h2⟩ := foldl_other T n es a b hb ls (readLine T n es t l) fun x hx => h x (List.mem_cons_of_mem _ hx)
    obtain ⟨g1, g2⟩ := readLine_other T n es a b hb t l (h l List.mem_cons_self)
    exact ⟨fun k => (h1 k).trans (g1 k), h2.trans g2⟩

/-- **C59, the last line about a pair decides** with a product: energy of the product minus energies of the reactants, and the two rates. -/
theorem last_line (T : ℝ) (n : ℕ) (es : ℕ → Entry) (pre post : List Line) (a b z : ℕ) (hb : b < n)
    (h : ∀ l ∈ post, ¬ l.about a b) :
    let t := readLines T n es (pre ++ .pair a b (some z) true :: post)
    t.rate a b 0 = pairRate T (es a) (es b) ∧ t.rate a b 1 = productRate T (es a) (es b) (es z) ∧
      t.energy a b = (es z).g - (es a).g - (es b).g := by
  intro t
  have ht : t = post.foldl (readLine T n es) (readLine T n es (pre.foldl (readLine T n es) .zero) (.pair a b (some z) true)) := by
    simp [t, readLines, List.foldl_append]
  obtain ⟨h1, h2⟩ := foldl_other T n es a b hb post (readLine T n es (pre.foldl (readLine T n es) .zero) (.pair a b (some z) true)) h
  rw [ht, h1, h1, h2]
  refine ⟨by simp [readLine, Tables.setRate, Tables.setEnergy], by simp [readLine, Tables.setRate, Tables.setEnergy], ?_⟩
  simp [readLine, Tables.setEnergy]
  ring

/-- The same without a product. -/
theorem last_line_none (T : ℝ) (n : ℕ) (es : ℕ → Entry) (pre post : List Line) (a b : ℕ) (hb : b < n)
    (h : ∀ l ∈ post, ¬ l.about a b) :
    let t := readLines T n es (pre ++ .pair a b none true :: post)
    t.rate a b 0 = pairRate T (es a) (es b) ∧ t.energy a b = -(es a).g - (es b).g := by
  intro t
  have ht : t = post.foldl (readLine T n es) (readLine T n es (pre.foldl (readLine T n es) .zero) (.pair a b none true)) := by
    simp [t, readLines, List.foldl_append]
  obtain ⟨h1, h2⟩ := foldl_other T n es a b hb post (readLine T n es (pre.foldl (readLine T n es) .zero) (.pair a b none true)) h
  rw [ht, h1, h2]
  exact ⟨by simp [readLine, Tables.setRate, Tables.setEnergy], by simp [readLine, Tables.setEnergy]⟩

/-! ## Thermal equilibrium -/

/-- The thermal equilibrium concentration of a cluster of free energy `g`. -/
noncomputable def equilibrium (omega T g : ℝ) : ℝ := exp (-g / (kB * T)) / omega

/-- **C59, detailed balance of the rates of the file.** Let the last line about clusters `i` and `j` name the product `k`.  Whatever the energies, production and dissociation cancel at the equilibrium concentrations. -/
theorem file_balance (Tf : ℝ) (n : ℕ) (es : ℕ → Entry) (pre post : List Line) (a b z : ℕ) (hb : b < n)
    (hpost : ∀ l ∈ post, ¬ l.about a b) (D : Data) (i j : ℕ) (eb : ℝ)
    (ht : D.tables = readLines Tf n es (pre ++ .pair a b (some z) true :: post))
    (hi : D.map i = some a) (hj : D.map j = some b) (h0 : 0 < pairRate Tf (es a) (es b)) (h1 : 0 < productRate Tf (es a) (es b) (es z)) :
    D.forward i j * equilibrium D.omega D.T (es a).g * equilibrium D.omega D.T (es b).g =
      D.backward eb i j * equilibrium D.omega D.T (es z).g := by
  obtain ⟨r0, r1, en⟩ := last_line Tf n es pre post a b z hb hpost
  rw [← ht] at r0 r1 en
  have hdG : D.deltaG i j = (es z).g - (es a).g - (es b).g := by simp only [Data.deltaG, hi, hj, en]
  have ea : ∀ x y : ℝ, exp (x / (kB * D.T)) * exp (y / (kB * D.T)) = exp ((x + y) / (kB * D.T)) := by
    intro x y; rw [← exp_add, add_div]
  by_cases c : D.deltaG i j > 0
  · have hf : D.fileForward i j = productRate Tf (es a) (es b) (es z) * exp (-D.deltaG i j / (kB * D.T)) := by
      simp only [Data.fileForward, hi, hj, if_pos c, r1]
    have hr : D.fileBackward i j = productRate Tf (es a) (es b) (es z) := by simp only [Data.fileBackward, hi, hj, if_pos c, r1]
    have pf : D.fileForward i j > 0 := by rw [hf]; positivity
    have pb : D.fileBackward i j > 0 := by rw [hr]; exact h1
    rw [Data.forward, if_pos pf, Data.backward, if_pos pb, hf, hr]
    have e : exp (-D.deltaG i j / (kB * D.T)) * exp (-(es a).g / (kB * D.T)) * exp (-(es b).g / (kB * D.T)) = exp (-(es z).g / (kB * D.T)) := by
      rw [ea, ea, hdG]; congr 2; ring
    simp only [equilibrium]
    rw [← e]
    ring
  · have hf : D.fileForward i j = pairRate Tf (es a) (es b) := by simp only [Data.fileForward, hi, hj, if_neg c, r0]
    have hr : D.fileBackward i j = pairRate Tf (es a) (es b) * exp (D.deltaG i j / (kB * D.T)) := by
      simp only [Data.fileBackward, hi, hj, if_neg c, r0]
    have pf : D.fileForward i j > 0 := by rw [hf]; exact h0
    have pb : D.fileBackward i j > 0 := by rw [hr]; positivity
    rw [Data.forward, if_pos pf, Data.backward, if_pos pb, hf, hr]
    have e : exp (D.deltaG i j / (kB * D.T)) * exp (-(es z).g / (kB * D.T)) = exp (-(es a).g / (kB * D.T)) * exp (-(es b).g / (kB * D.T)) := by
      rw [ea, ea, hdG]; congr 2; ring
    simp only [equilibrium]
    linear_combination (-(pairRate Tf (es a) (es b) * 4 * π * D.radius i * zFactor) / (D.omega * D.omega)) * e

/-- **C59, sinks at equilibrium.** A sink read from the file leaves the equilibrium concentration alone, pulls every other concentration towards it, and its Jacobian entry is the derivative of its flux. -/
theorem sink_balance (Tf : ℝ) (n : ℕ) (es : ℕ → Entry) (t : Tables) (coef : ℝ) (a : ℕ) (D : Data) (i : ℕ) (isI : Bool)
    (ht : D.tables = readLine Tf n es t (.sink a coef)) (hi : D.map i = some a) :
    D.sink n isI i (equilibrium D.omega D.T (es a).g) = some 0 ∧
    ∀ c, D.sink n isI i c = some (100 * sinkBias isI * (coef * diffusivity Tf (es a)) * (equilibrium D.omega D.T (es a).g - c)) ∧
      D.sinkPartial n isI i = some (-(100 * sinkBias isI * (coef * diffusivity Tf (es a)))) := by
  have hr : D.tables.rate a n 0 = coef * diffusivity Tf (es a) := by rw [ht]; simp [readLine]
  have he : D.tables.energy a n = -(es a).g := by rw [ht]; simp [readLine]
  refine ⟨?_, fun c => ⟨?_, ?_⟩⟩
  · simp [Data.sink, hi, he, equilibrium]
  · simp [Data.sink, hi, hr, he, equilibrium, zFactor]
  · simp only [Data.sinkPartial, hi, hr, zFactor, Option.bind_eq_bind, Option.bind_some, pure, Option.some.injEq]; ring

/-- **C59 fails for the recombination of an interstitial and a vacancy.** The thermal source uses the energy times the temperature instead of divided by it.  At the equilibrium concentrations it cancels the recombination only for an energy of zero or a temperature of 1 K. -/
theorem recombination_unbalanced (Tf : ℝ) (n : ℕ) (es : ℕ → Entry) (pre post : List Line) (a b : ℕ) (hb : b < n)
    (hpost : ∀ l ∈ post, ¬ l.about a b) (D : Data) (i j : ℕ)
    (ht : D.tables = readLines Tf n es (pre ++ .pair a b none true :: post))
    (hi : D.map i = some a) (hj : D.map j = some b) (h0 : 0 < pairRate Tf (es a) (es b))
    (hT : 0 < D.T) (ho : 0 < D.omega) (hr : 0 < D.radius i) (hg : 0 ≤ (es a).g + (es b).g) :
    ∃ s, D.source i j = some s ∧
      (D.forward i j * equilibrium D.omega D.T (es a).g * equilibrium D.omega D.T (es b).g = s ↔ (es a).g + (es b).g = 0 ∨ D.T = 1) := by
  obtain ⟨r0, en⟩ := last_line_none Tf n es pre post a b hb hpost
  rw [← ht] at r0 en
  have hk := kB_pos
  have hpi := pi_pos
  have hdG : D.deltaG i j = -(es a).g - (es b).g := by simp only [Data.deltaG, hi, hj, en]
  have hf : D.fileForward i j = pairRate Tf (es a) (es b) := by
    simp only [Data.fileForward, hi, hj, r0]
    rw [if_neg (by rw [hdG]; linarith)]
  refine ⟨(1 / (D.omega * D.omega)) * pairRate Tf (es a) (es b) * exp (D.deltaG i j / kB * D.T) * 4 * π * D.radius i * zFactor, ?_, ?_⟩
  · simp [Data.source, hi, hj, r0]
  rw [Data.forward, if_pos (by rw [hf]; exact h0), hf]
  have ez : zFactor = 100 := rfl
  have hpos : 0 < pairRate Tf (es a) (es b) * 4 * π * D.radius i * zFactor / (D.omega * D.omega) := by rw [ez]; positivity
  have lhs : pairRate Tf (es a) (es b) * 4 * π * D.radius i * zFactor * equilibrium D.omega D.T (es a).g * equilibrium D.omega D.T (es b).g =
      pairRate Tf (es a) (es b) * 4 * π * D.radius i * zFactor / (D.omega * D.omega) * exp (D.deltaG i j / (kB * D.T)) := by
    have e : exp (D.deltaG i j / (kB * D.T)) = exp (-(es a).g / (kB * D.T)) * exp (-(es b).g / (kB * D.T)) := by
      rw [← exp_add, ← add_div, hdG]; congr 2
    rw [e, equilibrium, equilibrium]; ring
  have rhs : (1 / (D.omega * D.omega)) * pairRate Tf (es a) (es b) * exp (D.deltaG i j / kB * D.T) * 4 * π * D.radius i * zFactor =
      pairRate Tf (es a) (es b) * 4 * π * D.radius i * zFactor / (D.omega * D.omega) * exp (D.deltaG i j / kB * D.T) := by ring
  rw [lhs, rhs, mul_right_inj' hpos.ne', exp_eq_exp, hdG]
  constructor
  · intro h
    have h2 : (-(es a).g - (es b).g) * (1 - D.T * D.T) = 0 := by
      field_simp at h
      linear_combination h
    rcases mul_eq_zero.mp h2 with q | q
    · left; linarith
    · right; nlinarith
  · rintro (h | h)
    · have : -(es a).g - (es b).g = 0 := by linarith
      simp [this]
    · simp [h]

/-- **C59, a recombination with a cluster missing in the file is undefined.** -/
theorem recombination_unmapped (D : Data) (i j : ℕ) (h : D.map i = none ∨ D.map j = none) : D.source i j = none := by
  rcases h with h | h
  · simp [Data.source, h]
  · simp only [Data.source, h]
    cases D.map i <;> rfl

/-- **C59, pairs without a line.** They have no rates and no energy. -/
theorem unlisted (T : ℝ) (n : ℕ) (es : ℕ → Entry) (ls : List Line) (a b : ℕ) (hb : b < n) (h : ∀ l ∈ ls, ¬l.about a b) :
    (∀ k, (readLines T n es ls).rate a b k = 0) ∧ (readLines T n es ls).energy a b = 0 :=
  foldl_other T n es a b hb ls .zero h

/-- **C59, a state.** The diffusivity is the factor at infinite temperature and falls by `e` for every `kB T` of migration energy; the free energy is the enthalpy less temperature times entropy. -/
theorem link_law (T h s d q : ℝ) (hT : 0 < T) :
    (link T h s d q).diff * exp (q / (kB * T)) = d ∧ (link T h s d (q + kB * T)).diff = (link T h s d q).diff / exp 1 ∧ (link T h s d q).g + T * (kB * s) = h := by
  have hk := kB_pos
  have hkT : kB * T ≠ 0 := (mul_pos hk hT).ne'
  refine ⟨?_, ?_, ?_⟩
  · show d * exp (-q / (kB * T)) * exp (q / (kB * T)) = d
    rw [mul_assoc, ← exp_add, neg_div, neg_add_cancel, exp_zero, mul_one]
  · show d * exp (-(q + kB * T) / (kB * T)) = d * exp (-q / (kB * T)) / exp 1
    rw [mul_div_assoc, ← exp_sub]
    congr 2
    field_simp
    ring
  · show h - kB * T * s + T * (kB * s) = h
    ring

/-- **C59, diffusion coefficients.** No diffusion with infinite migration energy; otherwise the factor over `e` for every `kB T` of it. -/
theorem coefficient_law (D : Data) (i : ℕ) (_hT : 0 < D.T) :
    (D.migration i = none → D.coefficient i = 0) ∧ (∀ m, 0 ≤ m → D.migration i = some m → D.coefficient i * exp (m / (kB * D.T)) = D.factor i) := by
  have hk := kB_pos
  refine ⟨fun h => by simp [Data.coefficient, h], fun m hm h => ?_⟩
  simp only [Data.coefficient, h]
  rcases hm.lt_or_eq with hp | hz
  · rw [if_pos hp, mul_assoc, ← exp_add, neg_div, neg_add_cancel, exp_zero, mul_one]
  · subst hz; simp

/-- **C59, bias.** A sink takes interstitials ten per cent faster than the rest. -/
theorem sink_bias (D : Data) (n i a : ℕ) (c : ℝ) (ha : D.map i = some a) :
    ∃ y, D.sink n false i c = some y ∧ D.sink n true i c = some (1.1 * y) ∧ y = 100 * D.tables.rate a n 0 * (exp (D.tables.energy a n / (kB * D.T)) / D.omega - c) := by
  refine ⟨_, ?_, ?_, rfl⟩
  · simp only [Data.sink, ha, bind, Option.bind, pure]
    norm_num [sinkBias, zFactor]
  · simp only [Data.sink, ha, bind, Option.bind, pure]
    norm_num [sinkBias, zFactor]
    ring

/-! ## Rates that are not in the file -/

/-- The generator's values (no diffusion, infinite migration energy), or a diffusivity from the file with migration energy 0.  xolotl/core/include/xolotl/core/network/impl/NEClusterGenerator.tpp:138-151, NEReactionNetwork.tpp:140-141. -/
def Data.given (D : Data) (i : ℕ) : Prop := (D.migration i = none ∧ D.factor i = 0) ∨ D.migration i = some 0

/-- **C59, factor and coefficient.** The production uses the diffusion factor and the dissociation the diffusion coefficient; in this network they are equal, at every temperature. -/
theorem coefficient_eq (D : Data) (i : ℕ) (h : D.given i) : D.coefficient i = D.factor i := by
  rcases h with ⟨h, f⟩ | h
  · simp [Data.coefficient, h, f]
  · simp [Data.coefficient, h]

/-- **C59, reverse rate outside the file.** When neither rate comes from the file, the dissociation is the reverse of the production. -/
theorem reverse_outside (D : Data) (eb : ℝ) (i j : ℕ) (hi : D.given i) (hj : D.given j) (hf : ¬ D.fileForward i j > 0) (hb : ¬ D.fileBackward i j > 0) :
    D.backward eb i j = D.forward i j * exp (-eb / (kB * D.T)) / D.omega := by
  rw [Data.backward, if_neg hb, Data.forward, if_neg hf, coefficient_eq D i hi, coefficient_eq D j hj]
  ring

/-- **C59, a reaction switched off in the file is not switched off.** A line with 0 in its last place stores the rate 0; the production then takes the rate computed from radii and diffusion factors. -/
theorem switched_off (Tf : ℝ) (n : ℕ) (es : ℕ → Entry) (pre post : List Line) (a b : ℕ) (prod : Option ℕ) (hb : b < n)
    (hpost : ∀ l ∈ post, ¬ l.about a b) (D : Data) (i j : ℕ)
    (ht : D.tables = readLines Tf n es (pre ++ .pair a b prod false :: post)) (hi : D.map i = some a) (hj : D.map j = some b) :
    D.forward i j = 400 * π * (D.radius i + D.radius j) * (D.factor i + D.factor j) := by
  have e : D.tables = post.foldl (readLine Tf n es) (readLine Tf n es (pre.foldl (readLine Tf n es) .zero) (.pair a b prod false)) := by
    rw [ht]; simp [readLines, List.foldl_append]
  obtain ⟨h1, h2⟩ := foldl_other Tf n es a b hb post (readLine Tf n es (pre.foldl (readLine Tf n es) .zero) (.pair a b prod false)) hpost
  rw [← e] at h1 h2
  have r : D.tables.rate a b 0 = 0 := by rw [h1]; simp [readLine, Tables.setRate, Tables.setEnergy]
  have g : D.tables.energy a b = 0 := by rw [h2]; simp [readLine, Tables.setEnergy]
  have hf : ¬ D.fileForward i j > 0 := by simp [Data.fileForward, Data.deltaG, hi, hj, r, g]
  rw [Data.forward, if_neg hf, neRate, zFactor]
  ring

/-- **C59, the rate of a pair from the file depends on the numbering.** Only the radius of the first cluster enters. -/
theorem first_radius (D : Data) (i j a b : ℕ) (hi : D.map i = some a) (hj : D.map j = some b)
    (hs : (∀ k, D.tables.rate a b k = D.tables.rate b a k) ∧ D.tables.energy a b = D.tables.energy b a) (hf : D.fileForward i j > 0)
    (hr : D.radius i ≠ D.radius j) : D.forward i j ≠ D.forward j i := by
  have hg : D.deltaG j i = D.deltaG i j := by simp only [Data.deltaG, hi, hj, hs.2]
  have e : D.fileForward j i = D.fileForward i j := by simp only [Data.fileForward, hi, hj, hg, hs.1]
  rw [Data.forward, Data.forward, e, if_pos hf, if_pos hf, zFactor]
  intro h
  apply hr
  have hpi := pi_pos
  have : D.fileForward i j * 4 * π * 100 * (D.radius i - D.radius j) = 0 := by linear_combination h
  rcases mul_eq_zero.mp this with q | q
  · exact absurd q (by positivity)
  · linarith

/-! ## Examples -/

/-- A cluster with two states. -/
noncomputable example (T : ℝ) : ∃ e, entry T [1, 2, 0, 3, 0, 5, 1, 2, 0, 7, 1] = some e ∧ e.g = 2 ∧ e.low = 1 := by
  refine ⟨_, rfl, ?_, ?_⟩ <;> norm_num [smallest, link]

/-- A file with a cluster of each kind, one production and one recombination. -/
noncomputable def exEntry : ℕ → Entry
  | 0 => ⟨[⟨2, 1⟩], 1, 0⟩
  | 1 => ⟨[⟨3, 2⟩], 2, 0⟩
  | _ => ⟨[⟨0, 4⟩], 4, 0⟩

noncomputable def exLines : List Line := [.sink 0 1, .pair 0 1 (some 2) true, .pair 0 0 none true]

noncomputable def exData : Data where
  tables := readLines 1000 3 exEntry exLines
  map := some
  radius := fun i => 1 + i
  factor := fun i => if i = 2 then 0 else 1
  migration := fun _ => some 0
  omega := 0.1
  T := 1200

theorem ex_pair : pairRate 1000 (exEntry 0) (exEntry 1) = 5 ∧ productRate 1000 (exEntry 0) (exEntry 1) (exEntry 2) = 5 ∧
    pairRate 1000 (exEntry 0) (exEntry 0) = 4 := by
  refine ⟨?_, ?_, ?_⟩ <;> norm_num [pairRate, productRate, exEntry]

example : exData.forward 0 1 * equilibrium exData.omega exData.T 1 * equilibrium exData.omega exData.T 2 =
    exData.backward 7 0 1 * equilibrium exData.omega exData.T 4 :=
  file_balance 1000 3 exEntry [.sink 0 1] [.pair 0 0 none true] 0 1 2 (by norm_num)
    (by intro l hl; simp only [List.mem_singleton] at hl; subst hl; simp [Line.about]) exData 0 1 7 rfl rfl rfl
    (by rw [ex_pair.1]; norm_num) (by rw [ex_pair.2.1]; norm_num)

example : ∃ s, exData.source 0 0 = some s ∧
    exData.forward 0 0 * equilibrium exData.omega exData.T 1 * equilibrium exData.omega exData.T 1 ≠ s := by
  obtain ⟨s, h, e⟩ := recombination_unbalanced 1000 3 exEntry [.sink 0 1, .pair 0 1 (some 2) true] [] 0 0 (by norm_num) (by simp) exData 0 0
    rfl rfl rfl (by rw [ex_pair.2.2]; norm_num) (by norm_num [exData]) (by norm_num [exData]) (by norm_num [exData]) (by norm_num [exEntry])
  refine ⟨s, h, fun q => ?_⟩
  rcases e.mp q with r | r
  · norm_num [exEntry] at r
  · norm_num [exData] at r

end Xolotl.Network.NeFile
