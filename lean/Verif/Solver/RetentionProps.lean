import Verif.Solver.Retention
import Verif.Solver.MoveProps
import Verif.Transport.StencilProps
import Mathlib.Tactic.Linarith
import Mathlib.Tactic.NormNum
import Mathlib.Tactic.FieldSimp
import Mathlib.Tactic.Ring

set_option linter.unusedSectionVars false

/-!
# Properties of the account of what left the material (C61)
-/

namespace Xolotl.Solver.Retention

variable {K : Type*} [Field K] [LinearOrder K] [IsStrictOrderedRing K]

/-! ### Processes -/

/-- **C61, processes.** When the grid is divided among the processes, all of them hold the owner's account after every call. -/
theorem surface_agree (np : ℕ) (xs xm : ℕ → ℕ) (xi r : ℕ) (hr : r < np) (hown : xs r ≤ xi ∧ xi < xs r + xm r) (huniq : ∀ q < np, xs q ≤ xi ∧ xi < xs q + xm q → q = r)
    (skip : ℕ → Bool) (timestep : ℕ) (dt : K) (flux : ℕ → ℕ → K) (st : ℕ → Acc K) (q : ℕ) :
    surface np xs xm xi skip timestep dt flux st q = update skip timestep dt (flux r) (st r) := by
  unfold surface
  dsimp only
  rw [Move.holder_unique xs xm np xi r hr hown huniq, if_pos hown]

/-! ### One loop -/

/-- What left during a loop: the flux at the start of each step times its length. -/
def left (l : List (Call K)) (s : ℕ) : K := ∑ k ∈ Finset.range (l.length - 1), (l.getD k ⟨0, fun _ => 0⟩).flux s * ((l.getD (k + 1) ⟨0, fun _ => 0⟩).time - (l.getD k ⟨0, fun _ => 0⟩).time)

theorem left_cons (c d : Call K) (l : List (Call K)) (s : ℕ) : left (c :: d :: l) s = c.flux s * (d.time - c.time) + left (d :: l) s := by
  unfold left
  simp only [List.length_cons, Nat.add_sub_cancel]
  rw [Finset.sum_range_succ', add_comm]
  simp

theorem left_nil (s : ℕ) : left ([] : List (Call K)) s = 0 := rfl
theorem left_single (c : Call K) (s : ℕ) : left [c] s = 0 := rfl

/-- Going on with positive step numbers. -/
theorem runLoop_pos (skip : ℕ → Bool) (s : ℕ) (hs : skip s = false) : ∀ (l : List (Call K)) (k : ℕ) (a : Acc K) (c : Call K), 0 < k → a.prev s = c.flux s →
    (runLoop skip k a c.time l).1.n s = a.n s + left (c :: l) s := by
  intro l
  induction l with
  | nil => intro k a c _ _; simp [runLoop, left_single]
  | cons d l ih =>
    intro k a c hk ha
    rw [runLoop, ih (k + 1) _ d (by omega) (by simp [update, hs]), left_cons]
    simp only [update, hk, hs, and_self, if_true, ha]
    ring

/-- **C61, one loop.** After any steps the account has grown by the flux at the start of each step times its length. -/
theorem runLoop_left (skip : ℕ → Bool) (s : ℕ) (hs : skip s = false) (a : Acc K) (t : K) (l : List (Call K)) : (runLoop skip 0 a t l).1.n s = a.n s + left l s := by
  cases l with
  | nil => simp [runLoop, left_nil]
  | cons c l =>
    rw [runLoop, runLoop_pos skip s hs l 1 _ c (by omega) (by simp [update, hs])]
    simp [update]

/-- Species that the moving surface keeps account of are left alone. -/
theorem runLoop_skip (skip : ℕ → Bool) (s : ℕ) (hs : skip s = true) : ∀ (l : List (Call K)) (k : ℕ) (a : Acc K) (t : K),
    (runLoop skip k a t l).1.n s = a.n s ∧ (runLoop skip k a t l).1.prev s = a.prev s := by
  intro l
  induction l with
  | nil => intro k a t; exact ⟨rfl, rfl⟩
  | cons d l ih =>
    intro k a t
    rw [runLoop]
    obtain ⟨h1, h2⟩ := ih (k + 1) (update skip k (d.time - t) d.flux a) d.time
    exact ⟨by rw [h1]; simp [update, hs], by rw [h2]; simp [update, hs]⟩

/-- A loop begun with a later step number, when the number matters no more. -/
theorem runLoop_shift (skip : ℕ → Bool) : ∀ (l : List (Call K)) (j k : ℕ) (a : Acc K) (t : K), 0 < j → 0 < k → runLoop skip j a t l = runLoop skip k a t l := by
  intro l
  induction l with
  | nil => intros; rfl
  | cons d l ih =>
    intro j k a t hj hk
    rw [runLoop, runLoop, ih (j + 1) (k + 1) _ _ (by omega) (by omega)]
    simp [update, hj, hk]

theorem runLoop_append (skip : ℕ → Bool) : ∀ (l l' : List (Call K)) (k : ℕ) (a : Acc K) (t : K),
    runLoop skip k a t (l ++ l') = runLoop skip (k + l.length) (runLoop skip k a t l).1 (runLoop skip k a t l).2 l' := by
  intro l
  induction l with
  | nil => intro l' k a t; rfl
  | cons d l ih =>
    intro l' k a t
    rw [List.cons_append, runLoop, ih, runLoop]
    simp only [List.length_cons]
    rw [show k + 1 + l.length = k + (l.length + 1) by omega]

/-- **C61, restart.** A run that is stopped after the checkpoint at call `c` and restarted from it (the account read from the file, the state and hence the fluxes being those at `c`) ends with the same account as the run that was not stopped, whatever previous time is read. -/
theorem restart_same (skip : ℕ → Bool) (a : Acc K) (t t' : K) (pre post : List (Call K)) (c : Call K) :
    runLoop skip 0 a t (pre ++ c :: post) = runLoop skip 0 (runLoop skip 0 a t (pre ++ [c])).1 t' (c :: post) := by
  rw [show pre ++ c :: post = (pre ++ [c]) ++ post by simp, runLoop_append]
  conv_rhs => rw [runLoop]
  have e1 : (runLoop skip 0 a t (pre ++ [c])).2 = c.time := by
    rw [runLoop_append]; rfl
  have e2 : update skip 0 (c.time - t') c.flux (runLoop skip 0 a t (pre ++ [c])).1 = (runLoop skip 0 a t (pre ++ [c])).1 := by
    rw [runLoop_append]
    simp only [runLoop, update, lt_self_iff_false, false_and, if_false]
    ext s
    · rfl
    · dsimp only
      split_ifs <;> rfl
  rw [e2, e1]
  exact runLoop_shift skip post _ _ _ _ (by simp) (by omega)

/-! ### Several loops -/

/-- **C61, three dimensions.** Over any number of loops the account is what left in all of them. -/
theorem solve3_total (skip : ℕ → Bool) (s : ℕ) (hs : skip s = false) (ls : List (List (Call K))) : ∀ (kept : List (Acc K)) (a : Acc K) (t : K),
    ∃ b, solve keep3 skip kept a t ls = some b ∧ b.n s = a.n s + (ls.map fun l => left l s).sum := by
  induction ls with
  | nil => intro kept a t; exact ⟨a, rfl, by simp⟩
  | cons l ls ih =>
    intro kept a t
    cases ls with
    | nil => exact ⟨_, rfl, by simp [runLoop_left skip s hs]⟩
    | cons l' ls =>
      obtain ⟨b, e, hb⟩ := ih (keep3 kept (runLoop skip 0 a t l).1) (runLoop skip 0 a t l).1 (runLoop skip 0 a t l).2
      refine ⟨b, ?_, ?_⟩
      · rw [solve]; exact e
      · rw [hb, runLoop_left skip s hs, List.map_cons (a := l), List.sum_cons (a := left l s)]; ring

/-- Once something is kept, every later loop begins with the first entry. -/
theorem solve_kept (skip : ℕ → Bool) (s : ℕ) (hs : skip s = false) (b : Acc K) (ls : List (List (Call K))) : ∀ (kept : List (Acc K)) (a : Acc K) (t : K), kept.head? = some b →
    a.n s = b.n s → (last : List (Call K)) → ∃ r, solve keep skip kept a t (ls ++ [last]) = some r ∧ r.n s = b.n s + left last s := by
  induction ls with
  | nil => intro kept a t _ ha last; exact ⟨_, rfl, by rw [runLoop_left skip s hs, ha]⟩
  | cons l ls ih =>
    intro kept a t hk _ last
    have hk' : (keep kept (runLoop skip 0 a t l).1).head? = some b := by
      unfold keep
      cases kept with
      | nil => simp at hk
      | cons x xs => simpa using hk
    obtain ⟨r, e, hr⟩ := ih (keep kept (runLoop skip 0 a t l).1) b (runLoop skip 0 a t l).2 hk' rfl last
    refine ⟨r, ?_, hr⟩
    cases ls with
    | nil => rw [List.cons_append, List.nil_append, solve, hk']; exact e
    | cons l' ls => rw [List.cons_append, List.cons_append, solve, hk']; exact e

/-- **C61 fails in one and two dimensions.** After the surface moved more than once, the account holds what left in the first and in the last loop only: every new loop begins with what was kept at the end of the first. -/
theorem solve_first_last (skip : ℕ → Bool) (s : ℕ) (hs : skip s = false) (a : Acc K) (t : K) (first : List (Call K)) (mid : List (List (Call K))) (last : List (Call K)) :
    ∃ r, solve keep skip [] a t (first :: mid ++ [last]) = some r ∧ r.n s = a.n s + left first s + left last s := by
  have := solve_kept skip s hs (runLoop skip 0 a t first).1 mid (keep [] (runLoop skip 0 a t first).1) (runLoop skip 0 a t first).1 (runLoop skip 0 a t first).2 rfl rfl last
  obtain ⟨r, e, hr⟩ := this
  refine ⟨r, ?_, ?_⟩
  · cases mid with
    | nil => rw [List.cons_append, List.nil_append, solve]; exact e
    | cons l ls => rw [List.cons_append, List.cons_append, solve]; exact e
  · rw [hr, runLoop_left skip s hs]

/-- **C61, one and two dimensions.** Full claim: the account holds what left in all loops.  Proved when the surface moved at most once; `solve_first_last` says what happens otherwise. -/
theorem solve_total_partial (skip : ℕ → Bool) (s : ℕ) (hs : skip s = false) (a : Acc K) (t : K) (ls : List (List (Call K))) (h : ls.length ≤ 2) :
    ∃ r, solve keep skip [] a t ls = some r ∧ r.n s = a.n s + (ls.map fun l => left l s).sum := by
  rcases ls with _ | ⟨l, _ | ⟨l', _ | ⟨l'', ls⟩⟩⟩
  · exact ⟨a, rfl, by simp⟩
  · exact ⟨_, rfl, by simp [runLoop_left skip s hs]⟩
  · obtain ⟨r, e, hr⟩ := solve_first_last skip s hs a t l [] l'
    exact ⟨r, e, by rw [hr]; simp [add_assoc]⟩
  · simp at h

/-- What is lost. -/
theorem moves_lose : ∃ (ls : List (List (Call ℚ))) (r : Acc ℚ), solve keep (fun _ => false) [] ⟨fun _ => 0, fun _ => 0⟩ 0 ls = some r ∧ r.n 0 = 2 ∧ (ls.map fun l => left l 0).sum = 102 := by
  refine ⟨[[⟨0, fun _ => 1⟩, ⟨1, fun _ => 1⟩], [⟨1, fun _ => 1⟩, ⟨101, fun _ => 1⟩], [⟨101, fun _ => 1⟩, ⟨102, fun _ => 1⟩]], ?_⟩
  obtain ⟨r, e, hr⟩ := solve_first_last (fun _ => false) 0 rfl (⟨fun _ => 0, fun _ => 0⟩ : Acc ℚ) 0 [⟨0, fun _ => 1⟩, ⟨1, fun _ => 1⟩] [[⟨1, fun _ => 1⟩, ⟨101, fun _ => 1⟩]] [⟨101, fun _ => 1⟩, ⟨102, fun _ => 1⟩]
  refine ⟨r, e, ?_, ?_⟩
  · rw [hr]; norm_num [left, Finset.sum_range_succ]
  · norm_num [left, Finset.sum_range_succ]

/-- **C61, bursting.** Only the releases since the surface last moved are counted; those before, and those read from a file, are counted if it never moved. -/
theorem burst_last (init : K) (first : List K) (mid : List (List K)) (last : List K) : burst init [first] = init + first.sum ∧ burst init (first :: mid ++ [last]) = last.sum := by
  have f : ∀ (l : List K) (x : K), l.foldl (· + ·) x = x + l.sum := by
    intro l
    induction l with
    | nil => intro x; simp
    | cons a l ih => intro x; rw [List.foldl_cons, ih, List.sum_cons]; ring
  refine ⟨f first init, ?_⟩
  have g : ∀ (mid : List (List K)) (first : List K) (x : K), burst x (first :: mid ++ [last]) = last.sum := by
    intro mid
    induction mid with
    | nil => intro first x; show last.foldl (· + ·) 0 = _; rw [f, zero_add]
    | cons l mid ih => intro first x; exact ih l 0
  exact g mid first init

example : burst (0 : ℚ) [[3, 4], [5]] = 5 := by decide +kernel

/-! ### The flux -/

theorem sum_single : ∀ (l : List ℕ) (s : ℕ), (∀ q, q ≠ s → l.getD q 0 = 0) → l.sum = l.getD s 0 := by
  intro l
  induction l with
  | nil => intro s _; simp
  | cons a l ih =>
    intro s h
    rw [List.sum_cons]
    cases s with
    | zero =>
      have : l.sum = l.getD l.length 0 := ih l.length fun q _ => by simpa using h (q + 1) (by omega)
      rw [this]
      simp
    | succ s =>
      have h0 : a = 0 := by simpa using h 0 (by omega)
      rw [ih s fun q hq => by simpa using h (q + 1) (by omega), h0]
      simp

/-- The species of a cluster of one species. -/
theorem axisOf_pure (comp : List ℕ) (s : ℕ) (h : axisOf comp = some s) : comp.sum = comp.getD s 0 ∧ ∀ q, q ≠ s → comp.getD q 0 = 0 := by
  have := List.find?_some h
  rw [List.all_eq_true] at this
  have z : ∀ q, q ≠ s → comp.getD q 0 = 0 := by
    intro q hq
    by_cases hl : q < comp.length
    · have := this q (List.mem_range.mpr hl)
      rw [decide_eq_true_eq] at this
      tauto
    · rw [List.getD_eq_getElem?_getD, List.getElem?_eq_none (by omega)]; rfl
  exact ⟨sum_single comp s z, z⟩

/-- **C61, flux.** Every species receives the contributions of its pure clusters, and they are counted once. -/
theorem outgoing_eq (factor : K) (ix xi : ℕ) (ms : List (Mover K)) (u : ℕ → K) (s : ℕ) :
    outgoing factor ix xi ms u s = u s + (ms.map fun m => if axisOf m.comp = some s then (m.comp.getD s 0 : K) * factor * m.coef ix * m.conc xi else 0).sum := by
  unfold outgoing
  induction ms generalizing u with
  | nil => simp
  | cons m ms ih =>
    rw [List.foldl_cons, ih, List.map_cons, List.sum_cons]
    cases e : axisOf m.comp with
    | none => simp
    | some q =>
      by_cases hq : q = s
      · subst hq
        simp only [Function.update_self, if_true, (axisOf_pure m.comp q e).1]
        ring
      · have : s ≠ q := fun h => hq h.symm
        simp only [Function.update_of_ne this, Option.some.injEq, hq, if_false, zero_add]

/-- **C61, balance.** On a uniform grid with the concentrations held at 0 at both ends, for any number of diffusing pure clusters with constant coefficients: the content of every species changes by diffusion at the opposite of the sum of the two reported fluxes. -/
theorem balance_partial (n : ℕ) (x0 h : K) (hh : 0 < h) (ms : List (Mover K)) (s : ℕ)
    (hm : ∀ m ∈ ms, (∃ q, axisOf m.comp = some q) ∧ (∀ i j, m.coef i = m.coef j) ∧ m.conc 0 = 0 ∧ m.conc (n + 2) = 0) :
    content (n + 3) (fun i => x0 + h * i) ms (diffusionRate (n + 3) fun i => x0 + h * i) s
      = -(surfaceFlux (n + 3) (fun i => x0 + h * i) ms s + bulkFlux (n + 3) (fun i => x0 + h * i) ms s) := by
  have hL : ∀ i, 1 ≤ i → Transport.hxLeft (fun i : ℕ => x0 + h * i) i = h := by
    intro i hi
    unfold Transport.hxLeft
    rw [if_neg (by omega)]
    push_cast [Nat.cast_sub hi]
    ring
  have hR : ∀ i, 1 ≤ i → i < n + 3 → Transport.hxRight (n + 3) (fun i : ℕ => x0 + h * i) i = h := by
    intro i hi hj
    unfold Transport.hxRight
    rw [if_pos ⟨hi, hj⟩]
    push_cast
    ring
  have hf : ∀ i, 1 ≤ i → i < n + 3 → factorAt (n + 3) (fun i : ℕ => x0 + h * i) i = 1 / h := by
    intro i hi hj
    unfold factorAt
    rw [hL i hi, hR i hi hj]
    field_simp
    norm_num
  unfold content surfaceFlux bulkFlux
  rw [outgoing_eq, outgoing_eq, hf 1 le_rfl (by omega), show n + 3 - 2 = n + 1 by omega, hf (n + 1) (by omega) (by omega)]
  have one : ∀ m ∈ ms, ∑ k ∈ Finset.range (n + 1), (m.comp.getD s 0 : K) * diffusionRate (n + 3) (fun i : ℕ => x0 + h * i) m (k + 1) * h
      = -((if axisOf m.comp = some s then (m.comp.getD s 0 : K) * (1 / h) * m.coef 1 * m.conc 1 else 0) + (if axisOf m.comp = some s then (m.comp.getD s 0 : K) * (1 / h) * m.coef (n + 1) * m.conc (n + 1) else 0)) := by
    intro m hmem
    obtain ⟨⟨q, hq⟩, hD, h0, h1⟩ := hm m hmem
    by_cases hqs : q = s
    · subst hqs
      rw [if_pos hq, if_pos hq]
      have fl := Transport.flux_form1 (fun _ => h) (fun _ => hh) (m.coef 1) m.conc 0 (n + 1)
      simp only [Nat.zero_add] at fl
      have e : ∀ k ∈ Finset.range (n + 1), (m.comp.getD q 0 : K) * diffusionRate (n + 3) (fun i : ℕ => x0 + h * i) m (k + 1) * h
          = (m.comp.getD q 0 : K) * ((h + h) / 2 * Transport.conc1 h h ⟨m.coef 1, m.coef 1, m.coef 1⟩ Transport.open1 (Transport.at1 m.conc k)) := by
        intro k hk
        have hk' := Finset.mem_range.mp hk
        unfold diffusionRate
        rw [hL _ (by omega), hR _ (by omega) (by omega), hD (k + 1 + 1) 1, hD (k + 1) 1, hD (k + 1 + 2) 1, Nat.add_sub_cancel]
        show _ * Transport.conc1 h h ⟨m.coef 1, m.coef 1, m.coef 1⟩ Transport.open1 (Transport.at1 m.conc k) * h = _
        ring
      rw [Finset.sum_congr rfl e, ← Finset.mul_sum, fl, h0, show n + 1 + 1 = n + 2 by omega, h1, hD (n + 1) 1]
      ring
    · rw [if_neg (by rw [hq]; simpa using hqs), if_neg (by rw [hq]; simpa using hqs), (axisOf_pure m.comp q hq).2 s (fun h => hqs h.symm)]
      simp
  have w : ∀ k, (x0 + h * ((k + 2 : ℕ) : K)) - (x0 + h * ((k + 1 : ℕ) : K)) = h := by
    intro k; push_cast; ring
  simp only [w]
  clear hm hf hL hR w
  induction ms with
  | nil => simp
  | cons m ms ih =>
    simp only [List.map_cons, List.sum_cons, add_mul, Finset.sum_add_distrib]
    rw [ih fun x hx => one x (by simp [hx]), one m (by simp)]
    ring

example : content 4 (fun i => (0 : ℚ) + 1 * i) [⟨[1, 0], fun _ => 2, fun i => if i = 1 then 3 else if i = 2 then 5 else 0⟩] (diffusionRate 4 fun i => (0 : ℚ) + 1 * i) 0 = -(6 + 10) := by
  rw [balance_partial 1 0 1 (by norm_num) _ 0 (by intro m hm; simp only [List.mem_singleton] at hm; subst hm; exact ⟨⟨0, by decide⟩, fun _ _ => rfl, by simp, by simp⟩)]
  have ha : axisOf [1, 0] = some 0 := by decide
  simp only [surfaceFlux, bulkFlux, outgoing_eq]
  norm_num [ha, factorAt, Transport.hxLeft, Transport.hxRight]

/-- **C61, balance fails with a gradient of temperature.** The reported fluxes use the coefficient of the point before. -/
theorem balance_neighbour (m : Mover ℚ) (hc : m.comp = [1]) (h0 : m.conc 0 = 0) (h2 : m.conc 2 = 0) :
    content 3 (fun i => (i : ℚ)) [m] (diffusionRate 3 fun i => (i : ℚ)) 0 = -(2 * m.coef 2 * m.conc 1) ∧
      surfaceFlux 3 (fun i => (i : ℚ)) [m] 0 + bulkFlux 3 (fun i => (i : ℚ)) [m] 0 = 2 * m.coef 1 * m.conc 1 := by
  have ha : axisOf [1] = some 0 := by decide
  constructor
  · unfold content diffusionRate
    norm_num [hc, Transport.hxLeft, Transport.hxRight, Transport.conc1, h0, h2]
    ring
  · unfold surfaceFlux bulkFlux
    simp only [outgoing_eq]
    norm_num [hc, ha, factorAt, Transport.hxLeft, Transport.hxRight]
    ring

/-- **C61, balance fails on a grid that widens**, even with a constant coefficient. -/
theorem balance_widening : ∃ (grid : ℕ → ℚ) (m : Mover ℚ), (∀ i j, i < j → j < 5 → grid i < grid j) ∧ (∀ i, m.coef i = 1) ∧ m.conc 0 = 0 ∧ m.conc 2 = 0 ∧ axisOf m.comp = some 0 ∧
    content 3 grid [m] (diffusionRate 3 grid) 0 ≠ -(surfaceFlux 3 grid [m] 0 + bulkFlux 3 grid [m] 0) := by
  refine ⟨fun i => if i = 0 then 0 else if i = 1 then 1 else if i = 2 then 2 else if i = 3 then 5 else 8, ⟨[1], fun _ => 1, fun i => if i = 1 then 1 else 0⟩, ?_, fun _ => rfl, by simp, by simp, by decide, ?_⟩
  · intro i j hij hj
    interval_cases j <;> interval_cases i <;> norm_num
  · have ha : axisOf [1] = some 0 := by decide
    unfold content diffusionRate surfaceFlux bulkFlux
    simp only [outgoing_eq]
    norm_num [ha, factorAt, Transport.hxLeft, Transport.hxRight, Transport.conc1]

end Xolotl.Solver.Retention
