import Verif.Solver.Carried
import Verif.Solver.MoveProps
import Verif.Solver.SweepProps
import Mathlib.Tactic.SplitIfs
import Mathlib.Tactic.Linarith

/-!
# Properties of the state after the surface moved (C106)
-/

set_option linter.unusedSectionVars false

namespace Xolotl.Solver.Carried

variable {K : Type*} [Field K] [LinearOrder K] [IsStrictOrderedRing K]

theorem fold_other (init : List (ℕ × K)) (k : ℕ) (hk : ∀ a ∈ init, a.1 ≠ k) : ∀ f : ℕ → K, (init.foldl (fun f a => Function.update f a.1 a.2) f) k = f k := by
  induction init with
  | nil => intro f; rfl
  | cons a l ih =>
    intro f
    rw [List.foldl_cons, ih (fun b hb => hk b (List.mem_cons_of_mem _ hb)), Function.update_of_ne (fun h => hk a (List.mem_cons_self ..) h.symm)]

theorem fold_last (init : List (ℕ × K)) (k : ℕ) (x : K) (hx : (k, x) ∈ init) (hone : ∀ a ∈ init, a.1 = k → a.2 = x) : ∀ f : ℕ → K, (init.foldl (fun f a => Function.update f a.1 a.2) f) k = x := by
  induction init with
  | nil => simp at hx
  | cons a l ih =>
    intro f
    rw [List.foldl_cons]
    by_cases hl : (k, x) ∈ l
    · exact ih hl (fun b hb => hone b (List.mem_cons_of_mem _ hb)) _
    · have ha : a = (k, x) := by
        rcases List.mem_cons.1 hx with h | h
        · exact h.symm
        · exact absurd h hl
      rw [fold_other, ha, Function.update_self]
      intro b hb hbk
      exact hl (by rw [← hone b (List.mem_cons_of_mem _ hb) hbk, ← hbk]; exact hb)

/-! ### The vector -/

/-- What becomes of the vector: the surface has all values of the old surface; every other point has in every component the value interpolated at its place, but the components with an initial concentration have it again at the first point below the surface, however the surface moved. -/
theorem carried_at (old : ℕ → K) (size : ℕ) (new : ℕ → K) (nX : ℕ) (init : List (ℕ × K)) (c : ℕ → ℕ → K) (dof xm : ℕ) (h3 : 3 < size) (hnew : StrictMono new) (hxm : 2 ≤ xm ∨ init = []) :
    ∃ w, carried old size new nX init c dof xm = some w ∧ w 0 = c 0 ∧
      (∀ p k, 1 ≤ p → p < nX → (p = 1 → ∀ a ∈ init, a.1 ≠ k) → Move.transfer old size (fun i => c i k) (new nX - new (p + 1)) = some (w p k)) ∧
      ∀ k x, (k, x) ∈ init → (∀ a ∈ init, a.1 = k → a.2 = x) → w 1 k = x := by
  have hn : ¬ (xm < 2 ∧ init ≠ []) := by rintro ⟨h1, h2⟩; rcases hxm with h | h; exacts [absurd h (by omega), h2 h]
  have hv : ∀ p k, 1 ≤ p → p < nX → Move.transfer old size (fun i => c i k) (new nX - new (p + 1)) = some (visited old size new nX c p k) := by
    intro p k h1 h2
    obtain ⟨i, hi, -⟩ := Move.segment_defined old size h3 (new nX - new (p + 1)) (sub_nonneg.2 (hnew.monotone (by omega)))
    unfold visited Move.distance
    rw [if_pos ⟨h1, h2⟩, show nX + 2 - 2 = nX by omega]
    unfold Move.transfer
    rw [hi]; rfl
  refine ⟨_, by unfold carried written; rw [if_neg hn]; rfl, by simp [scattered], ?_, ?_⟩
  · intro p k h1 h2 hk
    rw [hv p k h1 h2]
    unfold scattered
    rw [Function.update_of_ne (by omega)]
    by_cases hp : p = 1
    · subst hp
      rw [Function.update_self, fold_other init k (hk rfl), Function.update_of_ne (by omega)]
    · rw [Function.update_of_ne hp, Function.update_of_ne (by omega)]
  · intro k x hx hone
    unfold scattered
    rw [Function.update_of_ne (by omega), Function.update_self]
    exact fold_last init k x hx hone _

/-- **C106, concentrations.** Without initial concentrations every point below the surface has the values interpolated at its place, and the surface those of the old surface. -/
theorem carried_partial (old : ℕ → K) (size : ℕ) (new : ℕ → K) (nX : ℕ) (c : ℕ → ℕ → K) (dof xm : ℕ) (h3 : 3 < size) (hnew : StrictMono new) :
    ∃ w, carried old size new nX [] c dof xm = some w ∧ w 0 = c 0 ∧ ∀ p k, 1 ≤ p → p < nX → Move.transfer old size (fun i => c i k) (new nX - new (p + 1)) = some (w p k) := by
  obtain ⟨w, h, h0, h1, -⟩ := carried_at old size new nX [] c dof xm h3 hnew (Or.inr rfl)
  exact ⟨w, h, h0, fun p k hp hn => h1 p k hp hn fun _ a ha => absurd ha (by simp)⟩

/-- **C106, violated.** A surface that recedes by one point of an even grid: at the place of the first point below the new surface the concentration was 7, and it is given the initial concentration 1 instead. -/
theorem reset_receding :
    Move.retract [(0 : ℚ), 1, 2, 3, 4, 5, 6] 1 = some [0, 1, 2, 3, 4, 5] ∧ Move.transfer (fun i => (i : ℚ)) 7 (fun i => if i = 2 then 7 else 0) ((4 : ℚ) - 2) = some 7 ∧
      (carried (fun i => (i : ℚ)) 7 (fun i => (i : ℚ)) 4 [(0, 1)] (fun i k => if i = 2 ∧ k = 0 then 7 else 0) 1 4).map (fun w => w 1 0) = some 1 := by
  decide +kernel

/-- **C106, violated.** A first rank with one point writes the initial concentrations at a point it does not hold, whenever there are any. -/
theorem outside (old : ℕ → K) (size : ℕ) (new : ℕ → K) (nX : ℕ) (init : List (ℕ × K)) (hi : init ≠ []) (c : ℕ → ℕ → K) (dof : ℕ) : carried old size new nX init c dof 1 = none := by
  unfold carried written
  rw [if_pos ⟨by omega, hi⟩]; rfl

/-! ### The temperatures -/

theorem temps_inner (v : ℕ → ℕ → K) (dof xs xm i : ℕ) (h1 : 1 ≤ i) (h2 : i ≤ xm) (hs : xs = 0 → i ≠ 1) : temps v dof xs xm i = v (xs + i - 1) dof := by
  unfold temps levelled read
  rw [if_neg (by omega), if_neg (by omega), if_neg (fun h => hs h.1 h.2), if_pos ⟨h1, h2⟩]

theorem temps_first (v : ℕ → ℕ → K) (dof xm : ℕ) (h2 : 2 ≤ xm) : temps v dof 0 xm 1 = v 1 dof ∧ temps v dof 0 xm 0 = v 1 dof := by
  unfold temps levelled read
  constructor
  · rw [if_neg (by omega), if_neg (by omega), if_pos ⟨rfl, rfl⟩, if_pos ⟨by omega, h2⟩]
  · rw [if_pos rfl, if_pos ⟨rfl, rfl⟩, if_pos ⟨by omega, h2⟩]

theorem temps_left (v : ℕ → ℕ → K) (dof xs xm : ℕ) (hs : 0 < xs) (hm : 0 < xm) : temps v dof xs xm 0 = v xs dof := by
  unfold temps levelled read
  rw [if_pos rfl, if_neg (by omega), if_pos ⟨le_refl _, hm⟩, show xs + 1 - 1 = xs by omega]

theorem temps_right (v : ℕ → ℕ → K) (dof xs xm : ℕ) (hm : 1 ≤ xm) (h2 : xs = 0 → 2 ≤ xm) : temps v dof xs xm (xm + 1) = v (xs + xm - 1) dof := by
  unfold temps levelled read
  rw [if_neg (by omega), if_pos rfl, if_neg (by intro h; have := h2 h.1; omega), if_pos ⟨hm, le_refl _⟩]

/-- **C106, temperatures.** Each rank gives the network, for every one of its points but the surface, the temperature that the new vector has there. -/
theorem own_temperatures (old : ℕ → K) (size : ℕ) (new : ℕ → K) (nX : ℕ) (init : List (ℕ × K)) (c : ℕ → ℕ → K) (dof xm0 : ℕ) (hi : ∀ a ∈ init, a.1 ≠ dof) (w : ℕ → ℕ → K)
    (hw : carried old size new nX init c dof xm0 = some w) (xs xm p : ℕ) (hp0 : 0 < p) (hp1 : xs ≤ p) (hp2 : p < xs + xm) : (held old size new nX c dof xs xm).net (p - xs + 1) = w p dof := by
  unfold carried written at hw
  split_ifs at hw with h
  · simp at hw
  simp only [Option.map_some, Option.some.injEq] at hw
  unfold held
  dsimp only
  rw [temps_inner _ _ _ _ _ (by omega) (by omega) (by omega), show xs + (p - xs + 1) - 1 = p by omega, ← hw]
  unfold scattered
  rw [Function.update_of_ne (by omega)]
  by_cases h1 : p = 1
  · subst h1
    rw [Function.update_self, fold_other init dof hi, Function.update_of_ne (by omega)]
  · rw [Function.update_of_ne h1, Function.update_of_ne (by omega)]

/-- **C106, violated.** The temperature of the surface is that of the next point for the network, while the vector has the one of the old surface, which replaces what was written: the two agree only if these are the same. -/
theorem surface_two_temperatures (old : ℕ → K) (size : ℕ) (new : ℕ → K) (nX : ℕ) (init : List (ℕ × K)) (c : ℕ → ℕ → K) (dof xm : ℕ) (hm : 2 ≤ xm) (w : ℕ → ℕ → K) (hi : ∀ a ∈ init, a.1 ≠ dof)
    (hw : carried old size new nX init c dof xm = some w) :
    (held old size new nX c dof 0 xm).net 1 = w 1 dof ∧ w 0 dof = c 0 dof ∧ ((held old size new nX c dof 0 xm).net 1 = w 0 dof ↔ w 1 dof = c 0 dof) := by
  have h0 : w 0 = c 0 := by
    unfold carried at hw
    cases hc : written init (visited old size new nX c) dof xm with
    | none => rw [hc] at hw; simp at hw
    | some u => rw [hc] at hw; simp only [Option.map_some, Option.some.injEq] at hw; rw [← hw]; simp [scattered]
  have h1 : (held old size new nX c dof 0 xm).net 1 = w 1 dof := by
    have := own_temperatures old size new nX init c dof xm hi w hw 0 xm 1 (by omega) (by omega) (by omega)
    have h2 : (held old size new nX c dof 0 xm).net 2 = visited old size new nX c 1 dof := temps_inner _ _ _ _ _ (by omega) hm (by omega)
    have h3 : (held old size new nX c dof 0 xm).net 1 = visited old size new nX c 1 dof := (temps_first _ _ _ hm).1
    rw [h3, ← h2]; exact this
  exact ⟨h1, by rw [h0], by rw [h1, h0]⟩

/-- **C106, violated.** For the point of its neighbour a rank has the temperature of its own first or last point: it agrees with its neighbour only where the temperature is the same at both points. -/
theorem neighbours_own (old : ℕ → K) (size : ℕ) (new : ℕ → K) (nX : ℕ) (c : ℕ → ℕ → K) (dof xs xm ym : ℕ) (hm : 1 ≤ xm) (hm0 : xs = 0 → 2 ≤ xm) (hy : 1 ≤ ym) :
    let v := visited old size new nX c
    (held old size new nX c dof (xs + xm) ym).net 0 = v (xs + xm) dof ∧ (held old size new nX c dof xs xm).net xm = v (xs + xm - 1) dof ∧
      (held old size new nX c dof xs xm).net (xm + 1) = v (xs + xm - 1) dof ∧ (held old size new nX c dof (xs + xm) ym).net 1 = v (xs + xm) dof := by
  intro v
  refine ⟨temps_left _ _ _ _ (by omega) hy, temps_inner _ _ _ _ _ hm (le_refl _) (by omega), temps_right _ _ _ _ hm hm0, ?_⟩
  have := temps_inner v dof (xs + xm) ym 1 (le_refl _) hy (by omega)
  rw [show xs + xm + 1 - 1 = xs + xm by omega] at this
  exact this

/-- **C106, violated.** If the first rank has one point, all its temperatures are zero. -/
theorem single_zero (old : ℕ → K) (size : ℕ) (new : ℕ → K) (nX : ℕ) (c : ℕ → ℕ → K) (dof i : ℕ) (hi : i < 3) : (held old size new nX c dof 0 1).net i = 0 := by
  unfold held temps levelled read
  dsimp only
  rcases (by omega : i = 0 ∨ i = 1 ∨ i = 2) with rfl | rfl | rfl <;> simp

/-! ### Until the next evaluation, and after it -/

/-- An entry that is within a tenth of a degree of what the handler returns stays as it is, however many evaluations follow. -/
theorem stays (np : ℕ) (len : ℕ → ℕ) (ts : List (ℕ → ℕ → K)) (r i : ℕ) (st : ℕ → Sweep.Held K) (h : ∀ t ∈ ts, |(st r).temp i - t r i| ≤ 1 / 10) :
    (Sweep.evaluations np len ts st r).temp i = (st r).temp i := by
  induction ts generalizing st with
  | nil => rfl
  | cons a ts ih =>
    have e : (Sweep.evaluate np len a st r).temp i = (st r).temp i := by
      have hd : Sweep.differs (a r) (st r).temp i = false := by simpa [Sweep.differs] using h a (List.mem_cons_self ..)
      simp [Sweep.evaluate, Sweep.refresh, hd]
    change (Sweep.evaluations np len ts (Sweep.evaluate np len a st) r).temp i = _
    rw [ih, e]
    intro t ht
    rw [e]
    exact h t (List.mem_cons_of_mem _ ht)

/-- **C106, violated.** Two neighbouring ranks whose points at their boundary differ by at most a tenth of a degree never agree about them: as long as the handler returns these temperatures, each keeps its own for the point of the other. -/
theorem never_agree (old : ℕ → K) (size : ℕ) (new : ℕ → K) (nX : ℕ) (c : ℕ → ℕ → K) (dof xs xm ym np r q : ℕ) (len : ℕ → ℕ) (hm : 1 ≤ xm) (hm0 : xs = 0 → 2 ≤ xm) (hy : 1 ≤ ym)
    (st : ℕ → Sweep.Held K) (hr : st r = held old size new nX c dof xs xm) (hq : st q = held old size new nX c dof (xs + xm) ym) (a b : K)
    (ha : visited old size new nX c (xs + xm - 1) dof = a) (hb : visited old size new nX c (xs + xm) dof = b) (hab : |a - b| ≤ 1 / 10)
    (ts : List (ℕ → ℕ → K)) (ht : ∀ t ∈ ts, t r xm = a ∧ t r (xm + 1) = b ∧ t q 0 = a ∧ t q 1 = b) :
    (Sweep.evaluations np len ts st r).temp xm = a ∧ (Sweep.evaluations np len ts st r).temp (xm + 1) = a ∧
      (Sweep.evaluations np len ts st q).temp 0 = b ∧ (Sweep.evaluations np len ts st q).temp 1 = b := by
  obtain ⟨h1, h2, h3, h4⟩ := neighbours_own old size new nX c dof xs xm ym hm hm0 hy
  rw [ha] at h2 h3
  rw [hb] at h1 h4
  have z : ∀ x : K, |x - x| ≤ 1 / 10 := fun x => by simp
  have hba : |b - a| ≤ 1 / 10 := by rw [abs_sub_comm]; exact hab
  have hq0 : (st q).temp 0 = b := by rw [hq]; exact h1
  have hrm : (st r).temp xm = a := by rw [hr]; exact h2
  have hrn : (st r).temp (xm + 1) = a := by rw [hr]; exact h3
  have hq1 : (st q).temp 1 = b := by rw [hq]; exact h4
  refine ⟨?_, ?_, ?_, ?_⟩
  · rw [stays, hrm]; intro t h; rw [hrm, (ht t h).1]; exact z _
  · rw [stays, hrn]; intro t h; rw [hrn, (ht t h).2.1]; exact hab
  · rw [stays, hq0]; intro t h; rw [hq0, (ht t h).2.2.1]; exact hba
  · rw [stays, hq1]; intro t h; rw [hq1, (ht t h).2.2.2]; exact z _

/-- **C106, temperatures.** After the first evaluation every temperature of every rank, also those of its neighbours and of the surface, is within a tenth of a degree of what the handler returns, and the network has the same. -/
theorem corrected (old : ℕ → K) (size : ℕ) (new : ℕ → K) (nX : ℕ) (c : ℕ → ℕ → K) (dof np : ℕ) (xs xm : ℕ → ℕ) (ts : List (ℕ → ℕ → K)) (t : ℕ → ℕ → K) (r : ℕ) (hr : r < np) (i : ℕ) (hi : i < xm r + 2) :
    let s := Sweep.evaluations np (fun r => xm r + 2) (ts ++ [t]) (fun r => held old size new nX c dof (xs r) (xm r)) r
    s.net i = s.temp i ∧ |s.net i - t r i| ≤ 1 / 10 := by
  intro s
  exact Sweep.evaluations_fresh np _ ts t _ (fun _ _ _ _ => rfl) r hr i hi

/-- **C106, temperatures.** A temperature that is the same at all points of the old grid is the same after the move, in the vector and for every rank whose first rank has two points. -/
theorem uniform_partial (old : ℕ → K) (hold : StrictMono old) (size : ℕ) (h3 : 3 < size) (new : ℕ → K) (hnew : StrictMono new) (nX : ℕ) (c : ℕ → ℕ → K) (dof : ℕ) (T : K) (hT : ∀ i, c i dof = T)
    (xs xm : ℕ) (hm : 1 ≤ xm) (hm0 : xs = 0 → 2 ≤ xm) (hle : xs + xm ≤ nX) (i : ℕ) (hi : i < xm + 2) : (held old size new nX c dof xs xm).net i = T := by
  have hv : ∀ p, 1 ≤ p → p < nX → visited old size new nX c p dof = T := by
    intro p h1 h2
    unfold visited
    rw [if_pos ⟨h1, h2⟩, Move.transfer_linear old hold size h3 _ ?_ T 0 _ (fun i => by simp [hT])]
    · simp
    · unfold Move.distance; exact sub_nonneg.2 (hnew.monotone (by omega))
  change temps _ dof xs xm i = T
  by_cases h0 : xs = 0
  · subst h0
    have := hm0 rfl
    rcases (by omega : i = 0 ∨ i = 1 ∨ (2 ≤ i ∧ i ≤ xm) ∨ i = xm + 1) with rfl | rfl | h | rfl
    · rw [(temps_first _ _ _ this).2]; exact hv 1 (by omega) (by omega)
    · rw [(temps_first _ _ _ this).1]; exact hv 1 (by omega) (by omega)
    · rw [temps_inner _ _ _ _ _ (by omega) h.2 (by omega)]; exact hv _ (by omega) (by omega)
    · rw [temps_right _ _ _ _ hm hm0]; exact hv _ (by omega) (by omega)
  · rcases (by omega : i = 0 ∨ (1 ≤ i ∧ i ≤ xm) ∨ i = xm + 1) with rfl | h | rfl
    · rw [temps_left _ _ _ _ (by omega) hm]; exact hv _ (by omega) (by omega)
    · rw [temps_inner _ _ _ _ _ h.1 h.2 (by omega)]; exact hv _ (by omega) (by omega)
    · rw [temps_right _ _ _ _ hm hm0]; exact hv _ (by omega) (by omega)

/-! ### Cases -/

/-- An old state on an even grid of five points: the temperature falls by 1/20 of a degree from point to point, the cluster has a peak. -/
def sample (i k : ℕ) : ℚ := if k = 1 then 1000 - i / 20 else if i = 2 then 7 else 0

example : (carried (fun i => (i : ℚ)) 7 (fun i => (i : ℚ)) 4 [] sample 1 2).map (fun w => [w 0 0, w 1 0, w 2 0, w 0 1, w 1 1, w 3 1]) = some [0, 7, 0, 1000, 1000 - 2 / 20, 1000 - 4 / 20] := by decide +kernel
example : (List.range 4).map (held (fun i => (i : ℚ)) 7 (fun i => (i : ℚ)) 4 sample 1 0 2).net = [1000 - 2 / 20, 1000 - 2 / 20, 1000 - 2 / 20, 1000 - 2 / 20] := by decide +kernel
example : (List.range 4).map (held (fun i => (i : ℚ)) 7 (fun i => (i : ℚ)) 4 sample 1 2 2).net = [1000 - 3 / 20, 1000 - 3 / 20, 1000 - 4 / 20, 1000 - 4 / 20] := by decide +kernel
example : |((1000 : ℚ) - 2 / 20) - (1000 - 3 / 20)| ≤ 1 / 10 := by decide +kernel
example : carried (fun i => (i : ℚ)) 7 (fun i => (i : ℚ)) 4 [(0, 1)] sample 1 1 = none := outside _ _ _ _ _ (by simp) _ _
example : (held (fun i => (i : ℚ)) 7 (fun i => (i : ℚ)) 4 sample 1 0 1).net 1 = 0 := single_zero _ _ _ _ _ _ _ (by omega)

end Xolotl.Solver.Carried
