import Verif.Flux.Custom
import Verif.Flux.ProfileProps
import Verif.Flux.ImplantedProps
import Verif.Flux.PulseProps
import Mathlib.Tactic.Linarith
import Mathlib.Tactic.NormNum
import Mathlib.Tactic.Ring

set_option linter.unusedSectionVars false

/-!
# Properties of the custom and the pulsed flux (C57)
-/

namespace Xolotl.Flux.Custom

variable {K : Type*} [Field K] [LinearOrder K] [IsStrictOrderedRing K] {T : Type*}

/-! ### Reading the file -/

/-- The two lines of a row; `name` gives the two tokens of a cluster and `pr` prints a number. -/
def render (name : ℕ → T × T) (pr : K → T) (r : Row K) : List (List T) :=
  [[(name r.id).1, (name r.id).2, pr r.factor], (r.params ++ [r.total]).map pr]

theorem mapM_print (num : T → Option K) (pr : K → T) (h : ∀ x, num (pr x) = some x) (l : List K) : (l.map pr).mapM num = some l := by
  induction l with
  | nil => rfl
  | cons a l ih => simp [h, ih]

/-- One printed row is read and the rest follows. -/
theorem readRows_step (e : Env K T) (name : ℕ → T × T) (pr : K → T) (hf : ∀ n, e.find (name n).1 (name n).2 = .ok n) (hn : ∀ x, e.num (pr x) = some x)
    (r : Row K) (h : r.params.length = 16) (rest : List (List T)) :
    readRows e (render name pr r ++ rest) = match readRows e rest with | .error x => .error x | .ok rs => .ok (r :: rs) := by
  have e1 : readCluster e [(name r.id).1, (name r.id).2, pr r.factor] = .ok (r.id, r.factor) := by
    simp [readCluster, hf, hn]
  have e2 : readFit e r.id r.factor ((r.params ++ [r.total]).map pr) = .ok r := by
    unfold readFit
    rw [if_neg (by simp [h]), mapM_print e.num pr hn]
    simp [← h]
  show readRows e (_ :: _ :: rest) = _
  rw [readRows, e1]
  · dsimp only
    rw [e2]
    rfl
  · simp

/-- **C57, reading.** A file of pairs of lines, ended by an empty line or by the end of the file, is read back exactly; what follows the empty line is ignored. -/
theorem readRows_render (e : Env K T) (name : ℕ → T × T) (pr : K → T) (hf : ∀ n, e.find (name n).1 (name n).2 = .ok n) (hn : ∀ x, e.num (pr x) = some x)
    (rs : List (Row K)) (h : ∀ r ∈ rs, r.params.length = 16) (junk : List (List T)) :
    readRows e (rs.flatMap (render name pr)) = .ok rs ∧ readRows e (rs.flatMap (render name pr) ++ [] :: junk) = .ok rs := by
  induction rs with
  | nil => exact ⟨by simp [readRows], by simp [readRows]⟩
  | cons r rs ih =>
    obtain ⟨i1, i2⟩ := ih fun x hx => h x (by simp [hx])
    constructor
    · rw [List.flatMap_cons, readRows_step e name pr hf hn r (h r (by simp)), i1]
    · rw [List.flatMap_cons, List.append_assoc, readRows_step e name pr hf hn r (h r (by simp)), i2]

/-- **C57, reading.** A line of another number of tokens where a cluster is expected, and a cluster line without 17 numbers after it, stop the program. -/
theorem readRows_bad (e : Env K T) (name : ℕ → T × T) (pr : K → T) (hf : ∀ n, e.find (name n).1 (name n).2 = .ok n) (hn : ∀ x, e.num (pr x) = some x)
    (rs : List (Row K)) (h : ∀ r ∈ rs, r.params.length = 16) (rest : List (List T)) :
    (∀ l : List T, l ≠ [] → l.length ≠ 3 → readRows e (rs.flatMap (render name pr) ++ l :: rest) = .error .clusterTokens)
    ∧ (∀ (n : ℕ) (x : K) (l : List T), l.length ≠ 17 → readRows e (rs.flatMap (render name pr) ++ [(name n).1, (name n).2, pr x] :: l :: rest) = .error .fitTokens)
    ∧ (∀ (n : ℕ) (x : K), readRows e (rs.flatMap (render name pr) ++ [[(name n).1, (name n).2, pr x]]) = .error .fitTokens) := by
  have base : (∀ l : List T, l ≠ [] → l.length ≠ 3 → readRows e (l :: rest) = .error .clusterTokens)
      ∧ (∀ (n : ℕ) (x : K) (l : List T), l.length ≠ 17 → readRows e ([(name n).1, (name n).2, pr x] :: l :: rest) = .error .fitTokens)
      ∧ (∀ (n : ℕ) (x : K), readRows e [[(name n).1, (name n).2, pr x]] = .error .fitTokens) := by
    have e1 : ∀ n x, readCluster e [(name n).1, (name n).2, pr x] = .ok (n, x) := by
      intro n x
      simp [readCluster, hf, hn]
    refine ⟨fun l h1 h2 => ?_, fun n x l hl => ?_, fun n x => ?_⟩
    · have e2 : readCluster e l = .error .clusterTokens := by
        unfold readCluster
        split
        · simp at h2
        · rfl
      cases l with
      | nil => exact absurd rfl h1
      | cons a l =>
        cases rest with
        | nil => rw [readRows, e2]; simp
        | cons b rest => rw [readRows, e2]; simp
    · rw [readRows, e1]
      · dsimp only
        rw [readFit, if_pos hl]
      · simp
    · rw [readRows, e1]
      · dsimp only
        rw [readFit, if_pos (by simp)]
      · simp
  induction rs with
  | nil => exact base
  | cons r rs ih =>
    obtain ⟨i1, i2, i3⟩ := ih fun x hx => h x (by simp [hx])
    refine ⟨fun l h1 h2 => ?_, fun n x l hl => ?_, fun n x => ?_⟩
    · rw [List.flatMap_cons, List.append_assoc, readRows_step e name pr hf hn r (h r (by simp)), i1 l h1 h2]
    · rw [List.flatMap_cons, List.append_assoc, readRows_step e name pr hf hn r (h r (by simp)), i2 n x l hl]
    · rw [List.flatMap_cons, List.append_assoc, readRows_step e name pr hf hn r (h r (by simp)), i3 n x]

/-! ### What is implanted -/

/-- The handler of a row. -/
def handlerOf (amp : K) (s : ℕ) (g : List K) (r : Row K) : Handler K :=
  ⟨g, normOf (fitOf r) g s, vecOf (fitOf r) amp r.factor s g (normOf (fitOf r) g s)⟩

theorem mapM_pairs {A B : Type*} (f : A → Option B) (f' : A → B) (l : List A) (h : ∀ a ∈ l, f a = some (f' a)) :
    (l.mapM fun a => (f a).map fun b => (a, b)) = some (l.map fun a => (a, f' a)) := by
  induction l with
  | nil => rfl
  | cons a l ih =>
    rw [List.mapM_cons, h a (by simp), ih fun x hx => h x (by simp [hx])]
    rfl

/-- The copy on the device has all rows, as they all have the same length. -/
theorem sync_same (v : List (List K)) (n : ℕ) (h0 : v ≠ []) (h : ∀ x ∈ v, x.length = n) : sync v = some v := by
  cases v with
  | nil => exact absurd rfl h0
  | cons r rest =>
    have hr : r.length = n := h r (by simp)
    unfold sync
    dsimp only
    rw [if_pos]
    · congr 1
      conv_rhs => rw [← List.map_id (r :: rest)]
      refine List.map_congr_left fun x hx => ?_
      rw [h x hx, hr]
      simp
    · rw [List.all_eq_true]
      intro x hx
      rw [decide_eq_true_eq, h x hx, hr]

/-- The state after initialisation. -/
def stateOf (rs : List (Row K)) (amp : K) (s : ℕ) (g : List K) : State K :=
  ⟨rs.map fun r => (r, handlerOf amp s g r), rs.map fun r => (handlerOf amp s g r).vec⟩

theorem setup_eq (rs : List (Row K)) (amp : K) (s : ℕ) (g : List K) (h0 : rs ≠ []) (hg : 3 ≤ g.length) : setup rs amp s g = some (stateOf rs amp s g) := by
  unfold setup
  rw [mapM_pairs _ (handlerOf amp s g) rs fun r _ => init_eq _ _ _ _ _ hg]
  simp only [Option.bind_eq_bind, Option.bind_some]
  have e : vectors g (rs.map fun r => (r, handlerOf amp s g r)) = rs.map fun r => (handlerOf amp s g r).vec := by
    unfold vectors
    rw [if_neg (by omega), List.map_map]
    rfl
  rw [e, sync_same _ (turns g.length s + 2) (by simpa using h0)]
  · rfl
  · intro x hx
    obtain ⟨r, -, rfl⟩ := List.mem_map.mp hx
    exact vecOf_length ..

/-- **C57, the profile of a row.** Up to a tenth of a nanometre below the depth of the row it is the polynomial of the row, cut at zero; deeper there is nothing. -/
theorem fitOf_eq (r : Row K) (x : K) :
    (x ≤ r.total + 1 / 10 → fitOf r x = max (∑ i : Fin r.params.length, r.params[i] * x ^ i.val) 0) ∧
      (r.total + 1 / 10 < x → fitOf r x = 0) := customFit_eq r.params (r.total + 1 / 10) x

/-- **C57, rows of different lengths** are filled with zeros up to the length of the first, and refused if longer. -/
theorem sync_entry (r : List K) (v : List (List K)) : (sync (r :: v) = none ↔ ∃ x ∈ v, r.length < x.length) ∧
    ∀ w, sync (r :: v) = some w → ∀ i j, (w.getD i []).getD j 0 = ((r :: v).getD i []).getD j 0 := by
  constructor
  · simp only [sync]
    split_ifs with h
    · simp at h ⊢; exact h
    · simp at h ⊢; exact h
  · intro w hw i j
    simp only [sync] at hw
    split_ifs at hw with h
    cases hw
    by_cases hi : i < (r :: v).length
    · simp only [List.getD_eq_getElem?_getD, List.getElem?_map, List.getElem?_eq_getElem hi, Option.map_some, Option.getD_some, List.getElem?_append]
      split_ifs with hj
      · rfl
      · rw [List.getElem?_eq_none (not_lt.1 hj)]
        by_cases hk : j - ((r :: v)[i]).length < r.length - ((r :: v)[i]).length
        · rw [List.getElem?_replicate, if_pos hk]; rfl
        · rw [List.getElem?_eq_none (by simpa using hk)]
    · simp only [List.getD_eq_getElem?_getD, List.getElem?_map, List.getElem?_eq_none (not_lt.1 hi), Option.map_none]

example : sync ([[1, 2, 3], [4]] : List (List ℚ)) = some [[1, 2, 3], [4, 0, 0]] ∧ sync ([[4], [1, 2, 3]] : List (List ℚ)) = none := by decide +kernel

/-- **C57, when it is defined.** The handler can be initialised exactly with a grid of three points and at least one row: without a grid, or with a missing or empty file, `syncIncidentFluxVec` reads the first row of none. -/
theorem setup_defined (rs : List (Row K)) (amp : K) (s : ℕ) (g : List K) : setup rs amp s g ≠ none ↔ rs ≠ [] ∧ 3 ≤ g.length := by
  constructor
  · intro h
    by_contra hc
    apply h
    rcases rs with _ | ⟨r, rs⟩
    · unfold setup vectors
      simp [sync]
    · have hg : g.length < 3 := by
        by_contra hg
        exact hc ⟨by simp, by omega⟩
      rcases Nat.eq_zero_or_pos g.length with h1 | h1
      · unfold setup
        cases e : (r :: rs).mapM fun r => (init (fitOf r) amp r.factor s g).map fun h => (r, h) with
        | none => rfl
        | some hs =>
          simp only [Option.bind_eq_bind, Option.bind_some]
          unfold vectors
          rw [if_pos h1]
          rfl
      · unfold setup
        rw [List.mapM_cons, tiny_grid _ _ _ _ _ h1 hg]
        rfl
  · rintro ⟨h0, hg⟩
    rw [setup_eq rs amp s g h0 hg]
    simp

/-- **C57, new amplitudes.** After any sequence of amplitudes of a time profile the handler is as freshly initialised with the last one. -/
theorem recompute_setup (rs : List (Row K)) (amp : K) (s : ℕ) (g : List K) (h0 : rs ≠ []) (hg : 3 ≤ g.length) (amps : List K) :
    amps.foldlM (fun st a => recompute a s st) (stateOf rs amp s g) = setup rs (amps.getLastD amp) s g := by
  have one : ∀ a b : K, recompute b s (stateOf rs a s g) = some (stateOf rs b s g) := by
    intro a b
    have e : ((rs.map fun r => (r, handlerOf a s g r)).mapM fun p : Row K × Handler K => (Flux.recompute (fitOf p.1) b p.1.factor s p.2).map fun h => (p.1, h))
        = some (rs.map fun r => (r, handlerOf b s g r)) := by
      clear h0
      induction rs with
      | nil => rfl
      | cons r rs ih =>
        rw [List.map_cons, List.mapM_cons, ih]
        have := recompute_fresh (fitOf r) a b r.factor s g _ (init_eq _ _ _ _ _ hg) hg
        rw [init_eq _ _ _ _ _ hg] at this
        simp only [handlerOf] at this ⊢
        rw [this]
        rfl
    unfold recompute
    simp only [stateOf, e, Option.bind_eq_bind, Option.bind_some, List.map_map]
    rw [sync_same _ (turns g.length s + 2) (by simpa using h0)]
    · rfl
    · intro x hx
      obtain ⟨r, -, rfl⟩ := List.mem_map.mp hx
      exact vecOf_length ..
  induction amps generalizing amp with
  | nil => exact (setup_eq rs amp s g h0 hg).symm
  | cons a l ih =>
    rw [List.foldlM_cons, one]
    simp only [Option.bind_eq_bind, Option.bind_some]
    rw [ih a, List.getLastD_cons]

/-- The contributions at a point. -/
theorem contributions_eq (rs : List (Row K)) (amp : K) (s : ℕ) (g : List K) (xi : ℕ) :
    contributions (stateOf rs amp s g) s xi = rs.map fun r => (r.id, (handlerOf amp s g r).vec.getD (xi - s) 0) := by
  unfold contributions stateOf
  dsimp only
  have : ∀ (l : List (Row K)) (k : ℕ) (d : List (List K)), (∀ j r, l[j]? = some r → d.getD (k + j) [] = (handlerOf amp s g r).vec) →
      ((l.map fun r => (r, handlerOf amp s g r)).zipIdx k).map (fun p => (p.1.1.id, (d.getD p.2 []).getD (xi - s) 0))
        = l.map fun r => (r.id, (handlerOf amp s g r).vec.getD (xi - s) 0) := by
    intro l
    induction l with
    | nil => intro k d _; rfl
    | cons a l ih =>
      intro k d hd
      rw [List.map_cons, List.zipIdx_cons, List.map_cons, List.map_cons, ih (k + 1) d]
      · have := hd 0 a (by simp)
        rw [Nat.add_zero] at this
        rw [this]
      · intro j r hj
        have := hd (j + 1) r (by simpa using hj)
        rwa [show k + (j + 1) = k + 1 + j by omega] at this
  refine this rs 0 _ fun j r hj => ?_
  rw [Nat.zero_add, List.getD_eq_getElem?_getD, List.getElem?_map, hj]
  rfl

theorem source_map (rs : List (Row K)) (f : Row K → K) (c : ℕ) : source (rs.map fun r => (r.id, f r)) c = (rs.map fun r => if r.id = c then f r else 0).sum := by
  unfold source
  rw [List.map_map]
  rfl

/-- **C57, the amount implanted.** For any file, grid, surface position and history of amplitudes, and in whatever order the parallel loop runs: summed over the grid with the cell widths, every cluster receives the current amplitude times the factors of all its rows whose profile has a positive discrete integral.  Rows of the same cluster add up. -/
theorem custom_integral (rs : List (Row K)) (amp : K) (s : ℕ) (g : List K) (amps : List K) (st₀ st : State K) (h : setup rs amp s g = some st₀)
    (hst : amps.foldlM (fun st a => recompute a s st) st₀ = some st) (c : ℕ) (order : ℕ → Table K) (ho : ∀ xi, (order xi).Perm (contributions st s xi)) (u : ℕ → K) :
    ∑ k ∈ Finset.range (turns g.length s + 2), (compute (order (s + k)) u c - u c) * (g.getD (s + k + 1) 0 - g.getD (s + k) 0)
      = amps.getLastD amp * (rs.map fun r => if r.id = c ∧ 0 < normOf (fitOf r) g s then r.factor else 0).sum := by
  obtain ⟨h0, hg⟩ := (setup_defined rs amp s g).1 (by rw [h]; simp)
  rw [setup_eq rs amp s g h0 hg, Option.some.injEq] at h
  subst h
  rw [recompute_setup rs amp s g h0 hg, setup_eq _ _ _ _ h0 hg, Option.some.injEq] at hst
  subst hst
  generalize amps.getLastD amp = a at *
  have e : ∀ k, compute (order (s + k)) u c - u c = (rs.map fun r => if r.id = c then (handlerOf a s g r).vec.getD k 0 else 0).sum := by
    intro k
    unfold compute
    rw [kernel_any_order 1 _ _ (ho (s + k)), contributions_eq, source_map, Nat.add_sub_cancel_left]
    ring
  simp only [e]
  clear h0 e ho
  induction rs with
  | nil => simp
  | cons r rs ih =>
    simp only [List.map_cons, List.sum_cons, add_mul, Finset.sum_add_distrib, mul_add]
    rw [ih]
    congr 1
    by_cases hc : r.id = c
    · simp only [hc, if_true, true_and]
      have := vecOf_sum (fitOf r) a r.factor s g (normOf (fitOf r) g s)
      rw [vecOf_length] at this
      refine Eq.trans this ?_
      unfold scaleOf
      split_ifs with hp
      · rw [div_mul_cancel₀ _ hp.ne']
      · simp
    · simp [hc]

/-- **C57, when a row counts.** On an increasing grid the discrete integral of a row is positive exactly when its profile is positive in the middle of some cell. -/
theorem norm_pos_iff (r : Row K) (s : ℕ) (g : List K) (hg : g.Pairwise (· < ·)) :
    0 < normOf (fitOf r) g s ↔ ∃ i, s < i ∧ i + 3 < g.length ∧ 0 < fitOf r ((g.getD i 0 + g.getD (i + 1) 0) / 2 - g.getD (s + 1) 0) := by
  have w : ∀ i, i + 1 < g.length → 0 < width g i := by
    intro i hi
    unfold width
    rw [List.getD_eq_getElem?_getD, List.getD_eq_getElem?_getD, List.getElem?_eq_getElem hi, List.getElem?_eq_getElem (by omega : i < g.length)]
    exact sub_pos.mpr (List.pairwise_iff_getElem.mp hg i (i + 1) (by omega) hi (by omega))
  have nn : ∀ x, 0 ≤ fitOf r x := fun x => customFit_nonneg _ _ x
  rw [normOf_sum]
  constructor
  · intro h
    by_contra hc
    push Not at hc
    refine absurd h (not_lt.mpr (Finset.sum_nonpos fun k hk => ?_))
    have hk' : k < turns g.length s := Finset.mem_range.mp hk
    unfold turns at hk'
    exact mul_nonpos_of_nonpos_of_nonneg (hc (s + 1 + k) (by omega) (by omega)) (w _ (by omega)).le
  · rintro ⟨i, h1, h2, h3⟩
    refine Finset.sum_pos' (fun k hk => ?_) ⟨i - (s + 1), ?_, ?_⟩
    · have hk' : k < turns g.length s := Finset.mem_range.mp hk
      unfold turns at hk'
      exact mul_nonneg (nn _) (w _ (by omega)).le
    · rw [Finset.mem_range]; unfold turns; omega
    · rw [show s + 1 + (i - (s + 1)) = i by omega]
      exact mul_pos h3 (w _ (by omega))

/-- **C57, reported flux.** The reported flux of a cluster's rows is what is implanted, if all of them count. -/
theorem instant_total (rs : List (Row K)) (a : K) (s : ℕ) (g : List K) (c : ℕ) (h : ∀ r ∈ rs, r.id = c → 0 < normOf (fitOf r) g s) :
    a * (rs.map fun r => if r.id = c ∧ 0 < normOf (fitOf r) g s then r.factor else 0).sum = ((rs.zip (instant rs a)).map fun p => if p.1.id = c then p.2 else 0).sum := by
  induction rs with
  | nil => simp [instant]
  | cons r rs ih =>
    have := ih fun x hx => h x (by simp [hx])
    unfold instant at this ⊢
    simp only [List.map_cons, List.sum_cons, List.zip_cons_cons, mul_add]
    rw [this]
    congr 1
    by_cases hc : r.id = c
    · rw [if_pos ⟨hc, h r (by simp) hc⟩, if_pos hc]
    · rw [if_neg (by tauto), if_neg hc, mul_zero]

/-- **C57, lost.** A row whose profile ends before the first cell has no effect, though its flux is reported. -/
theorem row_lost : ∃ (r : Row ℚ) (g : List ℚ) (st : State ℚ), setup [r] 5 0 g = some st ∧ instant [r] 5 = [5] ∧ ∀ xi, contributions st 0 xi = [(7, 0)] := by
  refine ⟨⟨7, 1, [1], 1⟩, [0, 4, 8, 12, 16, 20], _, setup_eq _ _ _ _ (by simp) (by decide), by decide +kernel, fun xi => ?_⟩
  rw [contributions_eq]
  have e : (handlerOf 5 0 [0, 4, 8, 12, 16, 20] (⟨7, 1, [1], 1⟩ : Row ℚ)).vec = [0, 0, 0, 0] := by decide +kernel
  simp only [List.map_cons, List.map_nil, e, List.cons.injEq, Prod.mk.injEq, true_and, and_true]
  rcases (by omega : xi - 0 = 0 ∨ xi - 0 = 1 ∨ xi - 0 = 2 ∨ xi - 0 = 3 ∨ 4 ≤ xi - 0) with h | h | h | h | h
  · rw [h]; rfl
  · rw [h]; rfl
  · rw [h]; rfl
  · rw [h]; rfl
  · rw [List.getD_eq_getElem?_getD, List.getElem?_eq_none (by simpa using h)]; rfl

/-! ### Pulses -/

variable [FloorRing K]

/-- **C57, pulses.** With an amplitude that is not zero, vacancies and interstitials receive the same; in a pulse what the profile gives, and between pulses nothing. -/
theorem pulsed_spec (eps dT alpha t : K) (fit : K → K) (amp : K) (v i s : ℕ) (g : List K) (hamp : ¬near eps amp 0) (hg : 3 ≤ g.length) (hv : v ≠ i) :
    ∃ p, pulsedInit eps fit amp false v i s g = some p ∧
      (pulseOn eps dT alpha t = some false → ∀ xi, pulsedAdd eps dT alpha t p s xi = some [])
      ∧ (pulseOn eps dT alpha t = some true → ∀ k, k < turns g.length s + 2 → ∃ l, pulsedAdd eps dT alpha t p s (s + k) = some l ∧ source l v = source l i
        ∧ source l v = (vecOf fit amp 1 s g (normOf fit g s)).getD k 0 ∧ ∀ c, c ≠ v → c ≠ i → source l c = 0) := by
  refine ⟨⟨[v, i], vecOf fit amp 1 s g (normOf fit g s)⟩, ?_, ?_, ?_⟩
  · unfold pulsedInit
    rw [init_eq _ _ _ _ _ hg]
    simp [hamp]
  · intro h xi
    unfold pulsedAdd
    rw [h]
  · intro h k hk
    unfold pulsedAdd
    rw [h, Nat.add_sub_cancel_left]
    dsimp only
    have hl := vecOf_length fit amp 1 s g (normOf fit g s)
    rw [List.getElem?_eq_getElem (by omega)]
    refine ⟨_, rfl, ?_, ?_, ?_⟩
    · simp [source, hv, Ne.symm hv]
    · rw [List.getD_eq_getElem?_getD, List.getElem?_eq_getElem (by omega)]
      simp [source, Ne.symm hv]
    · intro c h1 h2
      simp [source, Ne.symm h1, Ne.symm h2]

/-- **C57, pulses without amplitude.** With no flux at all the indices are not set, but the first pulse reads them. -/
theorem pulsed_zero (eps dT alpha t : K) (fit : K → K) (amp : K) (v i s : ℕ) (g : List K) (hamp : near eps amp 0) (hg : 3 ≤ g.length) (hon : pulseOn eps dT alpha t = some true) :
    ∃ p, pulsedInit eps fit amp false v i s g = some p ∧ ∀ xi, pulsedAdd eps dT alpha t p s xi = none := by
  refine ⟨⟨[], vecOf fit amp 1 s g (normOf fit g s)⟩, ?_, fun xi => ?_⟩
  · unfold pulsedInit
    rw [init_eq _ _ _ _ _ hg]
    simp [hamp]
  · unfold pulsedAdd
    rw [hon]
    dsimp only
    split
    · next h _ => simp at h
    · rfl

/-- **C57, pulses with a time profile.** A time profile is ignored: the amplitude stays at zero, and nothing is ever added. -/
theorem pulsed_profile (eps dT alpha t : K) (fit : K → K) (v i s : ℕ) (g : List K) (hg : 3 ≤ g.length) (p : Pulsed K) (h : pulsedInit eps fit 0 true v i s g = some p)
    (xi : ℕ) (l : Table K) (hl : pulsedAdd eps dT alpha t p s xi = some l) (c : ℕ) : source l c = 0 := by
  unfold pulsedInit at h
  rw [init_eq _ _ _ _ _ hg] at h
  simp only [Bool.true_eq_false, and_false, if_false, Option.map_some, Option.some.injEq] at h
  subst h
  have z : ∀ x ∈ vecOf fit 0 1 s g (normOf fit g s), x = 0 := by
    intro x hx
    unfold vecOf scaleOf at hx
    simp only [List.cons_append, List.mem_cons, List.mem_append, List.mem_map, List.not_mem_nil, or_false] at hx
    rcases hx with rfl | ⟨j, -, rfl⟩ | rfl
    · rfl
    · split_ifs <;> simp
    · rfl
  unfold pulsedAdd at hl
  split at hl
  · simp at hl
  · rw [Option.some.injEq] at hl; rw [← hl]; rfl
  · split at hl
    · next x a b hx _ _ =>
      have x0 : x = 0 := z x (List.mem_of_getElem? hx)
      rw [Option.some.injEq] at hl
      rw [← hl, x0]
      simp [source]
    · simp at hl

/-! ### Cases -/

/-- A file of two rows, tokens being numbers. -/
def env : Env ℚ ℚ := ⟨fun a b => if a = 0 then .ok b.num.toNat else .error .absent, some⟩

example : readRows env [[0, 3, 1 / 2], [1, 2, 3, 4, 5, 6, 7, 8, 9, 10, 11, 12, 13, 14, 15, 16, 20], [], [5]]
    = .ok [⟨3, 1 / 2, [1, 2, 3, 4, 5, 6, 7, 8, 9, 10, 11, 12, 13, 14, 15, 16], 20⟩] := by
  have := (readRows_render env (fun n => (0, n)) id (by intro n; simp [env]) (fun x => rfl) [⟨3, 1 / 2, [1, 2, 3, 4, 5, 6, 7, 8, 9, 10, 11, 12, 13, 14, 15, 16], 20⟩]
    (by simp) [[5]]).2
  simpa [render] using this

example : setup [(⟨2, 1 / 2, [1], 20⟩ : Row ℚ), ⟨2, 1 / 4, [0, 1], 20⟩] 4 0 [0, 1, 2, 3, 4, 5, 6] ≠ none := (setup_defined _ _ _ _).2 (by simp)
example : 0 < normOf (fitOf (⟨2, 1 / 2, [1], 20⟩ : Row ℚ)) [0, 1, 2, 3, 4, 5, 6] 0 := by decide +kernel

end Xolotl.Flux.Custom
