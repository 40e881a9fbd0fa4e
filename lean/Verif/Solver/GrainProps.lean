import Verif.Solver.Grain
import Verif.Solver.RetentionProps
import Mathlib.Tactic.LinearCombination

set_option linter.unusedSectionVars false

/-!
# Properties of the accounts of xenon at the grain boundaries (C80)
-/

namespace Xolotl.Solver.Grain

variable {K : Type*} [Field K] [LinearOrder K] [IsStrictOrderedRing K]

/-! ### Points -/

theorem setGB_count (b : Box) (p : Pt) (h : b.xs ≤ p.1 ∧ p.1 < b.xs + max b.xm 1 ∧ b.ys ≤ p.2.1 ∧ p.2.1 < b.ys + max b.ym 1 ∧ b.zs ≤ p.2.2 ∧ p.2.2 < b.zs + max b.zm 1) (calls : List Pt) :
    ∀ v : List Pt, (calls.foldl (setGB b) v).count p = v.count p + calls.count p := by
  induction calls with
  | nil => simp
  | cons q l ih =>
    intro v
    rw [List.foldl_cons, ih, List.count_cons]
    by_cases hq : q = p
    · subst hq
      rw [setGB, if_pos h, List.count_append]
      simp
      omega
    · have : (setGB b v q).count p = v.count p := by
        unfold setGB
        split
        · rw [List.count_append, List.count_singleton]
          simp [hq]
        · rfl
      rw [this]
      simp [hq]

/-- **C80, processes.** When a point belongs to one process, it is worked on as often as it was set. -/
theorem entries_count (dim : ℕ) (boxes : List Box) (calls : List Pt) (p : Pt)
    (hy : dim < 2 → p.2.1 = 0 ∧ ∀ b ∈ boxes, b.ys = 0) (hz : dim < 3 → p.2.2 = 0 ∧ ∀ b ∈ boxes, b.zs = 0)
    (hone : boxes.countP (fun b => owns dim b p) = 1) : (entries dim boxes calls).flatten.count p = calls.count p := by
  have key : ∀ bs : List Box, (∀ b ∈ bs, b ∈ boxes) → (entries dim bs calls).flatten.count p = bs.countP (fun b => owns dim b p) * calls.count p := by
    intro bs
    induction bs with
    | nil => simp [entries]
    | cons b bs ih =>
      intro hb
      have ih := ih fun b' h' => hb b' (List.mem_cons_of_mem _ h')
      have e : entries dim (b :: bs) calls = (calls.foldl (setGB b) []).filter (owns dim b) :: entries dim bs calls := rfl
      rw [e, List.flatten_cons, List.count_append, ih, List.countP_cons]
      by_cases ho : owns dim b p = true
      · have hin : b.xs ≤ p.1 ∧ p.1 < b.xs + max b.xm 1 ∧ b.ys ≤ p.2.1 ∧ p.2.1 < b.ys + max b.ym 1 ∧ b.zs ≤ p.2.2 ∧ p.2.2 < b.zs + max b.zm 1 := by
          have hb' := hb b (List.mem_cons_self ..)
          simp only [owns, Bool.and_eq_true, Bool.or_eq_true, decide_eq_true_eq] at ho
          obtain ⟨⟨h1, h2⟩, h3⟩ := ho
          refine ⟨h1.1, by omega, ?_, ?_, ?_, ?_⟩
          · rcases h2 with h2 | h2
            · rw [(hy h2).2 b hb']; exact Nat.zero_le _
            · exact h2.1
          · rcases h2 with h2 | h2
            · rw [(hy h2).2 b hb', (hy h2).1]; omega
            · omega
          · rcases h3 with h3 | h3
            · rw [(hz h3).2 b hb']; exact Nat.zero_le _
            · exact h3.1
          · rcases h3 with h3 | h3
            · rw [(hz h3).2 b hb', (hz h3).1]; omega
            · omega
        rw [List.count_filter ho, setGB_count b p hin, if_pos ho]
        simp
        ring
      · rw [if_neg ho, List.count_eq_zero_of_not_mem (by simp [List.mem_filter, ho])]
        simp
  rw [key boxes fun _ h => h, hone, one_mul]

example : entries 1 [⟨0, 3, 0, 0, 0, 0⟩, ⟨3, 2, 0, 0, 0, 0⟩] [(2, 0, 0), (3, 0, 0), (7, 0, 0), (2, 0, 0)] = [[(2, 0, 0), (2, 0, 0)], [(3, 0, 0)]] := by decide
example : (entries 1 [⟨0, 3, 0, 0, 0, 0⟩, ⟨3, 2, 0, 0, 0, 0⟩] [(2, 0, 0), (3, 0, 0), (7, 0, 0), (2, 0, 0)]).flatten.count (3, 0, 0) = 1 :=
  entries_count 1 _ _ (3, 0, 0) (by simp) (by simp) (by decide)
example : (entries 2 [⟨0, 3, 0, 2, 0, 0⟩, ⟨0, 3, 2, 2, 0, 0⟩] [(2, 3, 0), (2, 1, 0)]).flatten.count (2, 3, 0) = 1 :=
  entries_count 2 _ _ (2, 3, 0) (by simp) (by simp) (by decide)

/-! ### Transfer -/

/-- **C80, transfer.** What is at the points of the boundary moves to their amounts: at every point of the grid the sum of both stays the same, the points of the boundary are empty afterwards, and nothing else changes, even if points are given several times. -/
theorem initGB_keeps (atoms : (ℕ → K) → K) (dof : ℕ) (h0 : ∀ c : ℕ → K, (∀ n < dof, c n = 0) → atoms c = 0) (gb : List Pt) : ∀ s : (Pt → K) × (Pt → ℕ → K),
    (∀ p, (initGB atoms dof gb s).1 p + atoms ((initGB atoms dof gb s).2 p) = s.1 p + atoms (s.2 p)) ∧
      (∀ p ∈ gb, ∀ n < dof, (initGB atoms dof gb s).2 p n = 0) ∧ (∀ p n, dof ≤ n → (initGB atoms dof gb s).2 p n = s.2 p n) ∧
      ∀ p, p ∉ gb → (initGB atoms dof gb s).1 p = s.1 p ∧ (initGB atoms dof gb s).2 p = s.2 p := by
  have zero : ∀ (gb : List Pt) (s : (Pt → K) × (Pt → ℕ → K)) (p : Pt), (∀ n < dof, s.2 p n = 0) → ∀ n < dof, (initGB atoms dof gb s).2 p n = 0 := by
    intro gb
    induction gb with
    | nil => intro s p h; exact h
    | cons q l ih =>
      intro s p h
      refine ih _ p ?_
      intro n hn
      by_cases hp : p = q
      · subst hp; simp [hn]
      · simp only [Function.update_of_ne hp]; exact h n hn
  induction gb with
  | nil => intro s; simp [initGB]
  | cons q l ih =>
    intro s
    obtain ⟨a, b, c, d⟩ := ih (Function.update s.1 q (s.1 q + atoms (s.2 q)), Function.update s.2 q fun n => if n < dof then 0 else s.2 q n)
    have e : initGB atoms dof (q :: l) s = initGB atoms dof l (Function.update s.1 q (s.1 q + atoms (s.2 q)), Function.update s.2 q fun n => if n < dof then 0 else s.2 q n) := rfl
    rw [e]
    refine ⟨fun p => ?_, ?_, fun p n hn => ?_, fun p hp => ?_⟩
    · rw [a p]
      by_cases hp : p = q
      · subst hp
        simp only [Function.update_self]
        rw [h0 (fun n => if n < dof then 0 else s.2 p n) (by intro n hn; simp [hn]), add_zero]
      · simp only [Function.update_of_ne hp]
    · intro p hp n hn
      by_cases hq : p = q
      · subst hq
        exact zero l _ p (by intro n hn; simp [hn]) n hn
      · exact b p (by simpa [hq] using hp) n hn
    · rw [c p n hn]
      by_cases hq : p = q
      · subst hq; simp [Nat.not_lt.mpr hn]
      · simp only [Function.update_of_ne hq]
    · have hp' : p ≠ q ∧ p ∉ l := by simpa using hp
      obtain ⟨d1, d2⟩ := d p hp'.2
      rw [d1, d2]
      simp only [Function.update_of_ne hp'.1]
      exact ⟨trivial, trivial⟩

example : let s := initGB (fun c : ℕ → ℚ => c 0 + 2 * c 1) 2 [(1, 0, 0), (1, 0, 0)] (fun _ => 5, fun _ n => (n : ℚ) + 1)
    s.1 (1, 0, 0) = 10 ∧ s.2 (1, 0, 0) 1 = 0 ∧ s.2 (1, 0, 0) 2 = 3 ∧ s.1 (2, 0, 0) = 5 := by
  norm_num [initGB, Function.update]

/-! ### Flux -/

theorem addFrom_eq (xs : ℕ) (ms : List (Mv K)) (factor : K) (x y z : ℤ) (hx : (xs : ℤ) ≤ x + 1) (u : ℕ → K) (s : ℕ) :
    addFrom xs ms factor x y z u s = u s + (ms.map fun m => if Retention.axisOf m.comp = some s then (m.comp.getD s 0 : K) * factor * m.coef x * m.conc x y z else 0).sum := by
  unfold addFrom
  rw [Retention.outgoing_eq, List.map_map]
  have e : (xs : ℤ) + ((x + 1 - xs).toNat : ℤ) - 1 = x := by
    rw [Int.toNat_of_nonneg (by omega)]; omega
  congr 2
  refine List.map_congr_left fun m _ => ?_
  simp only [Function.comp, Mv.at, e]

/-- The rate at which diffusion would change the concentration of a cluster at a point.  (`Transport.conc3` is what the diffusion handler computes.) -/
def stencil3 (nX : ℕ) (grid : ℕ → K) (hy hz : K) (m : Mv K) (p : Pt) : K :=
  Transport.conc3 (Transport.hxLeft grid p.1) (Transport.hxRight nX grid p.1) (1 / (hy * hy)) (1 / (hz * hz)) ⟨m.coef p.1, m.coef (p.1 - 1), m.coef (p.1 + 1)⟩ Transport.open3
    ⟨⟨⟨m.conc p.1 p.2.1 p.2.2, m.conc (p.1 - 1) p.2.1 p.2.2, m.conc (p.1 + 1) p.2.1 p.2.2⟩, m.conc p.1 (p.2.1 - 1) p.2.2, m.conc p.1 (p.2.1 + 1) p.2.2⟩, m.conc p.1 p.2.1 (p.2.2 + 1), m.conc p.1 p.2.1 (p.2.2 - 1)⟩

/-- The same in two dimensions. -/
def stencil2 (nX : ℕ) (grid : ℕ → K) (hy : K) (m : Mv K) (p : Pt) : K :=
  Transport.conc2 (Transport.hxLeft grid p.1) (Transport.hxRight nX grid p.1) (1 / (hy * hy)) ⟨m.coef p.1, m.coef (p.1 - 1), m.coef (p.1 + 1)⟩ Transport.open2
    ⟨⟨m.conc p.1 p.2.1 0, m.conc (p.1 - 1) p.2.1 0, m.conc (p.1 + 1) p.2.1 0⟩, m.conc p.1 (p.2.1 - 1) 0, m.conc p.1 (p.2.1 + 1) 0⟩

/-- The same in one dimension. -/
def stencil1 (nX : ℕ) (grid : ℕ → K) (m : Mv K) (p : Pt) : K :=
  Transport.conc1 (Transport.hxLeft grid p.1) (Transport.hxRight nX grid p.1) ⟨m.coef p.1, m.coef (p.1 - 1), m.coef (p.1 + 1)⟩ Transport.open1
    ⟨m.conc p.1 0 0, m.conc (p.1 - 1) 0 0, m.conc (p.1 + 1) 0 0⟩

theorem pure_zero (comp : List ℕ) (s : ℕ) (hq : ∃ q, Retention.axisOf comp = some q) (h : Retention.axisOf comp ≠ some s) : comp.getD s 0 = 0 := by
  obtain ⟨q, e⟩ := hq
  exact (Retention.axisOf_pure comp q e).2 s fun hs => h (by rw [e, hs])

theorem before_ok (wide : Bool) (i : ℕ) (h : wide = true ∨ 0 < i) : before wide i = some ((i : ℤ) - 1) := by
  unfold before
  rw [if_neg]
  rintro ⟨h1, h2⟩
  rcases h with h | h
  · rw [h] at h2; cases h2
  · omega

/-- **C80, flux.** On any grid, for clusters of one species whose coefficient does not change from a neighbour to the next: the flux into an empty point of the boundary is the rate at which diffusion would fill it, on whatever process it is.  In three dimensions. -/
theorem into3_stencil_partial (wide : Bool) (nX : ℕ) (grid : ℕ → K) (hg : ∀ i, grid i < grid (i + 1)) (hy hz : K) (xs : ℕ) (ms : List (Mv K)) (p : Pt) (hxs : xs ≤ p.1)
    (hw : wide = true ∨ (0 < p.1 ∧ 0 < p.2.1 ∧ 0 < p.2.2))
    (hm : ∀ m ∈ ms, (∃ q, Retention.axisOf m.comp = some q) ∧ m.coef (p.1 - 1) = m.coef p.1 ∧ m.coef (p.1 + 1) = m.coef p.1 ∧ m.conc p.1 p.2.1 p.2.2 = 0) :
    ∃ u, into3 wide nX grid hy hz xs ms p = some u ∧ ∀ s, u s = (ms.map fun m => (m.comp.getD s 0 : K) * stencil3 nX grid hy hz m p).sum := by
  have hL := (Transport.spacing_pos nX grid hg p.1).1
  have hR := (Transport.spacing_pos nX grid hg p.1).2
  refine ⟨_, by rw [into3, before_ok wide p.1 (by tauto), before_ok wide p.2.1 (by tauto), before_ok wide p.2.2 (by tauto)]; rfl, fun s => ?_⟩
  simp only
  rw [addFrom_eq _ _ _ _ _ _ (by omega), addFrom_eq _ _ _ _ _ _ (by omega), addFrom_eq _ _ _ _ _ _ (by omega), addFrom_eq _ _ _ _ _ _ (by omega), addFrom_eq _ _ _ _ _ _ (by omega),
    addFrom_eq _ _ _ _ _ _ (by omega), zero_add, ← List.sum_map_add, ← List.sum_map_add, ← List.sum_map_add, ← List.sum_map_add, ← List.sum_map_add]
  congr 1
  refine List.map_congr_left fun m hmem => ?_
  obtain ⟨hq, c1, c2, c0⟩ := hm m hmem
  by_cases ha : Retention.axisOf m.comp = some s
  · simp only [if_pos ha, stencil3, Transport.conc3, Transport.open3, Transport.open2, Transport.open1, Retention.factorAt, c0, c1, c2]
    field_simp
    ring
  · simp only [if_neg ha, pure_zero m.comp s hq ha]
    simp

/-- In two dimensions. -/
theorem into2_stencil_partial (wide : Bool) (nX : ℕ) (grid : ℕ → K) (hg : ∀ i, grid i < grid (i + 1)) (hy : K) (xs : ℕ) (ms : List (Mv K)) (p : Pt) (hxs : xs ≤ p.1)
    (hw : wide = true ∨ (0 < p.1 ∧ 0 < p.2.1))
    (hm : ∀ m ∈ ms, (∃ q, Retention.axisOf m.comp = some q) ∧ m.coef (p.1 - 1) = m.coef p.1 ∧ m.coef (p.1 + 1) = m.coef p.1 ∧ m.conc p.1 p.2.1 0 = 0) :
    ∃ u, into2 wide nX grid hy xs ms p = some u ∧ ∀ s, u s = (ms.map fun m => (m.comp.getD s 0 : K) * stencil2 nX grid hy m p).sum := by
  have hL := (Transport.spacing_pos nX grid hg p.1).1
  have hR := (Transport.spacing_pos nX grid hg p.1).2
  refine ⟨_, by rw [into2, before_ok wide p.1 (by tauto), before_ok wide p.2.1 (by tauto)]; rfl, fun s => ?_⟩
  simp only
  rw [addFrom_eq _ _ _ _ _ _ (by omega), addFrom_eq _ _ _ _ _ _ (by omega), addFrom_eq _ _ _ _ _ _ (by omega),
    addFrom_eq _ _ _ _ _ _ (by omega), zero_add, ← List.sum_map_add, ← List.sum_map_add, ← List.sum_map_add]
  congr 1
  refine List.map_congr_left fun m hmem => ?_
  obtain ⟨hq, c1, c2, c0⟩ := hm m hmem
  by_cases ha : Retention.axisOf m.comp = some s
  · simp only [if_pos ha, stencil2, Transport.conc2, Transport.open2, Transport.open1, Retention.factorAt, c0, c1, c2]
    field_simp
    ring
  · simp only [if_neg ha, pure_zero m.comp s hq ha]
    simp

/-- In one dimension. -/
theorem into1_stencil_partial (wide : Bool) (nX : ℕ) (grid : ℕ → K) (hg : ∀ i, grid i < grid (i + 1)) (xs : ℕ) (ms : List (Mv K)) (p : Pt) (hxs : xs ≤ p.1)
    (hw : wide = true ∨ 0 < p.1)
    (hm : ∀ m ∈ ms, (∃ q, Retention.axisOf m.comp = some q) ∧ m.coef (p.1 - 1) = m.coef p.1 ∧ m.coef (p.1 + 1) = m.coef p.1 ∧ m.conc p.1 0 0 = 0) :
    ∃ u, into1 wide nX grid xs ms p = some u ∧ ∀ s, u s = (ms.map fun m => (m.comp.getD s 0 : K) * stencil1 nX grid m p).sum := by
  have hL := (Transport.spacing_pos nX grid hg p.1).1
  have hR := (Transport.spacing_pos nX grid hg p.1).2
  refine ⟨_, by rw [into1, before_ok wide p.1 hw]; rfl, fun s => ?_⟩
  simp only
  rw [addFrom_eq _ _ _ _ _ _ (by omega), addFrom_eq _ _ _ _ _ _ (by omega), zero_add, ← List.sum_map_add]
  congr 1
  refine List.map_congr_left fun m hmem => ?_
  obtain ⟨hq, c1, c2, c0⟩ := hm m hmem
  by_cases ha : Retention.axisOf m.comp = some s
  · simp only [if_pos ha, stencil1, Transport.conc1, Transport.open1, Retention.factorAt, c0, c1, c2]
    field_simp
    ring
  · simp only [if_neg ha, pure_zero m.comp s hq ha]
    simp

/-- **C80 fails at the first points** with an `IdType` of 32 bits: the monitor then reads outside of the array, although in the transverse directions these are points like all others. -/
theorem into_first (nX : ℕ) (grid : ℕ → K) (hy hz : K) (xs : ℕ) (ms : List (Mv K)) (x y : ℕ) :
    into1 false nX grid xs ms (0, 0, 0) = none ∧ into2 false nX grid hy xs ms (x, 0, 0) = none ∧ into3 false nX grid hy hz xs ms (x, y, 0) = none := by
  refine ⟨rfl, ?_, ?_⟩
  · unfold into2
    cases before false x <;> rfl
  · unfold into3
    cases before false x with
    | none => rfl
    | some a => cases before false y <;> rfl

/-- **C80 fails with a gradient of the temperature**: the flux uses the coefficients of the neighbours, the diffusion that of the point and the differences. -/
theorem into_gradient : ∃ (m : Mv ℚ), m.conc 2 0 0 = 0 ∧ m.comp = [1] ∧ ∃ u, into1 true 5 (fun i => (i : ℚ)) 0 [m] (2, 0, 0) = some u ∧ u 0 = 1 ∧ stencil1 5 (fun i => (i : ℚ)) m (2, 0, 0) = 3 / 2 := by
  refine ⟨⟨[1], fun i => i, fun x _ _ => if x = 1 then 1 else 0⟩, by norm_num, rfl, _, rfl, ?_, ?_⟩
  · have ha : Retention.axisOf [1] = some 0 := by decide
    simp only
    rw [addFrom_eq _ _ _ _ _ _ (by norm_num), addFrom_eq _ _ _ _ _ _ (by norm_num)]
    norm_num [ha, Retention.factorAt, Transport.hxLeft, Transport.hxRight]
  · norm_num [stencil1, Transport.hxLeft, Transport.hxRight, Transport.conc1, Transport.open1]

/-! ### The accounts -/

theorem adds (f : Pt → K) (l : List Pt) : ∀ r : Pt → K, ∀ p, (l.foldl (fun r p => Function.update r p (r p + f p)) r) p = r p + l.count p * f p := by
  induction l with
  | nil => simp
  | cons q l ih =>
    intro r p
    rw [List.foldl_cons, ih, List.count_cons]
    by_cases h : p = q
    · subst h; simp; ring
    · have h' : q ≠ p := fun e => h e.symm
      simp [Function.update_of_ne h, h']

theorem sets (f : Pt → K) (l : List Pt) : ∀ r : Pt → K, ∀ p, (l.foldl (fun r p => Function.update r p (f p)) r) p = if p ∈ l then f p else r p := by
  induction l with
  | nil => simp
  | cons q l ih =>
    intro r p
    rw [List.foldl_cons, ih]
    by_cases h : p = q
    · subst h; simp
    · simp [h]

theorem sums (f : Pt → K) (l : List Pt) : ∀ a : K, l.foldl (fun a p => a + f p) a = a + (l.map f).sum := by
  induction l with
  | nil => simp
  | cons q l ih => intro a; rw [List.foldl_cons, ih, List.map_cons, List.sum_cons]; ring

theorem call_eq (cell : Pt → K) (work : List (List Pt)) (dt : K) (flux : Pt → K) (s : Ledger K) :
    (∀ p, (call cell work dt flux s).rate p = s.rate p + work.flatten.count p * (s.prev p * dt)) ∧
      (call cell work dt flux s).n = s.n + (work.flatten.map fun p => s.prev p * cell p).sum * dt ∧
      ∀ p, (call cell work dt flux s).prev p = if p ∈ work.flatten then flux p else s.prev p := by
  refine ⟨fun p => ?_, ?_, fun p => ?_⟩
  · show (work.foldl _ s.rate) p = _
    rw [← List.foldl_flatten, adds (fun p => s.prev p * dt)]
  · show _ + (work.map _).sum * dt = _
    congr 2
    induction work with
    | nil => rfl
    | cons l w ih => rw [List.map_cons, List.sum_cons, ih, sums (fun p => s.prev p * cell p), zero_add, List.flatten_cons, List.map_append, List.sum_append]
  · show (work.foldl _ s.prev) p = _
    rw [← List.foldl_flatten, sets flux]

/-- **C80, the two accounts agree.** Over any calls, the total of the run grows by the sum over the points of the boundary of the growth of their amounts times their cells. -/
theorem accounts_agree (cell : Pt → K) (work : List (List Pt)) : ∀ (l : List (K × (Pt → K))) (s : Ledger K) (t : K),
    (run cell work s t l).1.n - s.n = ∑ p ∈ work.flatten.toFinset, ((run cell work s t l).1.rate p - s.rate p) * cell p := by
  intro l
  induction l with
  | nil => intro s t; simp [run]
  | cons c l ih =>
    intro s t
    obtain ⟨hr, hn, -⟩ := call_eq cell work (c.1 - t) c.2 s
    have e := ih (call cell work (c.1 - t) c.2 s) c.1
    have w : (call cell work (c.1 - t) c.2 s).n - s.n = ∑ p ∈ work.flatten.toFinset, ((call cell work (c.1 - t) c.2 s).rate p - s.rate p) * cell p := by
      rw [hn, Finset.sum_list_map_count, add_sub_cancel_left, Finset.sum_mul]
      refine Finset.sum_congr rfl fun p _ => ?_
      rw [hr p, nsmul_eq_mul, show (instBEqOfDecidableEq : BEq Pt) = instBEqProd from lawful_beq_subsingleton ..]
      ring
    show (run cell work (call cell work (c.1 - t) c.2 s) c.1 l).1.n - s.n = ∑ p ∈ work.flatten.toFinset, ((run cell work (call cell work (c.1 - t) c.2 s) c.1 l).1.rate p - s.rate p) * cell p
    have split : ∀ p, ((run cell work (call cell work (c.1 - t) c.2 s) c.1 l).1.rate p - s.rate p) * cell p
        = ((run cell work (call cell work (c.1 - t) c.2 s) c.1 l).1.rate p - (call cell work (c.1 - t) c.2 s).rate p) * cell p + ((call cell work (c.1 - t) c.2 s).rate p - s.rate p) * cell p := by
      intro p; ring
    simp only [split, Finset.sum_add_distrib, ← e, ← w]
    ring

/-- The fluxes into a point, as calls of the account of `Retention`. -/
def seen (p : Pt) (l : List (K × (Pt → K))) : List (Retention.Call K) := l.map fun c => ⟨c.1, fun _ => c.2 p⟩

/-- **C80, amounts.** The amount at a point grows by what flowed in: the flux at the start of each step times its length, as often as the point was set. -/
theorem run_rate (cell : Pt → K) (work : List (List Pt)) (p : Pt) (hp : p ∈ work.flatten) : ∀ (l : List (K × (Pt → K))) (c : K × (Pt → K)) (s : Ledger K) (t : K),
    (run cell work s t (c :: l)).1.rate p = s.rate p + work.flatten.count p * (s.prev p * (c.1 - t) + Retention.left (seen p (c :: l)) 0) := by
  intro l
  induction l with
  | nil =>
    intro c s t
    obtain ⟨hr, -, -⟩ := call_eq cell work (c.1 - t) c.2 s
    show (call cell work (c.1 - t) c.2 s).rate p = _
    rw [hr p]
    simp [seen, Retention.left_single]
  | cons d l ih =>
    intro c s t
    obtain ⟨hr, -, hv⟩ := call_eq cell work (c.1 - t) c.2 s
    show (run cell work (call cell work (c.1 - t) c.2 s) c.1 (d :: l)).1.rate p = _
    have lc : Retention.left (seen p (c :: d :: l)) 0 = c.2 p * (d.1 - c.1) + Retention.left (seen p (d :: l)) 0 := Retention.left_cons _ _ _ _
    rw [ih d _ c.1, hr p, hv p, if_pos hp, lc]
    ring

/-- **C80, the account of a run.** From the beginning, with every point of the grid in one process and every point of the boundary set once: the total is the sum over the boundary of what flowed into its points times their cells. -/
theorem total_partial (cell : Pt → K) (dim : ℕ) (boxes : List Box) (calls : List Pt) (hnd : calls.Nodup)
    (hin : ∀ p ∈ calls, (dim < 2 → p.2.1 = 0 ∧ ∀ b ∈ boxes, b.ys = 0) ∧ (dim < 3 → p.2.2 = 0 ∧ ∀ b ∈ boxes, b.zs = 0) ∧ boxes.countP (fun b => owns dim b p) = 1)
    (l : List (K × (Pt → K))) (t : K) :
    (run cell (entries dim boxes calls) fresh t l).1.n = ∑ p ∈ calls.toFinset, Retention.left (seen p l) 0 * cell p := by
  have hcount : ∀ p ∈ calls, (entries dim boxes calls).flatten.count p = 1 := fun p hp => by
    rw [entries_count dim boxes calls p (hin p hp).1 (hin p hp).2.1 (hin p hp).2.2, List.count_eq_one_of_mem hnd hp]
  have hsub : ∀ p ∈ (entries dim boxes calls).flatten, p ∈ calls := by
    intro p hp
    obtain ⟨ll, h1, h2⟩ := List.mem_flatten.mp hp
    obtain ⟨b, -, rfl⟩ := List.mem_map.mp h1
    have h3 := (List.mem_filter.mp h2).1
    have mem : ∀ (cs v : List Pt), p ∈ cs.foldl (setGB b) v → p ∈ v ∨ p ∈ cs := by
      intro cs
      induction cs with
      | nil => intro v h; exact Or.inl h
      | cons q cs ih =>
        intro v h
        rcases ih _ h with h | h
        · unfold setGB at h
          split at h
          · rcases List.mem_append.mp h with h | h
            · exact Or.inl h
            · exact Or.inr (by rw [List.mem_singleton.mp h]; exact List.mem_cons_self ..)
          · exact Or.inl h
        · exact Or.inr (List.mem_cons_of_mem _ h)
    rcases mem calls [] h3 with h | h
    · cases h
    · exact h
  have hset : (entries dim boxes calls).flatten.toFinset = calls.toFinset := by
    ext p
    simp only [List.mem_toFinset]
    exact ⟨hsub p, fun hp => List.count_pos_iff.mp (by rw [hcount p hp]; exact Nat.one_pos)⟩
  have a := accounts_agree cell (entries dim boxes calls) l fresh t
  rw [hset] at a
  have z : (fresh : Ledger K).n = 0 := rfl
  rw [z, sub_zero] at a
  rw [a]
  refine Finset.sum_congr rfl fun p hp => ?_
  have hp' := List.mem_toFinset.mp hp
  congr 1
  cases l with
  | nil => simp [run, fresh, seen, Retention.left_nil]
  | cons c l =>
    rw [run_rate cell _ p (List.count_pos_iff.mp (by rw [hcount p hp']; exact Nat.one_pos)), hcount p hp']
    simp [fresh]

example : (run (cell (fun i => (i : ℚ)) 1 1) (entries 1 [⟨0, 3, 0, 0, 0, 0⟩, ⟨3, 2, 0, 0, 0, 0⟩] [(2, 0, 0), (3, 0, 0)]) fresh 0 [(0, fun p => (p.1 : ℚ)), (2, fun _ => 7), (3, fun _ => 1)]).1.n = 2 * (2 + 3) + 1 * (7 + 7) := by
  rw [total_partial _ 1 _ _ (by decide) (by decide)]
  rw [show ([(2, 0, 0), (3, 0, 0)] : List Pt).toFinset = {(2, 0, 0), (3, 0, 0)} by rfl, Finset.sum_pair (by decide)]
  norm_num [seen, Retention.left, Finset.sum_range_succ, cell]

/-- **C80 fails for points set twice**: they are counted twice. -/
theorem set_twice : let work := entries 1 [⟨0, 5, 0, 0, 0, 0⟩] [(2, 0, 0), (2, 0, 0)]
    (run (fun _ => (1 : ℚ)) work fresh 0 [(0, fun _ => 3), (1, fun _ => 0)]).1.n = 2 * 3 ∧ (run (fun _ => (1 : ℚ)) work fresh 0 [(0, fun _ => 3), (1, fun _ => 0)]).1.rate (2, 0, 0) = 2 * 3 := by
  refine ⟨?_, ?_⟩ <;> decide +kernel

theorem run_append (cell : Pt → K) (work : List (List Pt)) : ∀ (l l' : List (K × (Pt → K))) (s : Ledger K) (t : K),
    run cell work s t (l ++ l') = run cell work (run cell work s t l).1 (run cell work s t l).2 l' := by
  intro l
  induction l with
  | nil => intro l' s t; rfl
  | cons c l ih => intro l' s t; exact ih l' _ _

/-- Runs from ledgers that agree in the last fluxes into the boundary grow alike. -/
theorem run_growth (cell : Pt → K) (work : List (List Pt)) : ∀ (l : List (K × (Pt → K))) (s s' : Ledger K) (t : K), (∀ p ∈ work.flatten, s.prev p = s'.prev p) →
    (run cell work s t l).1.n - s.n = (run cell work s' t l).1.n - s'.n ∧ ∀ p, (run cell work s t l).1.rate p - s.rate p = (run cell work s' t l).1.rate p - s'.rate p := by
  intro l
  induction l with
  | nil => intro s s' t h; simp [run]
  | cons c l ih =>
    intro s s' t h
    obtain ⟨hr, hn, hv⟩ := call_eq cell work (c.1 - t) c.2 s
    obtain ⟨hr', hn', hv'⟩ := call_eq cell work (c.1 - t) c.2 s'
    obtain ⟨i1, i2⟩ := ih (call cell work (c.1 - t) c.2 s) (call cell work (c.1 - t) c.2 s') c.1 (fun p hp => by rw [hv, hv', if_pos hp, if_pos hp])
    have e : (work.flatten.map fun p => s.prev p * cell p) = work.flatten.map fun p => s'.prev p * cell p := List.map_congr_left fun p hp => by rw [h p hp]
    refine ⟨?_, fun p => ?_⟩
    · show (run cell work (call cell work (c.1 - t) c.2 s) c.1 l).1.n - s.n = (run cell work (call cell work (c.1 - t) c.2 s') c.1 l).1.n - s'.n
      rw [hn, hn', e] at i1
      linear_combination i1
    · show (run cell work (call cell work (c.1 - t) c.2 s) c.1 l).1.rate p - s.rate p = (run cell work (call cell work (c.1 - t) c.2 s') c.1 l).1.rate p - s'.rate p
      have i2 := i2 p
      rw [hr, hr'] at i2
      by_cases hp : p ∈ work.flatten
      · rw [h p hp] at i2; linear_combination i2
      · rw [List.count_eq_zero_of_not_mem hp] at i2
        simp only [Nat.cast_zero, zero_mul, add_zero] at i2
        exact i2

/-- **C80 fails for restarts**: a run restarted from the checkpoint at call `c` has lost everything that had gone to the boundary by then, in the total and at every point. -/
theorem restart_forgets (cell : Pt → K) (work : List (List Pt)) (t t' : K) (pre post : List (K × (Pt → K))) (c : K × (Pt → K)) :
    (run cell work fresh t (pre ++ c :: post)).1.n = (run cell work fresh t (pre ++ [c])).1.n + (run cell work fresh t' (c :: post)).1.n ∧
      ∀ p, (run cell work fresh t (pre ++ c :: post)).1.rate p = (run cell work fresh t (pre ++ [c])).1.rate p + (run cell work fresh t' (c :: post)).1.rate p := by
  rw [run_append, run_append]
  generalize hs : run cell work fresh t pre = q
  obtain ⟨s, u⟩ := q
  show (run cell work (call cell work (c.1 - u) c.2 s) c.1 post).1.n = (call cell work (c.1 - u) c.2 s).n + (run cell work (call cell work (c.1 - t') c.2 fresh) c.1 post).1.n ∧
    ∀ p, (run cell work (call cell work (c.1 - u) c.2 s) c.1 post).1.rate p = (call cell work (c.1 - u) c.2 s).rate p + (run cell work (call cell work (c.1 - t') c.2 fresh) c.1 post).1.rate p
  obtain ⟨-, -, hv⟩ := call_eq cell work (c.1 - u) c.2 s
  obtain ⟨hr', hn', hv'⟩ := call_eq cell work (c.1 - t') c.2 (fresh : Ledger K)
  obtain ⟨g1, g2⟩ := run_growth cell work post (call cell work (c.1 - u) c.2 s) (call cell work (c.1 - t') c.2 fresh) c.1 (fun p hp => by rw [hv, hv', if_pos hp, if_pos hp])
  have z1 : (call cell work (c.1 - t') c.2 (fresh : Ledger K)).n = 0 := by
    rw [hn', List.sum_eq_zero (by intro x hx; obtain ⟨p, -, rfl⟩ := List.mem_map.mp hx; exact zero_mul _), zero_mul]
    exact add_zero _
  have z2 : ∀ p, (call cell work (c.1 - t') c.2 (fresh : Ledger K)).rate p = 0 := fun p => by rw [hr']; simp [fresh]
  rw [z1] at g1
  refine ⟨by linear_combination g1, fun p => ?_⟩
  have := g2 p
  rw [z2] at this
  linear_combination this

example : (run (fun _ => (1 : ℚ)) [[(2, 0, 0)]] fresh 0 [(0, fun _ => 3), (1, fun _ => 5)]).1.n = 3 ∧ (run (fun _ => (1 : ℚ)) [[(2, 0, 0)]] fresh 0 [(1, fun _ => 5)]).1.n = 0 := by
  refine ⟨?_, ?_⟩ <;> decide +kernel

/-! ### Balance in one dimension -/

/-- A cluster as the first process sees it in one dimension. -/
def Mv.line (m : Mv K) : Retention.Mover K := ⟨m.comp, fun i => m.coef ((i : ℤ) - 1), fun i => m.conc i 0 0⟩

/-- **C80, balance.** On a uniform grid with concentrations of 0 at both ends and on the boundaries, for clusters of one species with constant coefficients: what diffusion takes away from the other points per time is what flows out through the ends and into the boundaries by the accounts. -/
theorem balance_partial (wide : Bool) (n : ℕ) (x0 h : K) (hh : 0 < h) (ms : List (Mv K)) (s : ℕ) (G : Finset ℕ)
    (hm : ∀ m ∈ ms, (∃ q, Retention.axisOf m.comp = some q) ∧ (∀ i j, m.coef i = m.coef j) ∧ m.conc 0 0 0 = 0 ∧ m.conc (n + 2) 0 0 = 0 ∧ ∀ g ∈ G, m.conc g 0 0 = 0) :
    ∑ k ∈ (Finset.range (n + 1)).filter (fun k => k + 1 ∉ G), (ms.map fun m => (m.comp.getD s 0 : K) * stencil1 (n + 3) (fun i => x0 + h * i) m (k + 1, 0, 0)).sum * h
      = -(Retention.surfaceFlux (n + 3) (fun i => x0 + h * i) (ms.map Mv.line) s + Retention.bulkFlux (n + 3) (fun i => x0 + h * i) (ms.map Mv.line) s
        + ∑ k ∈ (Finset.range (n + 1)).filter (fun k => k + 1 ∈ G), (((into1 wide (n + 3) (fun i => x0 + h * i) 0 ms (k + 1, 0, 0)).getD fun _ => 0) s) * h) := by
  have hg : ∀ i : ℕ, x0 + h * (i : K) < x0 + h * ((i + 1 : ℕ) : K) := by
    intro i; push_cast; nlinarith
  have hb := Retention.balance_partial n x0 h hh (ms.map Mv.line) s (by
    intro m hm'
    obtain ⟨m0, h0, rfl⟩ := List.mem_map.mp hm'
    obtain ⟨a, b, c, d, -⟩ := hm m0 h0
    refine ⟨a, fun i j => b _ _, by simpa [Mv.line] using c, ?_⟩
    simpa [Mv.line] using d)
  have hrate : ∀ k : ℕ, ∀ m : Mv K, Retention.diffusionRate (n + 3) (fun i : ℕ => x0 + h * i) m.line (k + 1) = stencil1 (n + 3) (fun i => x0 + h * i) m (k + 1, 0, 0) := by
    intro k m
    unfold Retention.diffusionRate stencil1 Mv.line Transport.open1
    congr 2 <;> push_cast <;> ring_nf
  have hc : Retention.content (n + 3) (fun i : ℕ => x0 + h * i) (ms.map Mv.line) (Retention.diffusionRate (n + 3) fun i : ℕ => x0 + h * i) s
      = ∑ k ∈ Finset.range (n + 1), (ms.map fun m => (m.comp.getD s 0 : K) * stencil1 (n + 3) (fun i => x0 + h * i) m (k + 1, 0, 0)).sum * h := by
    unfold Retention.content
    refine Finset.sum_congr rfl fun k _ => ?_
    rw [List.map_map]
    congr 1
    · congr 1
      refine List.map_congr_left fun m _ => ?_
      simp only [Function.comp, hrate]
      rfl
    · push_cast; ring
  have hin : ∀ k ∈ (Finset.range (n + 1)).filter (fun k => k + 1 ∈ G),
      (((into1 wide (n + 3) (fun i => x0 + h * i) 0 ms (k + 1, 0, 0)).getD fun _ => 0) s) * h = (ms.map fun m => (m.comp.getD s 0 : K) * stencil1 (n + 3) (fun i => x0 + h * i) m (k + 1, 0, 0)).sum * h := by
    intro k hk
    have hkG := (Finset.mem_filter.mp hk).2
    obtain ⟨u, hu, hs⟩ := into1_stencil_partial wide (n + 3) (fun i : ℕ => x0 + h * i) hg 0 ms (k + 1, 0, 0) (Nat.zero_le _) (Or.inr (Nat.succ_pos k))
      (fun m hm' => ⟨(hm m hm').1, (hm m hm').2.1 _ _, (hm m hm').2.1 _ _, by simpa using (hm m hm').2.2.2.2 (k + 1) hkG⟩)
    rw [hu, Option.getD_some, hs s]
  rw [Finset.sum_congr rfl hin]
  rw [hc, ← Finset.sum_filter_add_sum_filter_not (Finset.range (n + 1)) (fun k => k + 1 ∈ G)] at hb
  linear_combination hb

example : ∑ k ∈ (Finset.range 3).filter (fun k => k + 1 ∉ ({2} : Finset ℕ)), (([⟨[1], fun _ => 1, fun x _ _ => if x = 1 then 3 else if x = 3 then 5 else 0⟩] : List (Mv ℚ)).map
      fun m => (m.comp.getD 0 0 : ℚ) * stencil1 5 (fun i => (0 : ℚ) + 1 * i) m (k + 1, 0, 0)).sum * 1 = -(3 + 5 + 8) := by
  rw [balance_partial true 2 0 1 (by norm_num) _ 0 {2} (by
    intro m hm; simp only [List.mem_singleton] at hm; subst hm
    exact ⟨⟨0, by decide⟩, fun _ _ => rfl, by norm_num, by norm_num, by norm_num⟩)]
  have ha : Retention.axisOf [1] = some 0 := by decide
  rw [show (Finset.range (2 + 1)).filter (fun k => k + 1 ∈ ({2} : Finset ℕ)) = {1} by decide, Finset.sum_singleton]
  obtain ⟨u, hu, hs⟩ := into1_stencil_partial true 5 (fun i : ℕ => (0 : ℚ) + 1 * i) (by intro i; push_cast; linarith) 0 [⟨[1], fun _ => 1, fun x _ _ => if x = 1 then 3 else if x = 3 then 5 else 0⟩] (2, 0, 0) (by norm_num) (Or.inl rfl)
    (by intro m hm; simp only [List.mem_singleton] at hm; subst hm; exact ⟨⟨0, by decide⟩, rfl, rfl, by norm_num⟩)
  rw [hu, Option.getD_some, hs 0]
  simp only [Retention.surfaceFlux, Retention.bulkFlux, Retention.outgoing_eq]
  norm_num [ha, Mv.line, stencil1, Transport.conc1, Transport.open1, Retention.factorAt, Transport.hxLeft, Transport.hxRight]

/-- **C80 fails on a grid that widens**: what diffusion takes away from the point beside the boundary (with a constant coefficient, the part of its loss towards the right is the coefficient of the right neighbour in the stencil) is not what the account adds. -/
theorem balance_widening : ∃ (grid : ℕ → ℚ) (m : Mv ℚ), (∀ i, grid i < grid (i + 1)) ∧ (∀ i, m.coef i = 1) ∧ m.comp = [1] ∧ (∀ x : ℤ, x ≠ 2 → m.conc x 0 0 = 0) ∧
    ∃ u, into1 true 6 grid 0 [m] (3, 0, 0) = some u ∧ Retention.left (seen (3, 0, 0) [((0 : ℚ), fun _ => u 0), (1, fun _ => 0)]) 0 * cell grid 1 1 (3, 0, 0)
      ≠ (Transport.part1 (Transport.hxLeft grid 2) (Transport.hxRight 6 grid 2) ⟨1, 1, 1⟩ ⟨1, 1, 1⟩).right * m.conc 2 0 0 * cell grid 1 1 (2, 0, 0) := by
  refine ⟨fun i => if i ≤ 3 then i else 2 * i - 3, ⟨[1], fun _ => 1, fun x _ _ => if x = 2 then 1 else 0⟩, ?_, fun _ => rfl, rfl, fun x hx => by simp [hx], _, rfl, ?_⟩
  · intro i
    by_cases h1 : i ≤ 3 <;> by_cases h2 : i + 1 ≤ 3
    · simp only [if_pos h1, if_pos h2]; push_cast; linarith
    · have : i = 3 := by omega
      subst this; norm_num
    · omega
    · simp only [if_neg h1, if_neg h2]; push_cast; linarith
  · have ha : Retention.axisOf [1] = some 0 := by decide
    simp only
    rw [addFrom_eq _ _ _ _ _ _ (by norm_num), addFrom_eq _ _ _ _ _ _ (by norm_num)]
    norm_num [ha, seen, Retention.left, cell, Retention.factorAt, Transport.hxLeft, Transport.hxRight, Transport.part1]

/-! ### Averages -/

theorem summed_eq (cell total : Pt → K) (pts : List Pt) : summed cell total pts = (pts.map fun p => total p * cell p).sum := by
  unfold summed; rw [sums (fun p => total p * cell p), zero_add]

/-- The division of the points among the processes does not matter. -/
theorem summed_processes (cell total : Pt → K) (parts : List (List Pt)) (pts : List Pt) (h : parts.flatten.Perm pts) : (parts.map (summed cell total)).sum = summed cell total pts := by
  rw [summed_eq, ← (h.map _).sum_eq]
  induction parts generalizing pts with
  | nil => rfl
  | cons l parts ih => rw [List.map_cons, List.sum_cons, ih _ (List.Perm.refl _), summed_eq, List.flatten_cons, List.map_append, List.sum_append]

/-- **C80, averages.** If at every point the sum of the radii is between `lo` and `hi` times the concentration of the bubbles, then so is the reported average, or it is 0 because there are hardly any. -/
theorem average_between (cell num den : Pt → K) (pts : List Pt) (lo hi : K) (hcell : ∀ p ∈ pts, 0 ≤ cell p) (hb : ∀ p ∈ pts, lo * den p ≤ num p ∧ num p ≤ hi * den p) :
    average (summed cell num pts) (summed cell den pts) = 0 ∧ summed cell den pts ≤ 1 / 10 ^ 16 ∨
      lo ≤ average (summed cell num pts) (summed cell den pts) ∧ average (summed cell num pts) (summed cell den pts) ≤ hi := by
  by_cases h : 1 / 10 ^ 16 < summed cell den pts
  · right
    have h0 : 0 < summed cell den pts := lt_trans (by positivity) h
    rw [average, if_pos h, le_div_iff₀ h0, div_le_iff₀ h0]
    simp only [summed_eq]
    clear h h0
    induction pts with
    | nil => simp
    | cons p l ih =>
      obtain ⟨i1, i2⟩ := ih (fun q hq => hcell q (List.mem_cons_of_mem _ hq)) fun q hq => hb q (List.mem_cons_of_mem _ hq)
      have c := hcell p (List.mem_cons_self ..)
      obtain ⟨b1, b2⟩ := hb p (List.mem_cons_self ..)
      simp only [List.map_cons, List.sum_cons]
      constructor
      · nlinarith [mul_le_mul_of_nonneg_right b1 c]
      · nlinarith [mul_le_mul_of_nonneg_right b2 c]
  · left
    exact ⟨by rw [average, if_neg h], not_lt.mp h⟩

example : average (summed (fun _ => (1 : ℚ)) (fun p => 2 + p.1) [(0, 0, 0), (1, 0, 0)]) (summed (fun _ => 1) (fun _ => 1) [(0, 0, 0), (1, 0, 0)]) = 5 / 2 := by
  norm_num [average, summed]

end Xolotl.Solver.Grain
