import Verif.Network.Pattern
import Verif.Network.MutateProps
import Verif.Network.ConnectivityProps
import Verif.Network.WholeProps
import Verif.Network.FuelProps
import Verif.Solver.FillMapProps

/-!
# C90: the matrix holds the derivatives of the right-hand side
-/

set_option linter.unusedSectionVars false

namespace Xolotl.Network.Pattern

open Xolotl.Network Xolotl.Network.Conn

/-! ### Complete executions exist -/

/-- Every execution can be finished. -/
theorem finish {m n : ℕ} {P : Fill m} (hc : P.Counted n) : ∀ (k : ℕ) (s : St m), P.Inv s → ∑ j, P.left s j ≤ k → ∃ sch s', P.run s sch = some s' ∧ ∀ i, s'.pc i = .done := by
  intro k
  induction k with
  | zero =>
    intro s h hk
    by_cases hd : ∀ i, s.pc i = .done
    · exact ⟨[], s, rfl, hd⟩
    · push Not at hd
      obtain ⟨i, hi⟩ := hd
      obtain ⟨s', e, -⟩ := Fill.inv_step hc h i
      have := Fill.fill_progress hc h i hi e
      omega
  | succ k ih =>
    intro s h hk
    by_cases hd : ∀ i, s.pc i = .done
    · exact ⟨[], s, rfl, hd⟩
    · push Not at hd
      obtain ⟨i, hi⟩ := hd
      obtain ⟨s1, e, h1⟩ := Fill.inv_step hc h i
      have := Fill.fill_progress hc h i hi e
      obtain ⟨sch, s', e', hd'⟩ := ih s1 h1 (by omega)
      exact ⟨i :: sch, s', by simp [Fill.run, e, e'], hd'⟩

/-- **C90** Every set of requests within the degrees of freedom has a complete execution, and every partial execution can be completed. -/
theorem build_exists (D : ℕ) (ts : List (List (Option ℕ × Option ℕ))) (hrow : ∀ r c, (some r, some c) ∈ ts.flatten → r < D) : Nonempty (Build D ts) := by
  have hl := Interleaves.sequential (ts.map countUpdates)
  have hc := counted_fillOf D ts hl hrow
  obtain ⟨sch, s, e, hd⟩ := finish hc _ _ Fill.inv_init le_rfl
  exact ⟨⟨_, hl, sch, s, e, hd⟩⟩

/-! ### The rows -/

section
variable {D : ℕ} {ts : List (List (Option ℕ × Option ℕ))}

theorem Build.length (B : Build D ts) : B.rows.length = D := by simp [Build.rows]

theorem Build.row_spec (B : Build D ts) (hrow : ∀ r c, (some r, some c) ∈ ts.flatten → r < D) {r : ℕ} (hr : r < B.rows.length) :
    (B.rows[r]).Nodup ∧ ∀ c, c ∈ B.rows[r] ↔ r = c ∨ (some r, some c) ∈ ts.flatten := by
  obtain ⟨s, e, h⟩ := connectivity_correct D ts hrow B.counted B.sched
  rw [B.runs] at e
  obtain rfl := Option.some.inj e
  have hD : r < D := by rwa [B.length] at hr
  obtain ⟨h1, -, h2⟩ := h B.done r hD
  simp only [Build.rows, List.getElem_map, List.getElem_range]
  exact ⟨h1, fun c => (h2 c).1⟩

theorem Build.position (B : Build D ts) (hrow : ∀ r c, (some r, some c) ∈ ts.flatten → r < D) {r c : ℕ} (hr : r < D) :
    (∃ p, B.crs.getPosition r c = some p) ↔ r = c ∨ (some r, some c) ∈ ts.flatten := by
  have hr' : r < B.rows.length := by rwa [B.length]
  rw [← (B.row_spec hrow hr').2 c]
  have := getPosition_spec B.rows hr' c
  constructor
  · rintro ⟨p, hp⟩
    by_contra h
    rw [Build.crs, this.2 h] at hp
    simp at hp
  · intro h
    obtain ⟨p, hp, -⟩ := this.1 h
    exact ⟨p, hp⟩

theorem Build.pairs_eq (B : Build D ts) : Solver.FillMap.pairs D (Solver.FillMap.diagonal B.crs D) = (List.range D).flatMap fun i => (B.rows[i]?.getD []).map fun j => (i, j) := by
  rw [Solver.FillMap.pairs_eq]
  refine List.flatMap_congr fun i hi => ?_
  have hi' : i < B.rows.length := by rw [B.length]; exact List.mem_range.mp hi
  have := Solver.FillMap.diagonal_row B.rows i hi'
  rw [B.length] at this
  rw [Build.crs, this, List.getElem?_eq_getElem hi', Option.getD_some]

theorem Build.mem_coo (B : Build D ts) (hrow : ∀ r c, (some r, some c) ∈ ts.flatten → r < D) (r c : ℕ) :
    (r, c) ∈ B.coo ↔ (r < D ∧ (r = c ∨ (some r, some c) ∈ ts.flatten)) ∨ (r = D ∧ c = D) := by
  rw [Build.coo, List.mem_append, B.pairs_eq]
  simp only [List.mem_flatMap, List.mem_range, List.mem_map, Prod.mk.injEq, List.mem_singleton]
  refine or_congr ⟨?_, ?_⟩ Iff.rfl
  · rintro ⟨i, hi, j, hj, rfl, rfl⟩
    have hi' : i < B.rows.length := by rwa [B.length]
    rw [List.getElem?_eq_getElem hi', Option.getD_some] at hj
    exact ⟨hi, ((B.row_spec hrow hi').2 j).mp hj⟩
  · rintro ⟨hr, h⟩
    have hi' : r < B.rows.length := by rwa [B.length]
    refine ⟨r, hr, c, ?_, rfl, rfl⟩
    rw [List.getElem?_eq_getElem hi', Option.getD_some]
    exact ((B.row_spec hrow hi').2 c).mpr h

theorem Build.nodup_coo (B : Build D ts) (hrow : ∀ r c, (some r, some c) ∈ ts.flatten → r < D) : B.coo.Nodup := by
  rw [Build.coo, B.pairs_eq]
  refine List.Nodup.append ?_ (by simp) ?_
  · rw [List.nodup_flatMap]
    refine ⟨fun i hi => ?_, ?_⟩
    · have hi' : i < B.rows.length := by rw [B.length]; exact List.mem_range.mp hi
      rw [List.getElem?_eq_getElem hi', Option.getD_some]
      exact (B.row_spec hrow hi').1.map fun a b e => by simpa using e
    · refine List.nodup_range.imp fun {a b} hab => ?_
      intro x hx hy
      obtain ⟨_, _, rfl⟩ := List.mem_map.mp hx
      obtain ⟨_, _, e⟩ := List.mem_map.mp hy
      exact hab (Prod.mk.inj e).1.symm
  · intro x hx hy
    simp only [List.mem_singleton] at hy
    subst hy
    obtain ⟨i, hi, hx⟩ := List.mem_flatMap.mp hx
    obtain ⟨_, _, e⟩ := List.mem_map.mp hx
    have := List.mem_range.mp hi
    have := (Prod.mk.inj e).1
    omega

/-- As many values as coordinates. -/
theorem Build.length_coo (B : Build D ts) : B.coo.length = B.nPartials := by
  have hl : ∀ i < D, Solver.FillMap.row (Solver.FillMap.diagonal B.crs D) i = (List.range' (B.crs.rowMap i) (B.crs.rowMap (i + 1) - B.crs.rowMap i)).filterMap B.crs.entries := fun i hi => by
    rw [Solver.FillMap.row, Solver.FillMap.find_diagonal _ _ _ hi]
    rfl
  rw [Build.coo, Build.nPartials, Solver.FillMap.pairs_eq]
  simp only [List.length_append, List.length_flatMap, List.length_map, List.length_singleton, Solver.FillMap.nNonZeros]
  congr 2
  rw [Solver.FillMap.diagonal, List.map_map]
  refine List.map_congr_left fun i hi => ?_
  have := hl i (List.mem_range.mp hi)
  simp only [Solver.FillMap.diagonal] at this
  rw [this]
  rfl

theorem Build.coo_position (B : Build D ts) {r c p : ℕ} (hr : r < D) (hp : B.crs.getPosition r c = some p) : B.coo[p]? = some (r, c) := by
  have := Solver.FillMap.pairs_position B.rows r c p (by rwa [B.length]) hp
  rw [B.length] at this
  rw [Build.coo]
  change (Solver.FillMap.pairs D (Solver.FillMap.diagonal B.crs D))[p]? = _ at this
  rw [List.getElem?_append_left (List.getElem?_eq_some_iff.mp this).1, this]

end

/-! ### The values -/

section
variable {K : Type*} [Field K] [LinearOrder K]

/-- Updates within the array are all performed, each adds to its entry. -/
theorem bumps (l : List (ℕ × K)) : ∀ v : List K, (∀ u ∈ l, u.1 < v.length) →
    ∃ v', l.foldlM bump v = some v' ∧ v'.length = v.length ∧ ∀ p < v.length, v'[p]? = (v[p]?).map (· + netOf l p) := by
  induction l with
  | nil => exact fun v _ => ⟨v, rfl, rfl, fun p hp => by rw [netOf_nil]; simp⟩
  | cons u l ih =>
    intro v h
    have hu := h u (by simp)
    obtain ⟨v', e, hl, hv⟩ := ih (v.modify u.1 (· + u.2)) fun w hw => by rw [List.length_modify]; exact h w (by simp [hw])
    refine ⟨v', ?_, by rw [hl, List.length_modify], fun p hp => ?_⟩
    · simp only [List.foldlM_cons, bump, if_pos hu]
      exact e
    · rw [hv p (by rwa [List.length_modify]), List.getElem?_modify, netOf_cons, List.getElem?_eq_getElem hp]
      by_cases hup : u.1 = p
      · simp [hup, add_assoc]
      · simp [hup]

theorem netOf_zip {ι : Type*} [DecidableEq ι] : ∀ (ks : List ι) (v : List K) (p : ℕ) (k : ι) (x : K), ks.Nodup → ks[p]? = some k → v[p]? = some x → netOf (ks.zip v) k = x := by
  intro ks
  induction ks with
  | nil => intro v p k x _ h; simp at h
  | cons a ks ih =>
    intro v p k x hn hk hx
    cases v with
    | nil => simp at hx
    | cons y v =>
      rw [List.zip_cons_cons, netOf_cons]
      rw [List.nodup_cons] at hn
      cases p with
      | zero =>
        simp only [List.getElem?_cons_zero, Option.some.injEq] at hk hx
        subst hk hx
        rw [netOf_eq_zero]
        · simp
        · intro u hu e
          exact hn.1 (e ▸ (List.of_mem_zip hu).1)
      | succ p =>
        simp only [List.getElem?_cons_succ] at hk hx
        have hm := List.mem_of_getElem? hk
        rw [if_neg (fun e => hn.1 (by rw [show a = k from e]; exact hm)), zero_add]
        exact ih v p k x hn.2 hk hx

/-- Updates of entries of the pattern all have a position, and each position gets what its entry gets. -/
theorem placed (rows : List (List ℕ)) : ∀ us : List ((ℕ × ℕ) × K), (∀ u ∈ us, u.1.1 < rows.length ∧ ∃ p, (crsOf rows).getPosition u.1.1 u.1.2 = some p) →
    ∃ ps, place (crsOf rows) us = some ps ∧ (∀ q ∈ ps, ∃ u ∈ us, (crsOf rows).getPosition u.1.1 u.1.2 = some q.1) ∧
      ∀ r < rows.length, ∀ c p, (crsOf rows).getPosition r c = some p → netOf ps p = netOf us (r, c) := by
  intro us
  induction us with
  | nil => exact fun _ => ⟨[], rfl, by simp, fun _ _ _ _ _ => rfl⟩
  | cons u us ih =>
    intro h
    obtain ⟨ps, e, h1, h2⟩ := ih fun w hw => h w (by simp [hw])
    obtain ⟨hu, p0, hp0⟩ := h u (by simp)
    refine ⟨(p0, u.2) :: ps, ?_, ?_, ?_⟩
    · simp only [place] at e
      simp [place, List.mapM_cons, hp0, e]
    · intro q hq
      rcases List.mem_cons.mp hq with rfl | hq
      · exact ⟨u, by simp, hp0⟩
      · obtain ⟨w, hw, e⟩ := h1 q hq
        exact ⟨w, by simp [hw], e⟩
    · intro r hr c p hp
      rw [netOf_cons, netOf_cons, h2 r hr c p hp]
      congr 1
      by_cases hpp : p0 = p
      · subst hpp
        obtain ⟨e1, e2⟩ := getPosition_inj rows hu hr hp0 hp
        rw [if_pos rfl, if_pos (Prod.ext e1 e2)]
      · rw [if_neg hpp, if_neg]
        intro e
        have e1 : u.1.1 = r := by rw [e]
        have e2 : u.1.2 = c := by rw [e]
        rw [e1, e2, hp] at hp0
        exact hpp (Option.some.inj hp0).symm

theorem placed_all (rows : List (List ℕ)) : ∀ ts : List (List ((ℕ × ℕ) × K)), (∀ t ∈ ts, ∀ u ∈ t, u.1.1 < rows.length ∧ ∃ p, (crsOf rows).getPosition u.1.1 u.1.2 = some p) →
    ∃ ps, ts.mapM (place (crsOf rows)) = some ps ∧ (∀ q ∈ ps.flatten, ∃ u ∈ ts.flatten, (crsOf rows).getPosition u.1.1 u.1.2 = some q.1) ∧
      ∀ r < rows.length, ∀ c p, (crsOf rows).getPosition r c = some p → netOf ps.flatten p = netOf ts.flatten (r, c) := by
  intro ts
  induction ts with
  | nil => exact fun _ => ⟨[], rfl, by simp, fun _ _ _ _ _ => rfl⟩
  | cons t ts ih =>
    intro h
    obtain ⟨ps, e, h1, h2⟩ := ih fun w hw => h w (by simp [hw])
    obtain ⟨qs, e', h1', h2'⟩ := placed rows t (h t (by simp))
    refine ⟨qs :: ps, by simp [List.mapM_cons, e, e'], ?_, ?_⟩
    · intro q hq
      rw [List.flatten_cons, List.mem_append] at hq
      rcases hq with hq | hq
      · obtain ⟨w, hw, e⟩ := h1' q hq
        exact ⟨w, by simp [hw], e⟩
      · obtain ⟨w, hw, e⟩ := h1 q hq
        exact ⟨w, by rw [List.flatten_cons]; exact List.mem_append_right _ hw, e⟩
    · intro r hr c p hp
      rw [List.flatten_cons, List.flatten_cons, netOf_append, netOf_append, h2 r hr c p hp, h2' r hr c p hp]

/-! ### One evaluation -/

variable {D : ℕ} {ts : List (List (Option ℕ × Option ℕ))}

/-- Between the evaluations the array is full of zeros. -/
def Clean (B : Build D ts) (m : Mem K) : Prop := m.vals = List.replicate B.nPartials 0

/-- The matrix after one evaluation: entry `(r, c)` holds the sum of all contributions to it, for every order of the counting, of the filling and of the evaluation. -/
theorem evaluation (B : Build D ts) (hrow : ∀ r c, (some r, some c) ∈ ts.flatten → r < D) (m : Mem K) (hm : Clean B m) (us : List (List ((ℕ × ℕ) × K)))
    (hus : ∀ u ∈ us.flatten, u.1.1 < D ∧ (some u.1.1, some u.1.2) ∈ ts.flatten) :
    ∃ ps, us.mapM (place B.crs) = some ps ∧ ∀ l, Interleaves ps l → ∃ m', rhsJacobian B.coo m l = some m' ∧ Clean B m' ∧ ∀ r c, m'.J r c = netOf us.flatten (r, c) := by
  have hpos : ∀ u ∈ us.flatten, u.1.1 < B.rows.length ∧ ∃ p, (crsOf B.rows).getPosition u.1.1 u.1.2 = some p := fun u hu => by
    obtain ⟨h1, h2⟩ := hus u hu
    exact ⟨by rwa [B.length], (B.position hrow h1).mpr (.inr h2)⟩
  obtain ⟨ps, e, h1, h2⟩ := placed_all B.rows us fun t ht u hu => hpos u (List.mem_flatten.mpr ⟨t, ht, hu⟩)
  refine ⟨ps, e, fun l hl => ?_⟩
  have hlen : m.vals.length = B.coo.length := by rw [hm, List.length_replicate, B.length_coo]
  have hb : ∀ q ∈ l, q.1 < m.vals.length := fun q hq => by
    obtain ⟨u, hu, e⟩ := h1 q (hl.perm.mem_iff.mp hq)
    rw [hlen]
    exact (List.getElem?_eq_some_iff.mp (B.coo_position (hus u hu).1 e)).1
  obtain ⟨v, ev, hv1, hv2⟩ := bumps l m.vals hb
  refine ⟨⟨v.map fun _ => 0, fun r c => 0 + netOf (B.coo.zip v) (r, c)⟩, ?_, ?_, fun r c => ?_⟩
  · rw [rhsJacobian, ev, Option.bind_some, addCoo, if_pos (by rw [hv1, hlen]), Option.map_some]
  · rw [Clean, List.map_const', hv1, hm, List.length_replicate]
  · simp only [zero_add]
    have hval : ∀ p < B.coo.length, v[p]? = some (netOf l p) := fun p hp => by
      rw [hv2 p (by rwa [hlen]), hm, List.getElem?_replicate_of_lt (by rwa [← B.length_coo])]
      simp
    by_cases hin : (r, c) ∈ B.coo
    · rcases (B.mem_coo hrow r c).mp hin with ⟨hr, hc⟩ | ⟨rfl, rfl⟩
      · obtain ⟨p, hp⟩ := (B.position hrow hr).mpr hc
        have hcoo := B.coo_position hr hp
        rw [netOf_zip B.coo v p (r, c) _ (B.nodup_coo hrow) hcoo (hval p (List.getElem?_eq_some_iff.mp hcoo).1), netOf_perm hl.perm,
          h2 r (by rwa [B.length]) c p hp]
      · obtain ⟨p, hp⟩ := List.getElem?_of_mem hin
        rw [netOf_zip B.coo v p _ _ (B.nodup_coo hrow) hp (hval p (List.getElem?_eq_some_iff.mp hp).1), netOf_perm hl.perm]
        rw [netOf_eq_zero, netOf_eq_zero]
        · intro u hu e
          have := (hus u hu).1
          rw [e] at this
          exact lt_irrefl _ this
        · intro q hq e
          obtain ⟨u, hu, e'⟩ := h1 q hq
          have h3 := B.coo_position (hus u hu).1 e'
          rw [e, hp] at h3
          have := (hus u hu).1
          have := congrArg Prod.fst (Option.some.inj h3)
          simp only at this
          omega
    · rw [netOf_eq_zero, netOf_eq_zero]
      · intro u hu e
        apply hin
        have := hus u hu
        rw [e] at this
        exact (B.mem_coo hrow r c).mpr (.inl ⟨this.1, .inr this.2⟩)
      · intro u hu e
        exact hin (e ▸ (List.of_mem_zip hu).1)

end

/-! ### The matrix of a network -/

section
variable {d : ℕ} {K : Type*} [Field K] [LinearOrder K] [IsStrictOrderedRing K] {D : ℕ}

theorem mem_requests {rxns : List (Rxn d K)} {r c : ℕ} : (some r, some c) ∈ (requests rxns).flatten ↔ (r, c) ∈ rxns.flatMap Rxn.connectivity := by
  simp only [requests, List.mem_flatten, List.mem_map, List.mem_flatMap]
  constructor
  · rintro ⟨_, ⟨x, hx, rfl⟩, h⟩
    obtain ⟨u, hu, e⟩ := List.mem_map.mp h
    simp only [Prod.mk.injEq, Option.some.injEq] at e
    obtain ⟨rfl, rfl⟩ := e
    exact ⟨x, hx, hu⟩
  · rintro ⟨x, hx, h⟩
    exact ⟨_, ⟨x, hx, rfl⟩, List.mem_map.mpr ⟨_, h, rfl⟩⟩

theorem within_rows {rxns : List (Rxn d K)} (h : ∀ r ∈ rxns, r.Within D) : ∀ r c, (some r, some c) ∈ (requests rxns).flatten → r < D := fun r c hm => by
  obtain ⟨x, hx, hu⟩ := List.mem_flatMap.mp (mem_requests.mp hm)
  exact ((h x hx).connectivity_lt _ hu).1

/-- **C90** One evaluation of the matrix, for a network `M` with the pattern of `M₀` (other rates): every position exists, no access leaves the array, the array is clean again, and every entry of the matrix,
also outside of the pattern and in the row of the temperature, is the sum of the contributions of all reactions to it. -/
theorem matrix_exact (M₀ M : Network d K) (hw : ∀ r ∈ M₀.rxns, r.Within D) (hs : M.rxns.map Rxn.connectivity = M₀.rxns.map Rxn.connectivity) (B : Build D (requests M₀.rxns)) (m : Mem K) (hm : Clean B m)
    (c : ℕ → K) (depth spacing : K) :
    ∃ ps, (M.partialThreads c depth spacing).mapM (place B.crs) = some ps ∧ ∀ l, Interleaves ps l →
      ∃ m', rhsJacobian B.coo m l = some m' ∧ Clean B m' ∧ ∀ r k, m'.J r k = netOf (M.partialThreads c depth spacing).flatten (r, k) := by
  refine evaluation B (within_rows hw) m hm _ fun u hu => ?_
  obtain ⟨t, ht, hu⟩ := List.mem_flatten.mp hu
  obtain ⟨r, hr, rfl⟩ := List.mem_map.mp ht
  have h1 : u.1 ∈ M₀.rxns.flatMap Rxn.connectivity := by
    rw [List.flatMap_def, ← hs, ← List.flatMap_def]
    exact M.network_connectivity_covers _ c r hr u hu
  exact ⟨within_rows hw _ u.1.2 (mem_requests.mpr h1), mem_requests.mpr h1⟩

/-- **C90** Any number of evaluations: the array is clean before each of them, whatever the rates, the concentrations and the orders were, so that no evaluation sees anything of the earlier ones. -/
theorem evaluations_clean (M₀ : Network d K) (hw : ∀ r ∈ M₀.rxns, r.Within D) (B : Build D (requests M₀.rxns)) : ∀ (es : List (List (ℕ × K))) (m : Mem K), Clean B m →
    (∀ l ∈ es, ∃ (M : Network d K) (c : ℕ → K) (depth spacing : K) (ps : List (List (ℕ × K))), M.rxns.map Rxn.connectivity = M₀.rxns.map Rxn.connectivity ∧
      (M.partialThreads c depth spacing).mapM (place B.crs) = some ps ∧ Interleaves ps l) →
    ∃ m', evaluations B.coo m es = some m' ∧ Clean B m' := by
  intro es
  induction es with
  | nil => exact fun m hm _ => ⟨m, rfl, hm⟩
  | cons l es ih =>
    intro m hm h
    obtain ⟨M, c, depth, spacing, ps, hs, hp, hl⟩ := h l (by simp)
    obtain ⟨ps', hp', h'⟩ := matrix_exact M₀ M hw hs B m hm c depth spacing
    obtain rfl := Option.some.inj (hp.symm.trans hp')
    obtain ⟨m1, e1, hm1, -⟩ := h' l hl
    obtain ⟨m', e2, hm'⟩ := ih m1 hm1 fun l' hl' => h l' (by simp [hl'])
    exact ⟨m', by rw [evaluations, List.foldlM_cons, e1]; exact e2, hm'⟩

end

/-- What the theorems ask of the network whose derivatives are computed: no second product without a first one, nucleation away from its kink. -/
structure Smooth {d : ℕ} (M : Network d ℝ) (c : ℕ → ℝ) : Prop where
  prod : ∀ r, Rxn.prod r ∈ M.rxns → r.prod1 = none → r.prod2 = none
  nuc : ∀ r, Rxn.nuc r ∈ M.rxns → c r.reactant ≠ 2 * r.rate

/-- No trap mutation of the desorbing cluster changes degree of freedom `n`. -/
def Quiet {d : ℕ} (M : Network d ℝ) (n : ℕ) : Prop := M.enableTm = true → ∀ r, Rxn.tm r ∈ M.rxns → some r.he = M.tmData.desorpId → r.he ≠ n ∧ r.heV ≠ n ∧ r.i ≠ n

/-- What an evaluation should deliver in the rows `ok`: the positions of the updates `us` exist and, from a clean array on, every order of them leaves a clean array and in every entry `(r, k)` of the matrix with `ok r`
the derivative of the `r`-th component of the right-hand side, a source that does not depend on the concentrations and the fluxes `fl` accumulated in any order, with respect to the `k`-th concentration. -/
def Delivers {D : ℕ} {ts : List (List (Option ℕ × Option ℕ))} (B : Build D ts) (fl : (ℕ → ℝ) → List (List (ℕ × ℝ))) (us : List (List ((ℕ × ℕ) × ℝ))) (c : ℕ → ℝ) (ok : ℕ → Prop) : Prop :=
  ∃ ps, us.mapM (place B.crs) = some ps ∧ ∀ m, Clean B m → ∀ l, Interleaves ps l →
    ∃ m', rhsJacobian B.coo m l = some m' ∧ Clean B m' ∧
      ∀ (src : ℕ → ℝ) r k (F : ℝ → List (ℕ × ℝ)), ok r → (∀ x, Interleaves (fl (Function.update c k x)) (F x)) → HasDerivAt (fun x => applyUpdates src (F x) r) (m'.J r k) (c k)

/-- **C90** The matrix is the Jacobian of the right-hand side, for every network within its degrees of freedom, with the pattern made for other rates; with modified trap mutation in all rows but those of the
desorbing cluster's mutations. -/
theorem matrix_jacobian {d D : ℕ} (M₀ M : Network d ℝ) (hw : ∀ r ∈ M₀.rxns, r.Within D) (hs : M.rxns.map Rxn.connectivity = M₀.rxns.map Rxn.connectivity) (B : Build D (requests M₀.rxns))
    (c : ℕ → ℝ) (hM : Smooth M c) (depth spacing : ℝ) : Delivers B (fun c => M.fluxThreads c depth spacing) (M.partialThreads c depth spacing) c (Quiet M) := by
  obtain ⟨ps, e, -⟩ := matrix_exact M₀ M hw hs B (start B.nPartials fun _ _ => 0) rfl c depth spacing
  refine ⟨ps, e, fun m hm l hl => ?_⟩
  obtain ⟨ps', e', h⟩ := matrix_exact M₀ M hw hs B m hm c depth spacing
  obtain rfl := Option.some.inj (e.symm.trans e')
  obtain ⟨m', e1, hc, hJ⟩ := h l hl
  refine ⟨m', e1, hc, fun src r k F hq hF => ?_⟩
  have := M.network_jacobian_rows hM.prod c hM.nuc depth spacing r k hq F hF _ (Interleaves.sequential _)
  rw [hJ r k]
  simp only [applyUpdates_eq]
  exact this.const_add _

/-- **C90** What is left out of the pattern is zero: a component of the right-hand side does not change with a concentration outside of its row. -/
theorem outside_pattern {d D : ℕ} (M₀ M : Network d ℝ) (hw : ∀ r ∈ M₀.rxns, r.Within D) (hs : M.rxns.map Rxn.connectivity = M₀.rxns.map Rxn.connectivity) (B : Build D (requests M₀.rxns)) (c : ℕ → ℝ) (hM : Smooth M c)
    (depth spacing : ℝ) (r k : ℕ) (hq : Quiet M r) (hrk : (r, k) ∉ B.coo) (src : ℕ → ℝ) (F : ℝ → List (ℕ × ℝ)) (hF : ∀ x, Interleaves (M.fluxThreads (Function.update c k x) depth spacing) (F x)) :
    HasDerivAt (fun x => applyUpdates src (F x) r) 0 (c k) := by
  have := M.network_jacobian_rows hM.prod c hM.nuc depth spacing r k hq F hF _ (Interleaves.sequential _)
  rw [netOf_eq_zero] at this
  · simp only [applyUpdates_eq]
    exact this.const_add _
  · intro u hu e
    apply hrk
    obtain ⟨t, ht, hu⟩ := List.mem_flatten.mp hu
    obtain ⟨x, hx, rfl⟩ := List.mem_map.mp ht
    have h1 : (r, k) ∈ M₀.rxns.flatMap Rxn.connectivity := by
      rw [List.flatMap_def, ← hs, ← List.flatMap_def, ← e]
      exact M.network_connectivity_covers _ c x hx u hu
    have h2 := mem_requests.mpr h1
    exact (B.mem_coo (within_rows hw) r k).mpr (.inl ⟨within_rows hw _ _ h2, .inr h2⟩)

theorem Delivers.weaken {D : ℕ} {ts : List (List (Option ℕ × Option ℕ))} {B : Build D ts} {fl : (ℕ → ℝ) → List (List (ℕ × ℝ))} {us : List (List ((ℕ × ℕ) × ℝ))} {c : ℕ → ℝ} {ok ok' : ℕ → Prop}
    (h : Delivers B fl us c ok) (hi : ∀ r, ok' r → ok r) : Delivers B fl us c ok' := by
  obtain ⟨ps, e, H⟩ := h
  refine ⟨ps, e, fun m hm l hl => ?_⟩
  obtain ⟨m', e1, hc, hJ⟩ := H m hm l hl
  exact ⟨m', e1, hc, fun src r k F hr => hJ src r k F (hi r hr)⟩

/-! ### The generated networks -/

open Xolotl.Network.Dispatch

section
variable {σ : Type} [DecidableEq σ] {sp : List σ}

/-- The requests do not depend on the rates. -/
theorem net_rates {K : Type*} [Field K] [LinearOrder K] (N : Net σ sp) (mom : ℕ → Fin (sp.length + 1) → Option ℕ) (R R' : Rates K) (pair : ℕ → ℕ → Out) (reso : ℕ → ℕ → List ℕ) (sinks : ℕ → ℕ) :
    (N.rxns mom R pair reso sinks).map Rxn.connectivity = (N.rxns mom R' pair reso sinks).map Rxn.connectivity := by
  simp only [Net.rxns, List.map_flatMap, List.map_append, List.map_map]
  refine List.flatMap_congr fun i _ => List.flatMap_congr fun j _ => ?_
  congr 1
  congr 1
  congr 1
  split
  · simp only [List.map_replicate]
    rfl
  · rfl

theorem net_smooth (N : Net σ sp) (mom : ℕ → Fin (sp.length + 1) → Option ℕ) (R : Rates ℝ) (pair : ℕ → ℕ → Out) (reso : ℕ → ℕ → List ℕ) (sinks : ℕ → ℕ)
    (hp : ∀ i j, ∀ q ∈ (pair i j).prods, q.1 = none → q.2 = none) (M : Network (sp.length + 1) ℝ) (hM : M.rxns = N.rxns mom R pair reso sinks) (c : ℕ → ℝ) : Smooth M c := by
  refine ⟨fun r hr => ?_, fun r hr => ?_⟩ <;> rw [hM] at hr <;>
    simp only [Net.rxns, List.mem_flatMap, List.mem_range, List.mem_filter, List.mem_append, List.mem_map] at hr <;>
    obtain ⟨i, hi, j, ⟨hj, _⟩, ((hr | ⟨k, hk, e⟩) | ⟨q, hq, e⟩) | ⟨k, hk, e⟩⟩ := hr
  · split at hr
    · have := List.eq_of_mem_replicate hr
      simp at this
    · simp at hr
  · simp at e
  · obtain rfl := Rxn.prod.inj e
    exact hp i j q hq
  · simp at e
  · split at hr
    · have := List.eq_of_mem_replicate hr
      simp at this
    · simp at hr
  · simp at e
  · simp at e
  · simp at e

theorem net_no_tm {K : Type*} [Field K] [LinearOrder K] (N : Net σ sp) (mom : ℕ → Fin (sp.length + 1) → Option ℕ) (R : Rates K) (pair : ℕ → ℕ → Out) (reso : ℕ → ℕ → List ℕ) (sinks : ℕ → ℕ) (r : TmRxn K) :
    Rxn.tm r ∉ N.rxns mom R pair reso sinks := fun hr => by
  simp only [Net.rxns, List.mem_flatMap, List.mem_range, List.mem_filter, List.mem_append, List.mem_map] at hr
  obtain ⟨i, hi, j, ⟨hj, _⟩, ((hr | ⟨k, hk, e⟩) | ⟨q, hq, e⟩) | ⟨k, hk, e⟩⟩ := hr
  · split at hr
    · have := List.eq_of_mem_replicate hr
      simp at this
    · simp at hr
  · simp at e
  · simp at e
  · simp at e

theorem net_quiet (N : Net σ sp) (mom : ℕ → Fin (sp.length + 1) → Option ℕ) (R : Rates ℝ) (pair : ℕ → ℕ → Out) (reso : ℕ → ℕ → List ℕ) (sinks : ℕ → ℕ) (M : Network (sp.length + 1) ℝ)
    (hM : M.rxns = N.rxns mom R pair reso sinks) (n : ℕ) : Quiet M n := fun _ r hr => by
  rw [hM] at hr
  exact absurd hr (net_no_tm N mom R pair reso sinks r)

end

/-- **C90** Iron: the matrix is the Jacobian of the right-hand side, for every layout, every mobility, all rates and concentrations. -/
theorem fe_jacobian (N : Net Unit [()]) (h : Laid N) (R₀ R : Rates ℝ) (mob : ℕ → Bool) (B : Build (N.dofs true) (requests (feRxns N (N.momentIds true) R₀ mob))) (M : Network 2 ℝ)
    (hM : M.rxns = feRxns N (N.momentIds true) R mob) (c : ℕ → ℝ) (depth spacing : ℝ) :
    Delivers B (fun c => M.fluxThreads c depth spacing) (M.partialThreads c depth spacing) c (fun _ => True) :=
  (matrix_jacobian ⟨feRxns N (N.momentIds true) R₀ mob, false, M.tmData⟩ M (fe_within N h R₀ mob) (by rw [hM]; exact net_rates N _ R R₀ _ _ _) B c
    (net_smooth N _ R _ _ _ (fun _ _ _ hq _ => (fe_shape hq).2) M hM c) depth spacing).weaken fun _ _ => net_quiet N _ R _ _ _ M hM _

/-- **C90** Fuel, with the fluxes of the base classes. -/
theorem ne_jacobian (N : Net Unit [()]) (h : Laid N) (R₀ R : Rates ℝ) (mob : ℕ → Bool) (B : Build (N.dofs false) (requests (neRxns N (N.momentIds false) R₀ mob))) (M : Network 2 ℝ)
    (hM : M.rxns = neRxns N (N.momentIds false) R mob) (c : ℕ → ℝ) (depth spacing : ℝ) :
    Delivers B (fun c => M.fluxThreads c depth spacing) (M.partialThreads c depth spacing) c (fun _ => True) :=
  (matrix_jacobian ⟨neRxns N (N.momentIds false) R₀ mob, false, M.tmData⟩ M (ne_within N h R₀ mob) (by rw [hM]; exact net_rates N _ R R₀ _ _ _) B c
    (net_smooth N _ R _ _ _ (fun _ _ _ hq _ => (ne_shape hq).2) M hM c) depth spacing).weaken fun _ _ => net_quiet N _ R _ _ _ M hM _

/-- **C90** Fuel with its own sources and sinks. -/
theorem ne_own_jacobian (N : Net Unit [()]) (h : Laid N) (R₀ R : Rates ℝ) (mob : ℕ → Bool) (B : Build (N.dofs false) (requests (neRxns N (N.momentIds false) R₀ mob))) (M : Network 2 ℝ)
    (hM : M.rxns = neRxns N (N.momentIds false) R mob) (E : Fuel.Extra ℝ) (c : ℕ → ℝ) (depth spacing : ℝ) :
    Delivers B (fun c => Fuel.threads M E c depth spacing) (M.partialThreads c depth spacing) c (fun _ => True) := by
  obtain ⟨ps, e, H⟩ := ne_jacobian N h R₀ R mob B M hM c depth spacing
  refine ⟨ps, e, fun m hm l hl => ?_⟩
  obtain ⟨m', e1, hc, hJ⟩ := H m hm l hl
  refine ⟨m', e1, hc, fun src r k F _ hF => ?_⟩
  have hb := hJ src r k (fun x => (M.fluxThreads (Function.update c k x) depth spacing).flatten) trivial fun x => Interleaves.sequential _
  have key : ∀ x, applyUpdates src (F x) r = applyUpdates src (M.fluxThreads (Function.update c k x) depth spacing).flatten r +
      (netOf (Fuel.threads M E c depth spacing).flatten r - netOf (M.fluxThreads c depth spacing).flatten r) := fun x => by
    rw [applyUpdates_eq, applyUpdates_eq, netOf_perm (hF x).perm]
    have := Fuel.flux_difference M E (Function.update c k x) c depth spacing r
    linear_combination this
  simp only [key]
  exact hb.add_const _

theorem psi_prods {σ : Type} [DecidableEq σ] {sp : List σ} (he : σ) (N : Net σ sp) (mob : ℕ → Bool) : ∀ i j, ∀ q ∈ (psiPair he N (mob i) (mob j) (N.cl i) (N.cl j)).prods, q.1 = none → q.2 = none := fun i j q hq e => by
  rcases (psi_shape hq).2 with h2 | ⟨k, l, rfl⟩
  · exact h2
  · simp at e

/-- **C90** Tungsten without modified trap mutation. -/
theorem psi_jacobian {σ : Type} [DecidableEq σ] {sp : List σ} (hsp : sp.Nodup) (he : σ) (N : Net σ sp) (h : Laid N) (R₀ R : Rates ℝ) (mob : ℕ → Bool)
    (B : Build (N.dofs true) (requests (psiRxns he N (N.momentIds true) R₀ mob))) (M : Network (sp.length + 1) ℝ)
    (hM : M.rxns = psiRxns he N (N.momentIds true) R mob) (c : ℕ → ℝ) (depth spacing : ℝ) :
    Delivers B (fun c => M.fluxThreads c depth spacing) (M.partialThreads c depth spacing) c (fun _ => True) :=
  (matrix_jacobian ⟨psiRxns he N (N.momentIds true) R₀ mob, false, M.tmData⟩ M (psi_within hsp he N h R₀ mob) (by rw [hM]; exact net_rates N _ R R₀ _ _ _) B c
    (net_smooth N _ R _ _ _ (psi_prods he N mob) M hM c) depth spacing).weaken fun _ _ => net_quiet N _ R _ _ _ M hM _

theorem mut_rates {σ : Type} [DecidableEq σ] {sp : List σ} (he : σ) (vs : ℤ → List ℤ) (N : Net σ sp) (rate rate' : ℕ → ℕ → ℕ → ℝ) (mob : ℕ → Bool) {l l' : List (Rxn (sp.length + 1) ℝ)}
    (h : mutRxns he vs N rate mob = some l) (h' : mutRxns he vs N rate' mob = some l') : l.map Rxn.connectivity = l'.map Rxn.connectivity := by
  unfold mutRxns at h h'
  generalize mutations he vs N mob = us at h h'
  induction us generalizing l l' with
  | nil =>
    simp at h h'
    rw [h, h']
  | cons u us ih =>
    simp only [List.mapM_cons, Option.bind_eq_bind, Option.bind_eq_some_iff, Option.pure_def, Option.some.injEq] at h h'
    obtain ⟨a, ha, b, hb, rfl⟩ := h
    obtain ⟨a', ha', b', hb', rfl⟩ := h'
    simp only [mkMut, Option.map_eq_some_iff] at ha ha'
    obtain ⟨k, hk, rfl⟩ := ha
    obtain ⟨k', hk', rfl⟩ := ha'
    obtain rfl := Option.some.inj (hk.symm.trans hk')
    simp only [List.map_cons, ih hb hb']
    rfl

theorem psi_all_within {σ : Type} [DecidableEq σ] {sp : List σ} (hsp : sp.Nodup) (he : σ) (hhe : he ∈ sp) (vs : ℤ → List ℤ) (hvs : ∀ n, ∀ s ∈ vs n, 0 ≤ s) (N : Net σ sp) (h : Laid N) (R : Rates ℝ) (rate : ℕ → ℕ → ℕ → ℝ)
    (mob : ℕ → Bool) {l : List (Rxn (sp.length + 1) ℝ)} (hl : psiAll he vs N (N.momentIds true) R rate mob = some l) : ∀ r ∈ l, r.Within (N.dofs true) := by
  simp only [psiAll, Option.map_eq_some_iff] at hl
  obtain ⟨tms, htms, rfl⟩ := hl
  intro r hr
  rw [List.mem_append] at hr
  rcases hr with hr | hr
  · exact psi_within hsp he N h R mob r hr
  · obtain ⟨t, rfl, n, s, hs, t1, t2, t3, -⟩ := mutRxns_mem hhe hvs htms hr
    have := n_le_dofs (N := N) true
    exact ⟨by omega, by omega, by omega⟩

/-- **C90 (partial)** Tungsten with modified trap mutation: the matrix is the Jacobian in all rows but those that a mutation of the desorbing cluster changes. Missing there: the derivative of the left side rate
(`desorption_missing`), which the code leaves out. -/
theorem psi_all_jacobian_partial {σ : Type} [DecidableEq σ] {sp : List σ} (hsp : sp.Nodup) (he : σ) (hhe : he ∈ sp) (vs : ℤ → List ℤ) (hvs : ∀ n, ∀ s ∈ vs n, 0 ≤ s) (N : Net σ sp) (h : Laid N) (R₀ R : Rates ℝ)
    (rate₀ rate : ℕ → ℕ → ℕ → ℝ) (mob : ℕ → Bool) (l₀ : List (Rxn (sp.length + 1) ℝ)) (hl₀ : psiAll he vs N (N.momentIds true) R₀ rate₀ mob = some l₀) (B : Build (N.dofs true) (requests l₀))
    (M : Network (sp.length + 1) ℝ) (hM : psiAll he vs N (N.momentIds true) R rate mob = some M.rxns) (c : ℕ → ℝ) (depth spacing : ℝ) :
    Delivers B (fun c => M.fluxThreads c depth spacing) (M.partialThreads c depth spacing) c fun n => ∀ r, Rxn.tm r ∈ M.rxns → some r.he = M.tmData.desorpId → r.he ≠ n ∧ r.heV ≠ n ∧ r.i ≠ n := by
  have hw := psi_all_within hsp he hhe vs hvs N h R₀ rate₀ mob hl₀
  simp only [psiAll, Option.map_eq_some_iff] at hl₀ hM
  obtain ⟨t₀, ht₀, rfl⟩ := hl₀
  obtain ⟨t, ht, hrx⟩ := hM
  refine (matrix_jacobian ⟨_, false, M.tmData⟩ M hw ?_ B c ?_ depth spacing).weaken fun n hn _ => hn
  · rw [← hrx]
    simp only [List.map_append]
    rw [mut_rates he vs N rate rate₀ mob ht ht₀]
    congr 1
    exact net_rates N _ R R₀ _ _ _
  · have hs := net_smooth N _ R _ _ _ (psi_prods he N mob) ⟨psiRxns he N (N.momentIds true) R mob, false, M.tmData⟩ rfl c
    have hno : ∀ r ∈ t, ∃ x, r = Rxn.tm x := fun r hr => by
      obtain ⟨x, rfl, _⟩ := mutRxns_mem hhe hvs ht hr
      exact ⟨x, rfl⟩
    refine ⟨fun r hr => ?_, fun r hr => ?_⟩ <;> rw [← hrx, List.mem_append] at hr <;> rcases hr with hr | hr
    · exact hs.prod r hr
    · obtain ⟨x, e⟩ := hno _ hr
      simp at e
    · exact hs.nuc r hr
    · obtain ⟨x, e⟩ := hno _ hr
      simp at e

/-- The network of `TmRxn.witTm` (0 becomes 1 and 2, 0 desorbs) and `TmRxn.witTmProd` (0 and 3 annihilate), every mutation enabled at depth 1. -/
noncomputable def lossy : Network 0 ℝ := ⟨[.prod TmRxn.witTmProd, .tm TmRxn.witTm], true, TmRxn.witTmData⟩

/-- **C90 fails in the rows of the desorbing cluster's mutation**: the flux of 1 grows with the concentration of 3, but the matrix holds 0 there; the pair is not even in the pattern. -/
theorem desorption_missing (B : Build 4 (requests lossy.rxns)) : (1, 3) ∉ B.coo ∧ ∃ c, Smooth lossy c ∧ ¬ Delivers B (fun c => lossy.fluxThreads c 1 1) (lossy.partialThreads c 1 1) c fun _ => True := by
  have hw : ∀ r ∈ lossy.rxns, r.Within 4 := by
    intro r hr
    simp only [lossy, List.mem_cons, List.not_mem_nil, or_false] at hr
    rcases hr with rfl | rfl
    · exact ⟨by simp [TmRxn.witTmProd], by simp [TmRxn.witTmProd], by simp [TmRxn.witTmProd], by simp [TmRxn.witTmProd], fun _ i => i.elim0⟩
    · exact ⟨by simp [TmRxn.witTm], by simp [TmRxn.witTm], by simp [TmRxn.witTm]⟩
  have hconn : ∀ u ∈ lossy.rxns.flatMap Rxn.connectivity, u ≠ (1, 3) := by
    simp [lossy, Rxn.connectivity, ProdRxn.computeConnectivity, TmRxn.computeConnectivity, TmRxn.witTmProd, TmRxn.witTm, ProdRxn.linkBlock, ProdRxn.link, ProdRxn.entry, ProdRxn.rowId, ProdRxn.colA, ProdRxn.colB, ProdRxn.id]
  refine ⟨fun h => ?_, fun _ => 1, ⟨?_, ?_⟩, ?_⟩
  · rcases (B.mem_coo (within_rows hw) 1 3).mp h with ⟨-, h | h⟩ | h
    · simp at h
    · exact hconn _ (mem_requests.mp h) rfl
    · simp at h
  · intro r hr
    simp only [lossy, List.mem_cons, List.not_mem_nil, or_false, Rxn.prod.injEq] at hr
    rcases hr with rfl | hr
    · exact fun _ => rfl
    · simp at hr
  · intro r hr
    simp [lossy] at hr
  · rintro ⟨ps, e, H⟩
    obtain ⟨ps', e', H'⟩ := matrix_exact lossy lossy hw rfl B (start B.nPartials fun _ _ => 0) rfl (fun _ => 1) 1 1
    obtain rfl := Option.some.inj (e.symm.trans e')
    obtain ⟨m', e1, -, hJ⟩ := H (start B.nPartials fun _ _ => 0) rfl _ (Interleaves.sequential ps)
    obtain ⟨m'', e2, -, hJ'⟩ := H' _ (Interleaves.sequential ps)
    obtain rfl := Option.some.inj (e1.symm.trans e2)
    have h1 := hJ (fun _ => 0) 1 3 (fun x => (lossy.fluxThreads (Function.update (fun _ => 1) 3 x) 1 1).flatten) trivial fun x => Interleaves.sequential _
    have z : m'.J 1 3 = 0 := by
      rw [hJ' 1 3]
      refine netOf_eq_zero fun u hu e => ?_
      obtain ⟨t, ht, hu⟩ := List.mem_flatten.mp hu
      obtain ⟨x, hx, rfl⟩ := List.mem_map.mp ht
      exact hconn _ (lossy.network_connectivity_covers _ _ x hx u hu) e
    have hf : (fun x => applyUpdates (fun _ => (0 : ℝ)) (lossy.fluxThreads (Function.update (fun _ => 1) 3 x) 1 1).flatten 1) = fun x => x := by
      funext x
      rw [applyUpdates_eq]
      norm_num [lossy, Network.fluxThreads, Network.preProcess, Network.leftSideRate, Rxn.leftSideRate, Rxn.flux, ProdRxn.leftSideRate, ProdRxn.computeFlux, ProdRxn.productUpdates, TmRxn.computeFlux, TmRxn.enabled, TmRxn.appliedRate, TmData.select,
        TmRxn.witTm, TmRxn.witTmData, TmRxn.witTmProd, netOf]
    rw [hf, z] at h1
    have := h1.unique (hasDerivAt_id (1 : ℝ))
    norm_num at this

/-! ### Zirconium and alloys -/

section
open Xolotl.Network.Pairs

variable {κ : Type} [DecidableEq κ]

theorem world_rates {K : Type*} [Field K] [LinearOrder K] (W : World κ) (ρ : Rules κ K) (mom : ℕ → Option ℕ) (R R' : Pairs.Rates K) (pair : ℕ → ℕ → Pairs.Out) (sinks : ℕ → ℕ) :
    (W.rxns ρ mom R pair sinks).map Rxn.connectivity = (W.rxns ρ mom R' pair sinks).map Rxn.connectivity := by
  simp only [World.rxns, List.map_flatMap, List.map_append, List.map_map]
  refine List.flatMap_congr fun i _ => List.flatMap_congr fun j _ => ?_
  congr 1
  congr 1
  split
  · simp only [List.map_replicate]
    rfl
  · rfl

theorem world_smooth (W : World κ) (ρ : Rules κ ℝ) (mom : ℕ → Option ℕ) (R : Pairs.Rates ℝ) (pair : ℕ → ℕ → Pairs.Out) (sinks : ℕ → ℕ) (M : Network 1 ℝ) (hM : M.rxns = W.rxns ρ mom R pair sinks) (c : ℕ → ℝ) :
    Smooth M c ∧ ∀ n, Quiet M n := by
  have key : ∀ r ∈ M.rxns, (∃ s, r = .sink s) ∨ (∃ p, r = .prod p ∧ p.prod2 = none) ∨ ∃ p, r = .diss p := fun r hr => by
    rw [hM] at hr
    simp only [World.rxns, List.mem_flatMap, List.mem_range, List.mem_filter, List.mem_append, List.mem_map] at hr
    obtain ⟨i, hi, j, ⟨hj, _⟩, (hr | ⟨q, hq, rfl⟩) | ⟨k, hk, rfl⟩⟩ := hr
    · split at hr
      · exact .inl ⟨_, List.eq_of_mem_replicate hr⟩
      · simp at hr
    · exact .inr (.inl ⟨_, rfl, rfl⟩)
    · exact .inr (.inr ⟨_, rfl⟩)
  refine ⟨⟨fun r hr _ => ?_, fun r hr => ?_⟩, fun n _ r hr => ?_⟩
  · rcases key _ hr with ⟨s, e⟩ | ⟨p, e, h⟩ | ⟨p, e⟩
    · simp at e
    · obtain rfl := Rxn.prod.inj e
      exact h
    · simp at e
  · rcases key _ hr with ⟨s, e⟩ | ⟨p, e, h⟩ | ⟨p, e⟩ <;> simp at e
  · rcases key _ hr with ⟨s, e⟩ | ⟨p, e, h⟩ | ⟨p, e⟩ <;> simp at e

/-- **C90** Zirconium. -/
theorem zr_jacobian (W : World ZK) (hpos : ∀ k < W.n, 0 < (W.cl k).reg.b ∧ (W.cl k).reg.b < (W.cl k).reg.e) (R₀ R : Pairs.Rates ℝ) (mob : ℕ → Bool)
    (B : Build (W.dofs zrKinds) (requests (zrRxns W (W.momentIds zrKinds) R₀ mob))) (M : Network 1 ℝ) (hM : M.rxns = zrRxns W (W.momentIds zrKinds) R mob) (c : ℕ → ℝ) (depth spacing : ℝ) :
    Delivers B (fun c => M.fluxThreads c depth spacing) (M.partialThreads c depth spacing) c (fun _ => True) :=
  (matrix_jacobian ⟨zrRxns W (W.momentIds zrKinds) R₀ mob, false, M.tmData⟩ M (zr_within W hpos R₀ mob) (by rw [hM]; exact world_rates W _ _ R R₀ _ _) B c (world_smooth W _ _ R _ _ M hM c).1 depth spacing).weaken
    fun n _ => (world_smooth W _ _ R _ _ M hM c).2 n

/-- **C90** Alloys. -/
theorem alloy_jacobian (W : World AK) (h : AlloyReady W (W.momentIds alloyKinds)) (R₀ R : Pairs.Rates ℝ) (mob : ℕ → Bool)
    (B : Build (W.dofs alloyKinds) (requests (alloyRxns W (W.momentIds alloyKinds) R₀ mob))) (M : Network 1 ℝ) (hM : M.rxns = alloyRxns W (W.momentIds alloyKinds) R mob) (c : ℕ → ℝ) (depth spacing : ℝ) :
    Delivers B (fun c => M.fluxThreads c depth spacing) (M.partialThreads c depth spacing) c (fun _ => True) :=
  (matrix_jacobian ⟨alloyRxns W (W.momentIds alloyKinds) R₀ mob, false, M.tmData⟩ M (alloy_within W h R₀ mob) (by rw [hM]; exact world_rates W _ _ R R₀ _ _) B c (world_smooth W _ _ R _ _ M hM c).1 depth spacing).weaken
    fun n _ => (world_smooth W _ _ R _ _ M hM c).2 n

end

/-! ### Concrete cases -/

/-- Iron with the groups of `grNet`: complete executions exist, the array starts clean, and the theorem applies; so it does after any evaluations (`evaluations_clean`). -/
example (R₀ R : Rates ℝ) (c : ℕ → ℝ) (depth spacing : ℝ) (t : TmData ℝ) : ∃ B : Build (grNet.dofs true) (requests (feRxns grNet (grNet.momentIds true) R₀ fun _ => true)),
    Clean B (start B.nPartials fun _ _ => (0 : ℝ)) ∧ Delivers B (fun c => (⟨feRxns grNet (grNet.momentIds true) R fun _ => true, false, t⟩ : Network 2 ℝ).fluxThreads c depth spacing)
      ((⟨feRxns grNet (grNet.momentIds true) R fun _ => true, false, t⟩ : Network 2 ℝ).partialThreads c depth spacing) c fun _ => True := by
  have hl : Laid grNet := ⟨grNet_ready.lay, grNet_ready.singleI, grNet_ready.singleV⟩
  obtain ⟨B⟩ := build_exists (grNet.dofs true) (requests (feRxns grNet (grNet.momentIds true) R₀ fun _ => true)) (within_rows (fe_within grNet hl R₀ _))
  exact ⟨B, rfl, fe_jacobian grNet hl R₀ R _ B _ rfl c depth spacing⟩

/-- Two degrees of freedom and a request for (0, 1), filled in turns: the diagonal first, then the request finds the first slot of its row taken and takes the second. -/
def small : Build 2 [[(some 0, some 1)]] where
  counts := [(0, 1)]
  counted := Interleaves.sequential _
  sched := [⟨0, by decide⟩, ⟨1, by decide⟩, ⟨2, by decide⟩, ⟨2, by decide⟩, ⟨2, by decide⟩]
  final := (((fillOf 2 (tasksOf 2 [(some 0, some 1)]) (applyUpdates (initCounts 2) [(0, 1)])).run (fillOf 2 (tasksOf 2 [(some 0, some 1)]) (applyUpdates (initCounts 2) [(0, 1)])).init
    [⟨0, by decide⟩, ⟨1, by decide⟩, ⟨2, by decide⟩, ⟨2, by decide⟩, ⟨2, by decide⟩])).get (by decide +kernel)
  runs := by simp
  done := by decide +kernel

/-- Its rows, coordinates and values. -/
example : small.rows = [[0, 1], [1]] ∧ small.coo = [(0, 0), (0, 1), (1, 1), (2, 2)] ∧ small.nPartials = 4 := by decide +kernel

/-- One evaluation with two updates of the same entry; the array is clean again and an earlier matrix is forgotten. -/
example : (place small.crs [((0, 1), (3 : ℚ)), ((1, 1), 5), ((0, 1), 4)] = some [(1, 3), (2, 5), (1, 4)]) ∧
    (rhsJacobian small.coo (start 4 fun _ _ => (9 : ℚ)) [(1, 3), (2, 5), (1, 4)]).map (fun m => (m.vals, (List.range 3).map fun r => (List.range 3).map (m.J r))) =
      some ([0, 0, 0, 0], [[0, 7, 0], [0, 5, 0], [0, 0, 0]]) := by decide +kernel

/-- An update of an entry out of the pattern has no position. -/
example : place small.crs [((1, 0), (3 : ℚ))] = none := by decide +kernel

end Xolotl.Network.Pattern
