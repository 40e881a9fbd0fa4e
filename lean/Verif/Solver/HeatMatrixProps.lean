import Verif.Solver.HeatMatrix
import Verif.Solver.MatrixProps

set_option linter.unusedSectionVars false

/-!
# The heat equation in the matrix in two and three dimensions: properties (C99)
-/

namespace Xolotl.Solver.Matrix

open Xolotl.Solver.Coo Xolotl.Network Xolotl.Transport Line Pattern Conn Function

namespace Space

variable {d D : ℕ}

/-! ### Sums over the points of a stencil without repetitions -/

theorem netOf_notMem {Q : Type} [DecidableEq Q] (v : ℕ → ℝ) (q : Q) : ∀ (l : List Q) (s : ℕ), q ∉ l → netOf ((l.zipIdx s).map fun qk => (qk.1, v qk.2)) q = 0
  | [], s, _ => by simp [netOf_nil]
  | a :: l, s, h => by
    rw [List.zipIdx_cons, List.map_cons, netOf_cons, netOf_notMem v q l (s + 1) (fun h' => h (List.mem_cons_of_mem _ h'))]
    have : a ≠ q := fun e => h (by simp [e])
    simp [this]

theorem netOf_at {Q : Type} [DecidableEq Q] (v : ℕ → ℝ) (q : Q) : ∀ (l : List Q) (s k : ℕ), l.Nodup → l[k]? = some q → netOf ((l.zipIdx s).map fun qk => (qk.1, v qk.2)) q = v (s + k)
  | [], s, k, _, h => by simp at h
  | a :: l, s, 0, hn, h => by
    have e : a = q := by simpa using h
    subst e
    rw [List.zipIdx_cons, List.map_cons, netOf_cons, netOf_notMem v a l (s + 1) (List.nodup_cons.mp hn).1]
    simp
  | a :: l, s, k + 1, hn, h => by
    have h' : l[k]? = some q := by simpa using h
    have : a ≠ q := fun e => (List.nodup_cons.mp hn).1 (e ▸ List.mem_of_getElem? h')
    rw [List.zipIdx_cons, List.map_cons, netOf_cons, netOf_at v q l (s + 1) k (List.nodup_cons.mp hn).2 h']
    simp only [this, if_false, zero_add]
    congr 1
    omega

theorem stencilT_upd {Q : Type} [DecidableEq Q] (cols : List Q) (hn : cols.Nodup) (c : Q → ℕ → ℝ) (dof k : ℕ) (q : Q) (hk : cols[k]? = some q) (x : ℝ) :
    stencilT cols (upd c q dof x) dof = update (stencilT cols c dof) k x := by
  funext j
  unfold stencilT
  by_cases hj : j = k
  · subst hj
    simp [List.getD, hk, upd]
  · rw [update_of_ne hj]
    simp only [List.getD, List.getElem?_map]
    cases hc : cols[j]? with
    | none => rfl
    | some q' =>
      have hne : q' ≠ q := fun e => by
        subst e
        have h1 := (List.getElem?_eq_some_iff.mp hc)
        have h2 := (List.getElem?_eq_some_iff.mp hk)
        obtain ⟨a, ha⟩ := h1
        obtain ⟨b, hb⟩ := h2
        exact hj ((List.Nodup.getElem_inj_iff hn).mp (ha.trans hb.symm))
      simp [upd, hne]

theorem stencilT_other {Q : Type} [DecidableEq Q] (cols : List Q) (c : Q → ℕ → ℝ) (dof : ℕ) (q : Q) (m : ℕ) (h : m ≠ dof ∨ q ∉ cols) (x : ℝ) : stencilT cols (upd c q m x) dof = stencilT cols c dof := by
  unfold stencilT
  funext k
  congr 1
  refine List.map_congr_left fun q' hq => ?_
  rcases h with h | h
  · simp [upd, Ne.symm h]
  · have : q' ≠ q := fun e => h (e ▸ hq)
    simp [upd, this]

/-- The derivative of a function of the temperatures of the stencil, from those by index. -/
theorem stencil_deriv {Q : Type} [DecidableEq Q] (f : (ℕ → ℝ) → ℝ) (cols : List Q) (hn : cols.Nodup) (c : Q → ℕ → ℝ) (dof : ℕ) (v : ℕ → ℝ) (q : Q) (m : ℕ)
    (hv : ∀ k, m = dof → cols[k]? = some q → HasDerivAt (fun x => f (update (stencilT cols c dof) k x)) (v k) (stencilT cols c dof k)) :
    HasDerivAt (fun x => f (stencilT cols (upd c q m x) dof)) (if m = dof then colSum cols v q else 0) (c q m) := by
  by_cases hm : m = dof
  · subst hm
    by_cases hq : q ∈ cols
    · obtain ⟨k, hk⟩ := List.getElem?_of_mem hq
      have e : stencilT cols c m k = c q m := by simp [stencilT, List.getD, hk]
      have := hv k rfl hk
      rw [e] at this
      simp only [if_true, colSum, netOf_at v q cols 0 k hn hk, Nat.zero_add]
      simpa only [stencilT_upd cols hn c m k q hk] using this
    · simp only [if_true, colSum, netOf_notMem v q cols 0 hq, stencilT_other cols c m q m (Or.inr hq)]
      exact hasDerivAt_const _ _
  · simp only [hm, if_false, stencilT_other cols c dof q m (Or.inl hm)]
    exact hasDerivAt_const _ _

/-! ### The heat equation at a point -/

/-- Away from the interface the numbers are the derivatives by the neighbours. -/
theorem heat_index (h : Heat.Ctx ℝ) (x : ℕ) (t : ℕ → ℝ) (hL : h.hL ≠ 0) (hR : h.hR ≠ 0) (hs : h.hL + h.hR ≠ 0) (hi : ¬Heat.atInterface h x ∨ x = h.surf) (k : ℕ) (k0 : k ≠ 0) (hk : k < 2 * h.dim + 1) :
    HasDerivAt (fun s => Heat.rhs h x (update t k s)) (heatVal h x t k) (t k) := by
  change HasDerivAt (Heat.along h x t k) _ _
  have nb := Heat.neighbours h x t hL hR hs hi
  rcases Nat.lt_or_ge k 3 with h3 | h3
  · have : k = 1 ∨ k = 2 := by omega
    rcases this with rfl | rfl
    · simpa [heatVal] using nb.1
    · simpa [heatVal] using nb.2
  · have e : k = 2 * ((k - 1) / 2) + (k - 2 * ((k - 1) / 2)) := by omega
    have := Heat.neighbours_transverse h x t ((k - 1) / 2) (by omega) (by omega) (k - 2 * ((k - 1) / 2)) (by omega)
    rw [← e] at this
    have k1 : k ≠ 1 := by omega
    have k2 : k ≠ 2 := by omega
    simpa [heatVal, k0, k1, k2] using this

/-- A point whose spacings are not zero and that is not at the interface, or at the surface. -/
structure Apart (E : Space ℝ) (H : Columns ℝ) (x y z : ℕ) : Prop where
  hL : hxLeft E.grid x ≠ 0
  hR : hxRight E.nX E.grid x ≠ 0
  hs : hxLeft E.grid x + hxRight E.nX E.grid x ≠ 0
  interface : ¬(H.heat.loc > H.heat.grid x - H.heat.grid (H.surf y z + 1) ∧ H.heat.loc ≤ H.heat.grid (x + 1) - H.heat.grid (H.surf y z + 1)) ∨ x = H.surf y z

/-- A point where the heat equation has its usual form. -/
structure Usual (E : Space ℝ) (H : Columns ℝ) (x y z : ℕ) (t : ℝ) : Prop extends Apart E H x y z where
  capacity : Heat.capacity t ≠ 0
  surf : x ≠ H.surf y z
  bulk : x ≠ H.heat.bulk

theorem usual_mid {E : Space ℝ} {H : Columns ℝ} {x y z : ℕ} {t : ℕ → ℝ} (dim : ℕ) (hu : Usual E H x y z (t 0)) :
    HasDerivAt (Heat.along (E.heatCtx H dim x y z) x t 0) ((Heat.part (E.heatCtx H dim x y z) x t).1 + Heat.lackT (E.heatCtx H dim x y z) x t) (t 0) :=
  Heat.interior_mid (E.heatCtx H dim x y z) x t hu.hL hu.hR hu.hs hu.capacity hu.surf hu.bulk (hu.interface.resolve_right hu.surf)

/-- The term of the temperature without what its number lacks has the numbers as derivatives. -/
theorem heat_local {Q : Type} [DecidableEq Q] (E : Space ℝ) (H : Columns ℝ) (dim x y z : ℕ) (cols : List Q) (hn : cols.Nodup) (hlen : cols.length = 2 * dim + 1) (self : Q) (h0 : cols[0]? = some self) (c : Q → ℕ → ℝ) (D : ℕ) (w : ℝ) (q : Q) (m : ℕ)
    (hu : E.heatTimes H x y z = 0 ∨ Apart E H x y z)
    (hd : E.heatTimes H x y z ≠ 0 → m = D → q = self → HasDerivAt (Heat.along (E.heatCtx H dim x y z) x (stencilT cols c D) 0) ((Heat.part (E.heatCtx H dim x y z) x (stencilT cols c D)).1 + w) (c self D)) :
    HasDerivAt (fun s => E.heatTimes H x y z * Heat.rhs (E.heatCtx H dim x y z) x (stencilT cols (upd c q m s) D) - E.heatTimes H x y z * w * upd c q m s self D)
      (if m = D then colSum cols (fun k => E.heatTimes H x y z * heatVal (E.heatCtx H dim x y z) x (stencilT cols c D) k) q else 0) (c q m) := by
  have hs : ∀ c' : Q → ℕ → ℝ, c' self D = stencilT cols c' D 0 := fun c' => by simp [stencilT, List.getD, h0]
  simp only [hs]
  refine stencil_deriv (fun t => E.heatTimes H x y z * Heat.rhs (E.heatCtx H dim x y z) x t - E.heatTimes H x y z * w * t 0) cols hn c D _ q m (fun k hm hk => ?_)
  by_cases hz : E.heatTimes H x y z = 0
  · simp only [hz, Nat.cast_zero, zero_mul, sub_zero]
    exact hasDerivAt_const _ _
  · have hu' := hu.resolve_left hz
    by_cases k0 : k = 0
    · subst k0
      have hq : q = self := by rw [h0] at hk; exact (Option.some.inj hk).symm
      have h1 := hd hz hm hq
      rw [hs c] at h1
      have h2 : HasDerivAt (fun s => update (stencilT cols c D) 0 s 0) 1 (stencilT cols c D 0) := by simpa using hasDerivAt_id' (stencilT cols c D 0)
      refine ((h1.const_mul (E.heatTimes H x y z : ℝ)).sub (h2.const_mul (E.heatTimes H x y z * w))).congr_deriv ?_
      simp [heatVal, mul_add]
    · have hlt : k < 2 * dim + 1 := hlen ▸ (List.getElem?_eq_some_iff.mp hk).1
      have h1 := heat_index (E.heatCtx H dim x y z) x (stencilT cols c D) hu'.hL hu'.hR hu'.hs hu'.interface k k0 hlt
      simp only [update_of_ne (Ne.symm k0)]
      exact (h1.const_mul _).sub_const _

/-! ### The matrix -/

/-- Where the transport is linear with the numbers as coefficients and the numbers of the temperature are the derivatives of its term but for a multiple of the temperature of the point, the matrix is the Jacobian but for it. -/
theorem linear_jacobian_temp {P Q : Type} [DecidableEq P] [DecidableEq Q] (M₀ : Network d ℝ) (hw : ∀ r ∈ M₀.rxns, r.Within D) (B : Build D (requests M₀.rxns)) (M : P → Network d ℝ)
    (hM : ∀ p, (M p).rxns.map Rxn.connectivity = M₀.rxns.map Rxn.connectivity) (depth spacing : P → ℝ) (S : Setup P Q) (hnw : S.nw = FillMap.pairs D (FillMap.diagonal B.crs D)) (hn : S.points.Nodup) (s : ℕ) (hs : ∀ p, (S.cols p).length = s)
    (hadv : ∀ p, ∀ h ∈ S.adv, h.ids.length = nAdvec S ∧ h.reg p = h.real p) (skip : P → Bool) (c : Q → ℕ → ℝ) :
    ∃ ps : P → List (List (ℕ × ℝ)), (∀ p, ((M p).partialThreads (c (S.self p)) (depth p) (spacing p)).mapM (place B.crs) = some (ps p)) ∧ ∀ V : Values P ℝ, (∀ p, Interleaves (ps p) (V.nw p)) →
      ∃ J, rhsJacobian S V s skip (fun _ => false) (fresh S) = some (fresh S, J) ∧
        ∀ T : Terms P Q ℝ,
          (∀ p, skip p = false → ∀ (b : ℕ) ids, S.blocks[b]? = some ids → ∀ (k n : ℕ), ids[k]? = some n → ∀ c, T.block b p k c = ((S.cols p).zipIdx.map fun qk => V.block b p k qk.2 * c qk.1 n).sum) →
          (∀ p, skip p = false → ∀ (a : ℕ) h, S.adv[a]? = some h → ∀ (k n : ℕ), h.ids[k]? = some n → ∀ c, T.adv a p k c = (V.adv a p k).1 * c (h.real p).1 n + (V.adv a p k).2 * c (h.real p).2 n) →
          (∀ p c', Interleaves ((M p).fluxThreads c' (depth p) (spacing p)) (T.nw p c')) →
          ∀ p ∈ S.points, ∀ n, Row skip (M p) (c (S.self p)) p n → ∀ q m, ∀ w : ℝ,
            (n = S.dof → HasDerivAt (fun x => T.temp p (upd c q m x) - w * upd c q m x (S.self p) S.dof) (if m = S.dof then colSum (S.cols p) (V.temp p) q else 0) (c q m)) →
            HasDerivAt (fun x => F S T skip (fun _ => false) (upd c q m x) p n) (J ((p, n), (q, m)) + if n = S.dof ∧ m = S.dof ∧ q = S.self p then w else 0) (c q m) := by
  choose ps hps hrow using fun p : P => network_rows M₀ hw B (M p) (hM p) (c (S.self p)) (depth p) (spacing p)
  refine ⟨ps, hps, fun V hV => ?_⟩
  obtain ⟨J, hJ, hder⟩ := matrix_jacobian_partial S V s skip (fun _ => false) hs (fun p _ h => by simp at h) hadv (fun p u hu => by rw [hnw]; exact (hrow p _ (hV p)).1 u hu) hn
  refine ⟨J, hJ, fun T hb ha hG p hp n R q m w ht => ?_⟩
  let T' : Terms P Q ℝ := { T with temp := fun p' c' => T.temp p' c' - w * c' (S.self p') S.dof }
  have key := hder T' c p hp n q m ⟨fun hn => ht hn, fun hk _ b ids hb' k hk' => ?_, fun hk _ a h ha' k hk' => ?_, fun hk _ => ?_⟩
  · have e : ∀ x, F S T skip (fun _ => false) (upd c q m x) p n = F S T' skip (fun _ => false) (upd c q m x) p n + (if n = S.dof then w * upd c q m x (S.self p) S.dof else 0) := fun x => by
      simp only [F, applyUpdates_eq, zero_add, additions, netOf_cons, T']
      by_cases hd : S.dof = n
      · simp only [hd, if_true]; ring
      · simp only [hd, Ne.symm hd, if_false, add_zero]
    simp only [e]
    refine key.add ?_
    by_cases hd : n = S.dof
    · simp only [hd, if_true, true_and]
      refine ((upd_deriv c q m (S.self p) S.dof).const_mul w).congr_deriv ?_
      by_cases hm : m = S.dof <;> by_cases hq : q = S.self p <;> simp [hm, hq, eq_comm]
    · simp only [hd, if_false, false_and]
      exact hasDerivAt_const _ _
  · show HasDerivAt (fun x => T.block b p k (upd c q m x)) _ _
    simp only [hb p hk b ids hb' k n hk']
    exact lin_deriv (V.block b p k) c n q m _
  · show HasDerivAt (fun x => T.adv a p k (upd c q m x)) _ _
    simp only [ha p hk a h ha' k n hk']
    refine (((upd_deriv c q m (h.real p).1 n).const_mul _).add ((upd_deriv c q m (h.real p).2 n).const_mul _)).congr_deriv ?_
    by_cases hm : m = n
    · simp [hm]
    · simp [hm, Ne.symm hm]
  · show HasDerivAt (fun x => netOf (T.nw p (upd c q m x (S.self p))) n) _ _
    rw [hnw, (hrow p _ (hV p)).2]
    exact network_local (M p) c (S.self p) (R.smooth hk) (depth p) (spacing p) n (R.quiet hk) q m (T.nw p) (hG p)

theorem cols2_nodup (p : ℕ × ℕ) : (cols2 p).Nodup := by
  simp [cols2, Prod.ext_iff]
  omega

theorem cols3_nodup (p : ℕ × ℕ × ℕ) : (cols3 p).Nodup := by
  simp [cols3, Prod.ext_iff]
  omega

theorem block2 (E : Space ℝ) (dif : List ℕ) (p : ℕ × ℕ) (g1 : hxLeft E.grid p.1 ≠ 0) (g2 : hxRight E.nX E.grid p.1 ≠ 0) (g3 : hxLeft E.grid p.1 + hxRight E.nX E.grid p.1 ≠ 0) (adv adv' : List ℕ) (src : ℕ × ℕ → List (ℕ × ℝ)) (G : ℕ × ℕ → (ℕ → ℝ) → List (ℕ × ℝ)) (l : ℕ × ℕ → List (ℕ × ℝ))
    (b k n : ℕ) (hk : dif[k]? = some n) (c : ℤ × ℤ → ℕ → ℝ) : (E.terms2 dif adv src G).block b p k c = ((cols2 p).zipIdx.map fun qk => (E.values2 dif adv' l).block b p k qk.2 * c qk.1 n).sum := by
  have hn : dif.getD k 0 = n := by simp [List.getD, hk]
  simp only [terms2, values2, hn]
  rw [conc2_eq _ _ _ g1 g2 g3]
  simp [cols2, List.zipIdx_cons, nth]
  ring

theorem block3 (E : Space ℝ) (dif : List ℕ) (p : ℕ × ℕ × ℕ) (g1 : hxLeft E.grid p.1 ≠ 0) (g2 : hxRight E.nX E.grid p.1 ≠ 0) (g3 : hxLeft E.grid p.1 + hxRight E.nX E.grid p.1 ≠ 0) (adv adv' : List ℕ) (src : ℕ × ℕ × ℕ → List (ℕ × ℝ)) (G : ℕ × ℕ × ℕ → (ℕ → ℝ) → List (ℕ × ℝ)) (l : ℕ × ℕ × ℕ → List (ℕ × ℝ))
    (b k n : ℕ) (hk : dif[k]? = some n) (c : ℤ × ℤ × ℤ → ℕ → ℝ) : (E.terms3 dif adv src G).block b p k c = ((cols3 p).zipIdx.map fun qk => (E.values3 dif adv' l).block b p k qk.2 * c qk.1 n).sum := by
  have hn : dif.getD k 0 = n := by simp [List.getD, hk]
  simp only [terms3, values3, hn]
  rw [conc3_eq _ _ _ _ g1 g2 g3]
  simp [cols3, List.zipIdx_cons, nth]
  ring

variable (E : Space ℝ) (H : Columns ℝ)

/-- In two dimensions with the heat equation, at every point away from the interface: every entry of the matrix is the derivative of the right-hand side, but for the entry of the temperature of the point in its own row, which lacks for every evaluation what the number reported lacks (`w`). -/
theorem plane_heat (M₀ : Network d ℝ) (hw : ∀ r ∈ M₀.rxns, r.Within D) (B : Build D (requests M₀.rxns)) (M : ℕ × ℕ → Network d ℝ) (hM : ∀ p, (M p).rxns.map Rxn.connectivity = M₀.rxns.map Rxn.connectivity)
    (depth spacing : ℕ × ℕ → ℝ) (xs xm ys ym : ℕ) (dif : List ℕ) (adv : Option (List ℕ)) (skip : ℕ × ℕ → Bool) (hsp : ∀ p, skip p = false → hxLeft E.grid p.1 ≠ 0 ∧ hxRight E.nX E.grid p.1 ≠ 0 ∧ hxLeft E.grid p.1 + hxRight E.nX E.grid p.1 ≠ 0)
    (c : ℤ × ℤ → ℕ → ℝ) :
    ∃ ps : ℕ × ℕ → List (List (ℕ × ℝ)), (∀ p, ((M p).partialThreads (c (p.1, p.2)) (depth p) (spacing p)).mapM (place B.crs) = some (ps p)) ∧ ∀ l : ℕ × ℕ → List (ℕ × ℝ), (∀ p, Interleaves (ps p) (l p)) →
      ∃ J, rhsJacobian (setup2 D xs xm ys ym dif adv (FillMap.pairs D (FillMap.diagonal B.crs D))) (E.heatValues2 H D dif (adv.getD []) l c) 5 skip (fun _ => false)
          (fresh (setup2 D xs xm ys ym dif adv (FillMap.pairs D (FillMap.diagonal B.crs D)))) =
            some (fresh (setup2 D xs xm ys ym dif adv (FillMap.pairs D (FillMap.diagonal B.crs D))), J) ∧
        ∀ i j, xs ≤ i → i < xs + xm → ys ≤ j → j < ys + ym → ∀ n, Row skip (M (i, j)) (c (i, j)) (i, j) n → (n = D → E.heatTimes H i j 0 = 0 ∨ Apart E H i j 0) → ∀ (src : ℕ × ℕ → List (ℕ × ℝ)) (G : ℕ × ℕ → (ℕ → ℝ) → List (ℕ × ℝ)),
          (∀ p c', Interleaves ((M p).fluxThreads c' (depth p) (spacing p)) (G p c')) → ∀ (q : ℤ × ℤ) (m : ℕ) (w : ℝ),
          (n = D → E.heatTimes H i j 0 ≠ 0 → m = D → q = ((i : ℤ), (j : ℤ)) → HasDerivAt (Heat.along (E.heatCtx H 2 i j 0) i (stencilT (cols2 (i, j)) c D) 0) ((Heat.part (E.heatCtx H 2 i j 0) i (stencilT (cols2 (i, j)) c D)).1 + w) (c (i, j) D)) →
          HasDerivAt (fun x => F (setup2 D xs xm ys ym dif adv (FillMap.pairs D (FillMap.diagonal B.crs D))) (E.heatTerms2 H D dif (adv.getD []) src G) skip (fun _ => false) (upd c q m x) (i, j) n)
            (J (((i, j), n), (q, m)) + if n = D ∧ m = D ∧ q = ((i : ℤ), (j : ℤ)) then E.heatTimes H i j 0 * w else 0) (c q m) := by
  set S := setup2 D xs xm ys ym dif adv (FillMap.pairs D (FillMap.diagonal B.crs D)) with hS
  obtain ⟨ps, h1, h2⟩ := linear_jacobian_temp M₀ hw B M hM depth spacing S rfl (points2_nodup xs xm ys ym) 5 (fun _ => rfl)
    (fun p h hh => ⟨adv_len _ (fun _ => rfl) S adv rfl h hh, by obtain ⟨ids, -, rfl⟩ := List.mem_map.mp hh; rfl⟩) skip c
  refine ⟨ps, h1, fun l hl => ?_⟩
  obtain ⟨J, hJ, h3⟩ := h2 (E.heatValues2 H D dif (adv.getD []) l c) hl
  refine ⟨J, hJ, fun i j hi1 hi2 hj1 hj2 n R hu src G hG q m w hd => ?_⟩
  refine h3 (E.heatTerms2 H D dif (adv.getD []) src G) (fun p hp b ids hb k n hk c => ?_) (fun p hp a h ha k n hk c => ?_) hG (i, j) ?_ n R q m _ (fun hn => ?_)
  · match b with
    | 0 =>
      have : ids = dif := by simpa [hS, setup2] using hb.symm
      subst this
      obtain ⟨g1, g2, g3⟩ := hsp p hp
      exact block2 E ids p g1 g2 g3 (adv.getD []) (adv.getD []) src G l 0 k n hk c
    | b + 1 => simp [hS, setup2] at hb
  · cases adv with
    | none => simp [hS, setup2] at ha
    | some ids =>
      have h' : h ∈ S.adv := List.mem_of_getElem? ha
      have hi : h.ids = ids ∧ h.real p = (((p.1 : ℤ), (p.2 : ℤ)), ((p.1 : ℤ) + 1, (p.2 : ℤ))) := by
        obtain ⟨ids', hm, rfl⟩ := List.mem_map.mp h'
        simp at hm
        exact ⟨by rw [hm], rfl⟩
      have hn : ids.getD k 0 = n := by rw [hi.1] at hk; simp [List.getD, hk]
      rw [hi.2]
      simp only [heatTerms2, heatValues2, terms2, values2, Option.getD_some, hn, advRate, advPart, Adv.surf_eq]
  · exact List.mem_flatMap.mpr ⟨j, List.mem_range'_1.mpr ⟨hj1, hj2⟩, List.mem_map.mpr ⟨i, List.mem_range'_1.mpr ⟨hi1, hi2⟩, rfl⟩⟩
  · exact heat_local E H 2 i j 0 (cols2 (i, j)) (cols2_nodup _) rfl ((i : ℤ), (j : ℤ)) rfl c D w q m (hu hn) (hd hn)

/-- The same in three dimensions. -/
theorem box_heat (M₀ : Network d ℝ) (hw : ∀ r ∈ M₀.rxns, r.Within D) (B : Build D (requests M₀.rxns)) (M : ℕ × ℕ × ℕ → Network d ℝ) (hM : ∀ p, (M p).rxns.map Rxn.connectivity = M₀.rxns.map Rxn.connectivity)
    (depth spacing : ℕ × ℕ × ℕ → ℝ) (xs xm ys ym zs zm : ℕ) (dif : List ℕ) (adv : Option (List ℕ)) (skip : ℕ × ℕ × ℕ → Bool) (hsp : ∀ p, skip p = false → hxLeft E.grid p.1 ≠ 0 ∧ hxRight E.nX E.grid p.1 ≠ 0 ∧ hxLeft E.grid p.1 + hxRight E.nX E.grid p.1 ≠ 0)
    (c : ℤ × ℤ × ℤ → ℕ → ℝ) :
    ∃ ps : ℕ × ℕ × ℕ → List (List (ℕ × ℝ)), (∀ p, ((M p).partialThreads (c (p.1, p.2.1, p.2.2)) (depth p) (spacing p)).mapM (place B.crs) = some (ps p)) ∧ ∀ l : ℕ × ℕ × ℕ → List (ℕ × ℝ), (∀ p, Interleaves (ps p) (l p)) →
      ∃ J, rhsJacobian (setup3 D xs xm ys ym zs zm dif adv (FillMap.pairs D (FillMap.diagonal B.crs D))) (E.heatValues3 H D dif (adv.getD []) l c) 7 skip (fun _ => false)
          (fresh (setup3 D xs xm ys ym zs zm dif adv (FillMap.pairs D (FillMap.diagonal B.crs D)))) =
            some (fresh (setup3 D xs xm ys ym zs zm dif adv (FillMap.pairs D (FillMap.diagonal B.crs D))), J) ∧
        ∀ i j k, xs ≤ i → i < xs + xm → ys ≤ j → j < ys + ym → zs ≤ k → k < zs + zm → ∀ n, Row skip (M (i, j, k)) (c (i, j, k)) (i, j, k) n → (n = D → E.heatTimes H i j k = 0 ∨ Apart E H i j k) →
          ∀ (src : ℕ × ℕ × ℕ → List (ℕ × ℝ)) (G : ℕ × ℕ × ℕ → (ℕ → ℝ) → List (ℕ × ℝ)),
          (∀ p c', Interleaves ((M p).fluxThreads c' (depth p) (spacing p)) (G p c')) → ∀ (q : ℤ × ℤ × ℤ) (m : ℕ) (w : ℝ),
          (n = D → E.heatTimes H i j k ≠ 0 → m = D → q = ((i : ℤ), (j : ℤ), (k : ℤ)) → HasDerivAt (Heat.along (E.heatCtx H 3 i j k) i (stencilT (cols3 (i, j, k)) c D) 0) ((Heat.part (E.heatCtx H 3 i j k) i (stencilT (cols3 (i, j, k)) c D)).1 + w) (c (i, j, k) D)) →
          HasDerivAt (fun x => F (setup3 D xs xm ys ym zs zm dif adv (FillMap.pairs D (FillMap.diagonal B.crs D))) (E.heatTerms3 H D dif (adv.getD []) src G) skip (fun _ => false) (upd c q m x) (i, j, k) n)
            (J (((i, j, k), n), (q, m)) + if n = D ∧ m = D ∧ q = ((i : ℤ), (j : ℤ), (k : ℤ)) then E.heatTimes H i j k * w else 0) (c q m) := by
  set S := setup3 D xs xm ys ym zs zm dif adv (FillMap.pairs D (FillMap.diagonal B.crs D)) with hS
  obtain ⟨ps, h1, h2⟩ := linear_jacobian_temp M₀ hw B M hM depth spacing S rfl (points3_nodup xs xm ys ym zs zm) 7 (fun _ => rfl)
    (fun p h hh => ⟨adv_len _ (fun _ => rfl) S adv rfl h hh, by obtain ⟨ids, -, rfl⟩ := List.mem_map.mp hh; rfl⟩) skip c
  refine ⟨ps, h1, fun l hl => ?_⟩
  obtain ⟨J, hJ, h3⟩ := h2 (E.heatValues3 H D dif (adv.getD []) l c) hl
  refine ⟨J, hJ, fun i j z hi1 hi2 hj1 hj2 hz1 hz2 n R hu src G hG q m w hd => ?_⟩
  refine h3 (E.heatTerms3 H D dif (adv.getD []) src G) (fun p hp b ids hb k n hk c => ?_) (fun p hp a h ha k n hk c => ?_) hG (i, j, z) ?_ n R q m _ (fun hn => ?_)
  · match b with
    | 0 =>
      have : ids = dif := by simpa [hS, setup3] using hb.symm
      subst this
      obtain ⟨g1, g2, g3⟩ := hsp p hp
      exact block3 E ids p g1 g2 g3 (adv.getD []) (adv.getD []) src G l 0 k n hk c
    | b + 1 => simp [hS, setup3] at hb
  · cases adv with
    | none => simp [hS, setup3] at ha
    | some ids =>
      have h' : h ∈ S.adv := List.mem_of_getElem? ha
      have hi : h.ids = ids ∧ h.real p = (((p.1 : ℤ), (p.2.1 : ℤ), (p.2.2 : ℤ)), ((p.1 : ℤ) + 1, (p.2.1 : ℤ), (p.2.2 : ℤ))) := by
        obtain ⟨ids', hm, rfl⟩ := List.mem_map.mp h'
        simp at hm
        exact ⟨by rw [hm], rfl⟩
      have hn : ids.getD k 0 = n := by rw [hi.1] at hk; simp [List.getD, hk]
      rw [hi.2]
      simp only [heatTerms3, heatValues3, terms3, values3, Option.getD_some, hn, advRate, advPart, Adv.surf_eq]
  · exact List.mem_flatMap.mpr ⟨z, List.mem_range'_1.mpr ⟨hz1, hz2⟩, List.mem_flatMap.mpr ⟨j, List.mem_range'_1.mpr ⟨hj1, hj2⟩, List.mem_map.mpr ⟨i, List.mem_range'_1.mpr ⟨hi1, hi2⟩, rfl⟩⟩⟩
  · exact heat_local E H 3 i j z (cols3 (i, j, z)) (cols3_nodup _) rfl ((i : ℤ), (j : ℤ), (z : ℤ)) rfl c D w q m (hu hn) (hd hn)

/-! ### What is lacking -/

/-- What the diagonal lacks in two and three dimensions, written out: the derivative of conductivity over capacity times the second differences across the depth. -/
theorem lack2 (c : ℤ × ℤ → ℕ → ℝ) (i j : ℕ) : Heat.lackT (E.heatCtx H 2 i j 0) i (stencilT (cols2 (i, j)) c D) =
    Heat.alpha (E.heatCtx H 2 i j 0) i * (Heat.dBeta (c (i, j) D) * Heat.gamma (c (i, j) D) + Heat.beta (c (i, j) D) * Heat.dGamma (c (i, j) D)) * (E.sy * (c (i, j - 1) D + c (i, j + 1) D - 2 * c (i, j) D)) := by
  simp only [Heat.lackT, heatCtx, show Finset.Ico 1 2 = {1} from rfl, Finset.sum_singleton]
  simp [stencilT, cols2]
  ring

theorem lack3 (c : ℤ × ℤ × ℤ → ℕ → ℝ) (i j k : ℕ) : Heat.lackT (E.heatCtx H 3 i j k) i (stencilT (cols3 (i, j, k)) c D) =
    Heat.alpha (E.heatCtx H 3 i j k) i * (Heat.dBeta (c (i, j, k) D) * Heat.gamma (c (i, j, k) D) + Heat.beta (c (i, j, k) D) * Heat.dGamma (c (i, j, k) D)) *
      (E.sy * (c (i, j - 1, k) D + c (i, j + 1, k) D - 2 * c (i, j, k) D) + E.sz * (c (i, j, k - 1) D + c (i, j, k + 1) D - 2 * c (i, j, k) D)) := by
  simp only [Heat.lackT, heatCtx, show Finset.Ico 1 3 = {1, 2} from rfl]
  rw [Finset.sum_pair (by decide)]
  simp [stencilT, cols3]
  ring

theorem slope_300 : Heat.dBeta (300 : ℝ) * Heat.gamma 300 + Heat.beta 300 * Heat.dGamma 300 < 0 := by
  norm_num [Heat.dBeta, Heat.gamma, Heat.beta, Heat.dGamma, Heat.capacity, Heat.density]

theorem alpha_pos (h : Heat.Ctx ℝ) (x : ℕ) : 0 < Heat.alpha h x := by
  unfold Heat.alpha
  split_ifs <;> norm_num

/-- At a point of 300 K that is below the surface, nothing is lacking in two dimensions just if the temperature has no second difference along the surface. -/
theorem lack2_300 (c : ℤ × ℤ → ℕ → ℝ) (i j : ℕ) (h : c (i, j) D = 300) : Heat.lackT (E.heatCtx H 2 i j 0) i (stencilT (cols2 (i, j)) c D) = 0 ↔ E.sy = 0 ∨ c (i, j - 1) D + c (i, j + 1) D = 600 := by
  rw [lack2, h]
  simp only [mul_eq_zero, (alpha_pos _ _).ne', slope_300.ne, false_or]
  refine or_congr Iff.rfl ⟨fun h => by linarith, fun h => by linarith⟩

/-- The same in three dimensions. -/
theorem lack3_300 (c : ℤ × ℤ × ℤ → ℕ → ℝ) (i j k : ℕ) (h : c (i, j, k) D = 300) : Heat.lackT (E.heatCtx H 3 i j k) i (stencilT (cols3 (i, j, k)) c D) = 0 ↔
    E.sy * (c (i, j - 1, k) D + c (i, j + 1, k) D - 600) + E.sz * (c (i, j, k - 1) D + c (i, j, k + 1) D - 600) = 0 := by
  rw [lack3, h]
  simp only [mul_eq_zero, (alpha_pos _ _).ne', slope_300.ne, false_or]
  refine ⟨fun h => by linarith, fun h => by linarith⟩

/-- **C99** In two dimensions with the heat equation, whose temperatures every column sees with a surface of its own: at every point where it is not evaluated or that is away from the interface, and in every row, every entry of the matrix is the derivative of the right-hand side but for that of the temperature of the point in its own row.
That entry lacks `lackT` for every evaluation where the equation has its usual form, and is not the derivative at a point of 300 K unless its neighbours along the surface have 600 K together.  Missing: the points at the interface (`interface_wrong`). -/
theorem plane_heat_partial (M₀ : Network d ℝ) (hw : ∀ r ∈ M₀.rxns, r.Within D) (B : Build D (requests M₀.rxns)) (M : ℕ × ℕ → Network d ℝ) (hM : ∀ p, (M p).rxns.map Rxn.connectivity = M₀.rxns.map Rxn.connectivity)
    (depth spacing : ℕ × ℕ → ℝ) (xs xm ys ym : ℕ) (dif : List ℕ) (adv : Option (List ℕ)) (skip : ℕ × ℕ → Bool) (hsp : ∀ p, skip p = false → hxLeft E.grid p.1 ≠ 0 ∧ hxRight E.nX E.grid p.1 ≠ 0 ∧ hxLeft E.grid p.1 + hxRight E.nX E.grid p.1 ≠ 0)
    (c : ℤ × ℤ → ℕ → ℝ) :
    ∃ ps : ℕ × ℕ → List (List (ℕ × ℝ)), (∀ p, ((M p).partialThreads (c (p.1, p.2)) (depth p) (spacing p)).mapM (place B.crs) = some (ps p)) ∧ ∀ l : ℕ × ℕ → List (ℕ × ℝ), (∀ p, Interleaves (ps p) (l p)) →
      ∃ J, rhsJacobian (setup2 D xs xm ys ym dif adv (FillMap.pairs D (FillMap.diagonal B.crs D))) (E.heatValues2 H D dif (adv.getD []) l c) 5 skip (fun _ => false) (fresh (setup2 D xs xm ys ym dif adv (FillMap.pairs D (FillMap.diagonal B.crs D)))) =
            some (fresh (setup2 D xs xm ys ym dif adv (FillMap.pairs D (FillMap.diagonal B.crs D))), J) ∧
        ∀ i j, xs ≤ i → i < xs + xm → ys ≤ j → j < ys + ym → ∀ n, Row skip (M (i, j)) (c (i, j)) (i, j) n → (n = D → E.heatTimes H i j 0 = 0 ∨ Apart E H i j 0) → ∀ (src : ℕ × ℕ → List (ℕ × ℝ)) (G : ℕ × ℕ → (ℕ → ℝ) → List (ℕ × ℝ)),
          (∀ p c', Interleaves ((M p).fluxThreads c' (depth p) (spacing p)) (G p c')) →
          (∀ (q : ℤ × ℤ) (m : ℕ), ¬(n = D ∧ m = D ∧ q = ((i : ℤ), (j : ℤ))) →
            HasDerivAt (fun x => F (setup2 D xs xm ys ym dif adv (FillMap.pairs D (FillMap.diagonal B.crs D))) (E.heatTerms2 H D dif (adv.getD []) src G) skip (fun _ => false) (upd c q m x) (i, j) n)
              (J (((i, j), n), (q, m))) (c q m)) ∧
          (n = D → Usual E H i j 0 (c (i, j) D) →
            HasDerivAt (fun x => F (setup2 D xs xm ys ym dif adv (FillMap.pairs D (FillMap.diagonal B.crs D))) (E.heatTerms2 H D dif (adv.getD []) src G) skip (fun _ => false) (upd c ((i : ℤ), (j : ℤ)) D x) (i, j) n)
              (J (((i, j), n), (((i : ℤ), (j : ℤ)), D)) + E.heatTimes H i j 0 * Heat.lackT (E.heatCtx H 2 i j 0) i (stencilT (cols2 (i, j)) c D)) (c ((i : ℤ), (j : ℤ)) D)) ∧
          (n = D → Usual E H i j 0 (c (i, j) D) → E.heatTimes H i j 0 ≠ 0 → c (i, j) D = 300 → E.sy ≠ 0 → c (i, j - 1) D + c (i, j + 1) D ≠ 600 →
            ¬HasDerivAt (fun x => F (setup2 D xs xm ys ym dif adv (FillMap.pairs D (FillMap.diagonal B.crs D))) (E.heatTerms2 H D dif (adv.getD []) src G) skip (fun _ => false) (upd c ((i : ℤ), (j : ℤ)) D x) (i, j) n)
              (J (((i, j), n), (((i : ℤ), (j : ℤ)), D))) (c ((i : ℤ), (j : ℤ)) D)) := by
  obtain ⟨ps, h1, h2⟩ := plane_heat E H M₀ hw B M hM depth spacing xs xm ys ym dif adv skip hsp c
  refine ⟨ps, h1, fun l hl => ?_⟩
  obtain ⟨J, hJ, hK⟩ := h2 l hl
  refine ⟨J, hJ, fun i j h1 h2 h3 h4 n R hu src G hG => ?_⟩
  have key := hK i j h1 h2 h3 h4 n R hu src G hG
  have dia : n = D → Usual E H i j 0 (c (i, j) D) → HasDerivAt (fun x => F (setup2 D xs xm ys ym dif adv (FillMap.pairs D (FillMap.diagonal B.crs D))) (E.heatTerms2 H D dif (adv.getD []) src G) skip (fun _ => false) (upd c ((i : ℤ), (j : ℤ)) D x) (i, j) n)
      (J (((i, j), n), (((i : ℤ), (j : ℤ)), D)) + E.heatTimes H i j 0 * Heat.lackT (E.heatCtx H 2 i j 0) i (stencilT (cols2 (i, j)) c D)) (c ((i : ℤ), (j : ℤ)) D) := fun hn hU => by
    have := key ((i : ℤ), (j : ℤ)) D (Heat.lackT (E.heatCtx H 2 i j 0) i (stencilT (cols2 (i, j)) c D)) (fun _ _ _ _ => usual_mid (t := stencilT (cols2 (i, j)) c D) 2 hU)
    simpa [hn] using this
  refine ⟨fun q m hq => ?_, dia, fun hn hU ht h300 hsy hc hder => ?_⟩
  · have := key q m 0 (fun hn _ hm hq' => absurd ⟨hn, hm, hq'⟩ hq)
    simpa using this
  · have e := hder.unique (dia hn hU)
    have e' : (E.heatTimes H i j 0 : ℝ) * Heat.lackT (E.heatCtx H 2 i j 0) i (stencilT (cols2 (i, j)) c D) = 0 := by linarith
    rcases mul_eq_zero.mp e' with e' | e'
    · exact ht (by exact_mod_cast e')
    · rcases (lack2_300 E H c i j h300).mp e' with e' | e' <;> [exact hsy e'; exact hc e']

/-- **C99** The same in three dimensions. -/
theorem box_heat_partial (M₀ : Network d ℝ) (hw : ∀ r ∈ M₀.rxns, r.Within D) (B : Build D (requests M₀.rxns)) (M : ℕ × ℕ × ℕ → Network d ℝ) (hM : ∀ p, (M p).rxns.map Rxn.connectivity = M₀.rxns.map Rxn.connectivity)
    (depth spacing : ℕ × ℕ × ℕ → ℝ) (xs xm ys ym zs zm : ℕ) (dif : List ℕ) (adv : Option (List ℕ)) (skip : ℕ × ℕ × ℕ → Bool) (hsp : ∀ p, skip p = false → hxLeft E.grid p.1 ≠ 0 ∧ hxRight E.nX E.grid p.1 ≠ 0 ∧ hxLeft E.grid p.1 + hxRight E.nX E.grid p.1 ≠ 0)
    (c : ℤ × ℤ × ℤ → ℕ → ℝ) :
    ∃ ps : ℕ × ℕ × ℕ → List (List (ℕ × ℝ)), (∀ p, ((M p).partialThreads (c (p.1, p.2.1, p.2.2)) (depth p) (spacing p)).mapM (place B.crs) = some (ps p)) ∧ ∀ l : ℕ × ℕ × ℕ → List (ℕ × ℝ), (∀ p, Interleaves (ps p) (l p)) →
      ∃ J, rhsJacobian (setup3 D xs xm ys ym zs zm dif adv (FillMap.pairs D (FillMap.diagonal B.crs D))) (E.heatValues3 H D dif (adv.getD []) l c) 7 skip (fun _ => false) (fresh (setup3 D xs xm ys ym zs zm dif adv (FillMap.pairs D (FillMap.diagonal B.crs D)))) =
            some (fresh (setup3 D xs xm ys ym zs zm dif adv (FillMap.pairs D (FillMap.diagonal B.crs D))), J) ∧
        ∀ i j k, xs ≤ i → i < xs + xm → ys ≤ j → j < ys + ym → zs ≤ k → k < zs + zm → ∀ n, Row skip (M (i, j, k)) (c (i, j, k)) (i, j, k) n → (n = D → E.heatTimes H i j k = 0 ∨ Apart E H i j k) → ∀ (src : ℕ × ℕ × ℕ → List (ℕ × ℝ)) (G : ℕ × ℕ × ℕ → (ℕ → ℝ) → List (ℕ × ℝ)),
          (∀ p c', Interleaves ((M p).fluxThreads c' (depth p) (spacing p)) (G p c')) →
          (∀ (q : ℤ × ℤ × ℤ) (m : ℕ), ¬(n = D ∧ m = D ∧ q = ((i : ℤ), (j : ℤ), (k : ℤ))) →
            HasDerivAt (fun x => F (setup3 D xs xm ys ym zs zm dif adv (FillMap.pairs D (FillMap.diagonal B.crs D))) (E.heatTerms3 H D dif (adv.getD []) src G) skip (fun _ => false) (upd c q m x) (i, j, k) n)
              (J (((i, j, k), n), (q, m))) (c q m)) ∧
          (n = D → Usual E H i j k (c (i, j, k) D) →
            HasDerivAt (fun x => F (setup3 D xs xm ys ym zs zm dif adv (FillMap.pairs D (FillMap.diagonal B.crs D))) (E.heatTerms3 H D dif (adv.getD []) src G) skip (fun _ => false) (upd c ((i : ℤ), (j : ℤ), (k : ℤ)) D x) (i, j, k) n)
              (J (((i, j, k), n), (((i : ℤ), (j : ℤ), (k : ℤ)), D)) + E.heatTimes H i j k * Heat.lackT (E.heatCtx H 3 i j k) i (stencilT (cols3 (i, j, k)) c D)) (c ((i : ℤ), (j : ℤ), (k : ℤ)) D)) ∧
          (n = D → Usual E H i j k (c (i, j, k) D) → E.heatTimes H i j k ≠ 0 → c (i, j, k) D = 300 → E.sy * (c (i, j - 1, k) D + c (i, j + 1, k) D - 600) + E.sz * (c (i, j, k - 1) D + c (i, j, k + 1) D - 600) ≠ 0 →
            ¬HasDerivAt (fun x => F (setup3 D xs xm ys ym zs zm dif adv (FillMap.pairs D (FillMap.diagonal B.crs D))) (E.heatTerms3 H D dif (adv.getD []) src G) skip (fun _ => false) (upd c ((i : ℤ), (j : ℤ), (k : ℤ)) D x) (i, j, k) n)
              (J (((i, j, k), n), (((i : ℤ), (j : ℤ), (k : ℤ)), D))) (c ((i : ℤ), (j : ℤ), (k : ℤ)) D)) := by
  obtain ⟨ps, h1, h2⟩ := box_heat E H M₀ hw B M hM depth spacing xs xm ys ym zs zm dif adv skip hsp c
  refine ⟨ps, h1, fun l hl => ?_⟩
  obtain ⟨J, hJ, hK⟩ := h2 l hl
  refine ⟨J, hJ, fun i j k h1 h2 h3 h4 h5 h6 n R hu src G hG => ?_⟩
  have key := hK i j k h1 h2 h3 h4 h5 h6 n R hu src G hG
  have dia : n = D → Usual E H i j k (c (i, j, k) D) → HasDerivAt (fun x => F (setup3 D xs xm ys ym zs zm dif adv (FillMap.pairs D (FillMap.diagonal B.crs D))) (E.heatTerms3 H D dif (adv.getD []) src G) skip (fun _ => false) (upd c ((i : ℤ), (j : ℤ), (k : ℤ)) D x) (i, j, k) n)
      (J (((i, j, k), n), (((i : ℤ), (j : ℤ), (k : ℤ)), D)) + E.heatTimes H i j k * Heat.lackT (E.heatCtx H 3 i j k) i (stencilT (cols3 (i, j, k)) c D)) (c ((i : ℤ), (j : ℤ), (k : ℤ)) D) := fun hn hU => by
    have := key ((i : ℤ), (j : ℤ), (k : ℤ)) D (Heat.lackT (E.heatCtx H 3 i j k) i (stencilT (cols3 (i, j, k)) c D)) (fun _ _ _ _ => usual_mid (t := stencilT (cols3 (i, j, k)) c D) 3 hU)
    simpa [hn] using this
  refine ⟨fun q m hq => ?_, dia, fun hn hU ht h300 hc hder => ?_⟩
  · have := key q m 0 (fun hn _ hm hq' => absurd ⟨hn, hm, hq'⟩ hq)
    simpa using this
  · have e := hder.unique (dia hn hU)
    have e' : (E.heatTimes H i j k : ℝ) * Heat.lackT (E.heatCtx H 3 i j k) i (stencilT (cols3 (i, j, k)) c D) = 0 := by linarith
    rcases mul_eq_zero.mp e' with e' | e'
    · exact ht (by exact_mod_cast e')
    · exact hc ((lack3_300 E H c i j k h300).mp e')

/-- How often the equation is evaluated: once at every free point, and once more at the surface, which is twice if the surface itself is free. -/
theorem heatTimes_eq (x y z : ℕ) (hr : H.right ≤ E.nX - 1) : E.heatTimes H x y z =
    if x = H.surf y z then (if H.left = 0 ∧ x + H.right ≤ E.nX - 1 ∧ (x, y, z) ∉ H.gb then 2 else 1)
    else if H.surf y z + H.left ≤ x ∧ x + H.right ≤ E.nX - 1 ∧ (x, y, z) ∉ H.gb then 1 else 0 := by
  have hf : E.freeAt H x y z = true ↔ H.surf y z + H.left ≤ x ∧ x + H.right ≤ E.nX - 1 ∧ (x, y, z) ∉ H.gb := by
    simp only [freeAt, Bool.and_eq_true, decide_eq_true_eq, Bool.not_eq_true', List.contains_eq_mem, decide_eq_false_iff_not, and_assoc]
    constructor <;> rintro ⟨h1, h2, h3⟩ <;> exact ⟨h1, by omega, h3⟩
  unfold heatTimes
  simp only [hf]
  by_cases hx : x = H.surf y z
  · have : (H.surf y z + H.left ≤ x) ↔ H.left = 0 := by omega
    simp only [hx, if_true] at *
    simp only [this]
    split_ifs <;> rfl
  · simp [hx]

/-- Columns with surfaces at 1 and 2, heated, with a grain boundary. -/
noncomputable def exColumns : Columns ℝ := ⟨1, 1, fun y _ => 1 + y % 2, [(4, 0, 0)], ⟨0, 0, 5, fun i => i, 0, 0, 1, 0, 0, fun _ => 0⟩⟩

theorem exColumns_usual (t : ℝ) (ht : Heat.capacity t ≠ 0) : Usual (exSpace ℝ) exColumns 3 1 0 t := by
  obtain ⟨g1, g2, g3⟩ := exSpace_spacing 3
  refine ⟨⟨g1, g2, g3, Or.inl ?_⟩, ht, by simp [exColumns], by simp [exColumns]⟩
  simp [exColumns]

open Dispatch in
/-- The iron network `grNet` in two dimensions with the heat equation: a point of 300 K between colder ones has a wrong diagonal, and all other entries of its row are right. -/
example (R₀ : Rates ℝ) (R : ℕ × ℕ → Rates ℝ) (t : TmData ℝ) (c : ℤ × ℤ → ℕ → ℝ) (h300 : c (3, 1) (grNet.dofs true) = 300) (h0 : c (3, 0) (grNet.dofs true) = 200) (h2 : c (3, 2) (grNet.dofs true) = 250) :
    ∃ B : Build (grNet.dofs true) (requests (feRxns grNet (grNet.momentIds true) R₀ fun _ => true)),
    ∃ ps : ℕ × ℕ → List (List (ℕ × ℝ)), ∀ l : ℕ × ℕ → List (ℕ × ℝ), (∀ p, Interleaves (ps p) (l p)) → ∃ J : Entry (ℕ × ℕ) (ℤ × ℤ) → ℝ, ∀ (G : ℕ × ℕ → (ℕ → ℝ) → List (ℕ × ℝ)),
      (∀ p c', Interleaves ((⟨feRxns grNet (grNet.momentIds true) (R p) fun _ => true, false, t⟩ : Network 2 ℝ).fluxThreads c' 1 1) (G p c')) →
      HasDerivAt (fun x => F (setup2 (grNet.dofs true) 1 4 0 3 [0] (some [0]) (FillMap.pairs (grNet.dofs true) (FillMap.diagonal B.crs (grNet.dofs true)))) ((exSpace ℝ).heatTerms2 exColumns (grNet.dofs true) [0] [0] (fun _ => []) G) (fun p => decide (p.1 < 1 + p.2)) (fun _ => false)
          (upd c (3, 2) (grNet.dofs true) x) (3, 1) (grNet.dofs true)) (J (((3, 1), grNet.dofs true), ((3, 2), grNet.dofs true))) (c (3, 2) (grNet.dofs true)) ∧
      ¬HasDerivAt (fun x => F (setup2 (grNet.dofs true) 1 4 0 3 [0] (some [0]) (FillMap.pairs (grNet.dofs true) (FillMap.diagonal B.crs (grNet.dofs true)))) ((exSpace ℝ).heatTerms2 exColumns (grNet.dofs true) [0] [0] (fun _ => []) G) (fun p => decide (p.1 < 1 + p.2)) (fun _ => false)
          (upd c (3, 1) (grNet.dofs true) x) (3, 1) (grNet.dofs true)) (J (((3, 1), grNet.dofs true), ((3, 1), grNet.dofs true))) (c (3, 1) (grNet.dofs true)) := by
  have hl : Laid grNet := ⟨grNet_ready.lay, grNet_ready.singleI, grNet_ready.singleV⟩
  obtain ⟨B⟩ := build_exists (grNet.dofs true) (requests (feRxns grNet (grNet.momentIds true) R₀ fun _ => true)) (within_rows (fe_within grNet hl R₀ _))
  have sm : ∀ (R : Rates ℝ) (c : ℕ → ℝ), Smooth (⟨feRxns grNet (grNet.momentIds true) R fun _ => true, false, t⟩ : Network 2 ℝ) c := fun R c => (fe_regular grNet R _ t c 0).1
  have qu : ∀ (R : Rates ℝ) (n : ℕ), Quiet (⟨feRxns grNet (grNet.momentIds true) R fun _ => true, false, t⟩ : Network 2 ℝ) n := fun R n => (fe_regular grNet R _ t (fun _ => 0) n).2
  refine ⟨B, ?_⟩
  obtain ⟨ps, -, h3⟩ := plane_heat_partial (exSpace ℝ) exColumns ⟨feRxns grNet (grNet.momentIds true) R₀ fun _ => true, false, t⟩ (fe_within grNet hl R₀ (fun _ => true)) B (fun p => ⟨feRxns grNet (grNet.momentIds true) (R p) fun _ => true, false, t⟩)
    (fun p => fe_rates grNet (R p) R₀ _ t) (fun _ => 1) (fun _ => 1) 1 4 0 3 [0] (some [0]) (fun p => decide (p.1 < 1 + p.2)) (fun p _ => exSpace_spacing p.1) c
  refine ⟨ps, fun l hl => ?_⟩
  obtain ⟨J, -, h4⟩ := h3 l hl
  have hU : Usual (exSpace ℝ) exColumns 3 1 0 (c (3, 1) (grNet.dofs true)) := exColumns_usual _ (by rw [h300]; norm_num [Heat.capacity])
  have ht : (exSpace ℝ).heatTimes exColumns 3 1 0 = 1 := by
    rw [heatTimes_eq _ _ _ _ _ (by simp [exColumns, exSpace])]
    simp [exColumns, exSpace]
  refine ⟨J, fun G hG => ?_⟩
  obtain ⟨k1, -, k3⟩ := h4 3 1 (by omega) (by omega) (by omega) (by omega) (grNet.dofs true) ⟨fun _ => sm _ _, fun _ => qu _ _⟩ (fun _ => Or.inr hU.toApart) (fun _ => []) G hG
  refine ⟨k1 (3, 2) _ (by simp), k3 rfl hU (by rw [ht]; decide) h300 (by simp [exSpace]) ?_⟩
  norm_num [h0, h2]

end Space

end Xolotl.Solver.Matrix
