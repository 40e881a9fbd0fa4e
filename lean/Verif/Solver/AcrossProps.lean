import Verif.Solver.Across
import Verif.Solver.BoundaryProps

set_option linter.unusedSectionVars false

/-!
# Grain boundaries across the second dimension in the matrix: properties (C99)
-/

namespace Xolotl.Solver.Matrix

open Xolotl.Solver.Coo Xolotl.Network Xolotl.Transport Line Pattern Conn

namespace Space

variable {d D : ℕ}

/-- What the entry of row `n` at `p` and column `m` at `q` lacks if the terms of the advection have the further coefficients `U`. -/
def rest {P Q : Type} [DecidableEq Q] (S : Setup P Q) (U : ℕ → P → ℕ → List (Q × ℝ)) (skip : P → Bool) (p : P) (n : ℕ) (q : Q) (m : ℕ) : ℝ :=
  if skip p then 0 else (S.adv.zipIdx.map fun ha => (ha.1.ids.zipIdx.map fun ci => if ci.1 = n then (if m = n then netOf (U ha.2 p ci.2) q else 0) else 0).sum).sum

theorem list_deriv {Q : Type} [DecidableEq Q] (c : Q → ℕ → ℝ) (n : ℕ) (q : Q) (m : ℕ) : ∀ l : List (Q × ℝ),
    HasDerivAt (fun x => (l.map fun u => u.2 * upd c q m x u.1 n).sum) (if m = n then netOf l q else 0) (c q m)
  | [] => by simpa [netOf_nil] using hasDerivAt_const (c q m) (0 : ℝ)
  | u :: l => by
    simp only [List.map_cons, List.sum_cons, netOf_cons]
    refine (((upd_deriv c q m u.1 n).const_mul u.2).add (list_deriv c n q m l)).congr_deriv ?_
    by_cases hm : m = n
    · by_cases ha : u.1 = q <;> simp [hm, ha]
    · simp [hm, Ne.symm hm]

/-- Where the terms are linear and have the numbers as coefficients in the announced columns and, in the advection, further coefficients `U` in any columns, the matrix lacks just these. -/
theorem linear_rest {P Q : Type} [DecidableEq P] [DecidableEq Q] (M₀ : Network d ℝ) (hw : ∀ r ∈ M₀.rxns, r.Within D) (B : Build D (requests M₀.rxns)) (M : P → Network d ℝ)
    (hM : ∀ p, (M p).rxns.map Rxn.connectivity = M₀.rxns.map Rxn.connectivity) (depth spacing : P → ℝ) (S : Setup P Q) (hnw : S.nw = FillMap.pairs D (FillMap.diagonal B.crs D)) (hn : S.points.Nodup) (s : ℕ) (hs : ∀ p, (S.cols p).length = s)
    (hadv : ∀ p, ∀ h ∈ S.adv, h.ids.length = nAdvec S ∧ h.reg p = h.real p) (skip : P → Bool) (c : Q → ℕ → ℝ) :
    ∃ ps : P → List (List (ℕ × ℝ)), (∀ p, ((M p).partialThreads (c (S.self p)) (depth p) (spacing p)).mapM (place B.crs) = some (ps p)) ∧ ∀ V : Values P ℝ, (∀ p, Interleaves (ps p) (V.nw p)) →
      ∃ J, rhsJacobian S V s skip (fun _ => false) (fresh S) = some (fresh S, J) ∧
        ∀ (T : Terms P Q ℝ) (U : ℕ → P → ℕ → List (Q × ℝ)), (∀ p c, T.temp p c = 0) → (∀ p k, V.temp p k = 0) →
          (∀ p, skip p = false → ∀ (b : ℕ) ids, S.blocks[b]? = some ids → ∀ (k n : ℕ), ids[k]? = some n → ∀ c, T.block b p k c = ((S.cols p).zipIdx.map fun qk => V.block b p k qk.2 * c qk.1 n).sum) →
          (∀ p, skip p = false → ∀ (a : ℕ) h, S.adv[a]? = some h → ∀ (k n : ℕ), h.ids[k]? = some n → ∀ c,
            T.adv a p k c = (V.adv a p k).1 * c (h.reg p).1 n + (V.adv a p k).2 * c (h.reg p).2 n + ((U a p k).map fun u => u.2 * c u.1 n).sum) →
          (∀ p c', Interleaves ((M p).fluxThreads c' (depth p) (spacing p)) (T.nw p c')) →
          ∀ p ∈ S.points, ∀ n, Row skip (M p) (c (S.self p)) p n → ∀ q m, HasDerivAt (fun x => F S T skip (fun _ => false) (upd c q m x) p n) (J ((p, n), (q, m)) + rest S U skip p n q m) (c q m) := by
  obtain ⟨ps, h1, h2⟩ := linear_jacobian M₀ hw B M hM depth spacing S hnw hn s hs hadv skip c
  refine ⟨ps, h1, fun V hV => ?_⟩
  obtain ⟨J, hJ, h3⟩ := h2 V hV
  refine ⟨J, hJ, fun T U ht hvt hb ha hG p hp n R q m => ?_⟩
  let X : ℕ → P → ℕ → (Q → ℕ → ℝ) → ℝ := fun a p k c => (S.adv[a]?).elim 0 fun h => (h.ids[k]?).elim 0 fun n => ((U a p k).map fun u => u.2 * c u.1 n).sum
  let T' : Terms P Q ℝ := { T with adv := fun a p k c => T.adv a p k c - X a p k c }
  have e : T = { T' with adv := fun a p k c => T'.adv a p k c + X a p k c } := by simp [T']
  have base := h3 T' ht hvt hb (fun p hk a h hh k n hi c => by
    rw [← (hadv p h (List.mem_of_getElem? hh)).2]
    simp only [T', X, hh, hi, Option.elim_some, ha p hk a h hh k n hi c]; ring) hG p hp n R q m
  have hF : ∀ x, F S T skip (fun _ => false) (upd c q m x) p n = F S T' skip (fun _ => false) (upd c q m x) p n +
      if skip p || false then 0 else (S.adv.zipIdx.map fun ha => (ha.1.ids.zipIdx.map fun ci => if ci.1 = n then X ha.2 p ci.2 (upd c q m x) else 0).sum).sum := fun x => by
    conv_lhs => rw [e]
    exact F_adv S T' X skip (fun _ => false) (upd c q m x) p n
  simp only [hF]
  refine base.add ?_
  rw [rest]
  cases hk : skip p
  · simp only [Bool.or_self, Bool.false_eq_true, if_false]
    refine sum_deriv (fun (ha : Handler P Q × ℕ) x => (ha.1.ids.zipIdx.map fun ci => if ci.1 = n then X ha.2 p ci.2 (upd c q m x) else 0).sum) _ _ _ fun ha hha => ?_
    refine sum_deriv (fun (ci : ℕ × ℕ) x => if ci.1 = n then X ha.2 p ci.2 (upd c q m x) else 0) _ _ _ fun ci hci => ?_
    by_cases hcn : ci.1 = n
    · have e1 : S.adv[ha.2]? = some ha.1 := List.mem_zipIdx_iff_getElem?.mp hha
      have e2 : ha.1.ids[ci.2]? = some n := by rw [← hcn]; exact List.mem_zipIdx_iff_getElem?.mp hci
      simp only [hcn, if_true, X, e1, e2, Option.elim_some]
      exact list_deriv c n q m _
    · simpa [hcn] using hasDerivAt_const (c q m) (0 : ℝ)
  · simpa using hasDerivAt_const (c q m) (0 : ℝ)

/-- Nothing is lacking in the columns of other degrees of freedom. -/
theorem rest_zero {P Q : Type} [DecidableEq Q] (S : Setup P Q) (U : ℕ → P → ℕ → List (Q × ℝ)) (skip : P → Bool) (p : P) (n : ℕ) (q : Q) (m : ℕ)
    (h : m ≠ n ∨ ∀ a k, ∀ h, S.adv[a]? = some h → h.ids[k]? = some n → netOf (U a p k) q = 0) : rest S U skip p n q m = 0 := by
  rw [rest]
  cases hk : skip p
  swap
  · simp
  · simp only [Bool.false_eq_true, if_false]
    refine List.sum_eq_zero fun y hy => ?_
    obtain ⟨ha, hha, rfl⟩ := List.mem_map.mp hy
    refine List.sum_eq_zero fun y hy => ?_
    obtain ⟨ci, hci, rfl⟩ := List.mem_map.mp hy
    rcases h with h | h
    · simp [h]
    · by_cases e : ci.1 = n
      · have := h ha.2 ci.2 ha.1 (List.mem_zipIdx_iff_getElem?.mp hha) (by rw [← e]; exact List.mem_zipIdx_iff_getElem?.mp hci)
        simp [this]
      · simp [e]

variable (E : Space ℝ) (H : Bounds ℝ) (hY : ℝ)

/-- The coefficients that the announcement of a boundary beyond the first row misplaces in row `y`: none below the boundary; above it that of the upper neighbour, which is put to the lower one; on it that of the upper neighbour, which is put to the point itself. -/
noncomputable def misplaced (loc : ℝ) (x y k n : ℕ) : List ((ℤ × ℤ) × ℝ) :=
  if |loc - y * hY| < 1 / 1000 then
    [(((x : ℤ), (y : ℤ) + 1), 3 * H.sink k * (E.dif x n).mid / (E.kB * (E.temp x).mid * hY ^ 5)), (((x : ℤ), (y : ℤ)), -(3 * H.sink k * (E.dif x n).mid / (E.kB * (E.temp x).mid * hY ^ 5)))]
  else if y * hY < loc then []
  else
    [(((x : ℤ), (y : ℤ) + 1), 3 * H.sink k * (E.dif x n).mid / (E.kB * (E.temp x).mid * hY * (y * hY - loc + hY) ^ 4)),
      (((x : ℤ), (y : ℤ) - 1), -(3 * H.sink k * (E.dif x n).mid / (E.kB * (E.temp x).mid * hY * (y * hY - loc + hY) ^ 4)))]

/-- For a boundary beyond the first row the point itself and its lower neighbour are announced, in every row. -/
theorem announced_low (loc : ℝ) (hloc : 1 / 1000 ≤ loc) (y : ℕ) : announcedY loc y = ((y : ℤ), (y : ℤ) - 1) := by
  have n0 : ¬Adv.onSink loc 0 := by
    unfold Adv.onSink; rw [sub_zero, abs_of_pos (by linarith)]; linarith
  unfold announcedY advCols Adv.stencil
  simp only [n0, decide_false, Bool.false_eq_true, if_false]
  rw [if_neg (by linarith : ¬(0 : ℝ) > loc), if_pos (by linarith : (0 : ℝ) < loc)]
  simp [sub_eq_add_neg]

/-- The stencil of two dimensions never makes the handler throw. -/
theorem across_defined (loc : ℝ) (x y k n : ℕ) (c : ℤ → ℝ) :
    Adv.yConc 5 (H.sink k) E.kB loc (y * hY) hY (E.dif x n).mid (E.temp x).mid (fun i => if i = 3 then c ((y : ℤ) - 1) else if i = 4 then c ((y : ℤ) + 1) else c y) = some (E.acrossRate H hY loc x y k n c) := by
  unfold acrossRate
  rw [Adv.y_eq 5 le_rfl, Option.getD_some]

/-- The rate in the announced columns and the misplaced coefficients. -/
theorem across_eq (loc : ℝ) (hloc : 1 / 1000 ≤ loc) (x y k n : ℕ) (c : ℤ × ℤ → ℝ) :
    E.acrossRate H hY loc x y k n (fun r => c ((x : ℤ), r)) = (E.acrossPart H hY loc x y k n).1 * c ((x : ℤ), (announcedY loc y).1) + (E.acrossPart H hY loc x y k n).2 * c ((x : ℤ), (announcedY loc y).2) +
      ((E.misplaced H hY loc x y k n).map fun u => u.2 * c u.1).sum := by
  rw [announced_low loc hloc]
  unfold acrossRate acrossPart misplaced
  rw [Adv.y_eq 5 le_rfl]
  by_cases h : Adv.onSink loc ((y : ℝ) * hY)
  · have h' : |loc - (y : ℝ) * hY| < 1 / 1000 := h
    simp only [h, h', if_true, Option.getD_some, Adv.yPart, List.map_cons, List.map_nil, List.sum_cons, List.sum_nil]
    norm_num
    ring
  · have h' : ¬|loc - (y : ℝ) * hY| < 1 / 1000 := h
    rcases Adv.cmp_cases loc _ h with ⟨a, b⟩ | ⟨a, b⟩
    · have ab : |loc - (y : ℝ) * hY| = y * hY - loc := by rw [abs_of_neg (by linarith)]; ring
      rw [((Adv.stencil_away loc _ h).1).mpr a]
      rw [if_neg h', if_neg b]
      simp only [h, if_false, Option.getD_some, Adv.yPart, ab, List.map_cons, List.map_nil, List.sum_cons, List.sum_nil, Adv.nbr, if_true]
      generalize (y : ℝ) * hY - loc + hY = b
      generalize (y : ℝ) * hY - loc = a
      norm_num
      ring
    · rw [((Adv.stencil_away loc _ h).2).mpr a]
      simp only [h, h', a, if_false, if_true, Option.getD_some, List.map_nil, List.sum_nil, add_zero, Adv.nbr]
      norm_num

/-- The further coefficients of a handler: none towards the surface. -/
noncomputable def extra (ids : List ℕ) (a x y k : ℕ) : List ((ℤ × ℤ) × ℝ) := if a = 0 then [] else E.misplaced H hY (H.locs.getD (a - 1) 0) x y k (ids.getD k 0)

/-- The handlers of the boundaries, numbered from 1 on, misplace the sum over the boundaries. -/
theorem rest_sum (S : Setup (ℕ × ℕ) (ℤ × ℤ)) (surf : Handler (ℕ × ℕ) (ℤ × ℤ)) (f : ℝ → Handler (ℕ × ℕ) (ℤ × ℤ)) (ids : List ℕ) (hf : ∀ loc, (f loc).ids = ids) (hS : S.adv = surf :: H.locs.map f) (skip : ℕ × ℕ → Bool) (p : ℕ × ℕ) (hk : skip p = false)
    (hnd : ids.Nodup) (k n : ℕ) (hi : ids[k]? = some n) (q : ℤ × ℤ) :
    rest S (fun a p k => E.extra H hY ids a p.1 p.2 k) skip p n q n = (H.locs.map fun loc => netOf (E.misplaced H hY loc p.1 p.2 k n) q).sum := by
  have hg : ids.getD k 0 = n := by simp [List.getD, hi]
  rw [rest, hk, hS, List.zipIdx_cons, List.map_cons, List.sum_cons]
  have z : (surf.ids.zipIdx.map fun ci => if ci.1 = n then netOf (E.extra H hY ids 0 p.1 p.2 ci.2) q else 0).sum = 0 := by
    refine List.sum_eq_zero fun y hy => ?_
    obtain ⟨ci, -, rfl⟩ := List.mem_map.mp hy
    simp [extra, netOf_nil]
  simp only [Bool.false_eq_true, if_false, if_true]
  rw [z, zero_add, zero_add, List.zipIdx_map, List.map_map]
  refine zipIdx_sum _ _ _ _ fun la hla => ?_
  have e := List.mem_zipIdx hla
  have e1 : H.locs.getD (la.2 - 1) 0 = la.1 := by
    rw [List.getD_eq_getElem?_getD, List.getElem?_eq_getElem (by omega)]
    exact e.2.2.symm
  have e2 : la.2 ≠ 0 := by omega
  simp only [Function.comp, Prod.map, id, hf]
  rw [once_sum (fun k => netOf (E.extra H hY ids la.2 p.1 p.2 k) q) n ids 0 k hnd hi]
  simp only [zero_add, extra, e2, if_false, e1, hg]

/-- **C99** In two dimensions with grain boundaries across `y` beyond the first row, for any number and locations of them: in the rows below all boundaries every entry of the matrix is the derivative of the right-hand side; elsewhere it is but for the
columns of an advecting cluster in its own row, where the derivative by the upper neighbour is missing and was added to the lower neighbour (above a boundary) or to the point itself (on a boundary), so that the matrix is wrong above every single boundary. -/
theorem across_boundary_partial (M₀ : Network d ℝ) (hw : ∀ r ∈ M₀.rxns, r.Within D) (B : Build D (requests M₀.rxns)) (M : ℕ × ℕ → Network d ℝ) (hM : ∀ p, (M p).rxns.map Rxn.connectivity = M₀.rxns.map Rxn.connectivity)
    (depth spacing : ℕ × ℕ → ℝ) (xs xm ys ym : ℕ) (dif surf ids : List ℕ) (hlen : surf.length = ids.length) (hloc : ∀ loc ∈ H.locs, 1 / 1000 ≤ loc) (skip : ℕ × ℕ → Bool)
    (hsp : ∀ p, skip p = false → hxLeft E.grid p.1 ≠ 0 ∧ hxRight E.nX E.grid p.1 ≠ 0 ∧ hxLeft E.grid p.1 + hxRight E.nX E.grid p.1 ≠ 0) (c : ℤ × ℤ → ℕ → ℝ) :
    ∃ ps : ℕ × ℕ → List (List (ℕ × ℝ)), (∀ p, ((M p).partialThreads (c (p.1, p.2)) (depth p) (spacing p)).mapM (place B.crs) = some (ps p)) ∧ ∀ l : ℕ × ℕ → List (ℕ × ℝ), (∀ p, Interleaves (ps p) (l p)) →
      ∃ J, rhsJacobian (acrossSetup H D xs xm ys ym dif surf ids (FillMap.pairs D (FillMap.diagonal B.crs D))) (E.acrossValues H hY dif surf ids l) 5 skip (fun _ => false)
          (fresh (acrossSetup H D xs xm ys ym dif surf ids (FillMap.pairs D (FillMap.diagonal B.crs D)))) =
            some (fresh (acrossSetup H D xs xm ys ym dif surf ids (FillMap.pairs D (FillMap.diagonal B.crs D))), J) ∧
        ∀ i j, xs ≤ i → i < xs + xm → ys ≤ j → j < ys + ym → ∀ n, Row skip (M (i, j)) (c (i, j)) (i, j) n → ∀ (src : ℕ × ℕ → List (ℕ × ℝ)) (G : ℕ × ℕ → (ℕ → ℝ) → List (ℕ × ℝ)),
          (∀ p c', Interleaves ((M p).fluxThreads c' (depth p) (spacing p)) (G p c')) →
          (∀ (q : ℤ × ℤ) (m : ℕ), (∀ loc ∈ H.locs, j * hY + 1 / 1000 ≤ loc) ∨ m ≠ n ∨ n ∉ ids →
            HasDerivAt (fun x => F (acrossSetup H D xs xm ys ym dif surf ids (FillMap.pairs D (FillMap.diagonal B.crs D))) (E.acrossTerms H hY dif surf ids src G) skip (fun _ => false) (upd c q m x) (i, j) n) (J (((i, j), n), (q, m))) (c q m)) ∧
          (∀ (q : ℤ × ℤ) (k : ℕ), skip (i, j) = false → ids.Nodup → ids[k]? = some n →
            HasDerivAt (fun x => F (acrossSetup H D xs xm ys ym dif surf ids (FillMap.pairs D (FillMap.diagonal B.crs D))) (E.acrossTerms H hY dif surf ids src G) skip (fun _ => false) (upd c q n x) (i, j) n)
              (J (((i, j), n), (q, n)) + (H.locs.map fun loc => netOf (E.misplaced H hY loc i j k n) q).sum) (c q n)) ∧
          (∀ (loc : ℝ) (k : ℕ), skip (i, j) = false → ids.Nodup → ids[k]? = some n → H.locs = [loc] → loc - 1 / 1000 < j * hY → 0 < hY → H.sink k ≠ 0 → (E.dif i n).mid ≠ 0 → E.kB ≠ 0 → (E.temp i).mid ≠ 0 →
            ¬HasDerivAt (fun x => F (acrossSetup H D xs xm ys ym dif surf ids (FillMap.pairs D (FillMap.diagonal B.crs D))) (E.acrossTerms H hY dif surf ids src G) skip (fun _ => false) (upd c ((i : ℤ), (j : ℤ) + 1) n x) (i, j) n)
              (J (((i, j), n), (((i : ℤ), (j : ℤ) + 1), n))) (c ((i : ℤ), (j : ℤ) + 1) n)) := by
  set S := acrossSetup H D xs xm ys ym dif surf ids (FillMap.pairs D (FillMap.diagonal B.crs D)) with hS
  let sf : Handler (ℕ × ℕ) (ℤ × ℤ) := ⟨surf, fun p => ((p.1, p.2), (p.1 + 1, p.2)), fun p => ((p.1, p.2), (p.1 + 1, p.2))⟩
  let f : ℝ → Handler (ℕ × ℕ) (ℤ × ℤ) := fun loc => ⟨ids, fun p => ((p.1, (announcedY loc p.2).1), (p.1, (announcedY loc p.2).2)), fun p => ((p.1, (announcedY loc p.2).1), (p.1, (announcedY loc p.2).2))⟩
  have hA : S.adv = sf :: H.locs.map f := rfl
  obtain ⟨ps, h1, h2⟩ := linear_rest M₀ hw B M hM depth spacing S rfl (points2_nodup xs xm ys ym) 5 (fun _ => rfl)
    (fun p h hh => ⟨nAdvec_same S sf f ids H.locs (fun _ => rfl) hA hlen h hh, by
      rw [hA, List.mem_cons] at hh
      rcases hh with rfl | hh
      · rfl
      · obtain ⟨loc, -, rfl⟩ := List.mem_map.mp hh
        rfl⟩) skip c
  refine ⟨ps, h1, fun l hl => ?_⟩
  obtain ⟨J, hJ, h3⟩ := h2 (E.acrossValues H hY dif surf ids l) hl
  refine ⟨J, hJ, fun i j hi1 hi2 hj1 hj2 n R src G hG => ?_⟩
  have key := fun q m => h3 (E.acrossTerms H hY dif surf ids src G) (fun a p k => E.extra H hY ids a p.1 p.2 k) (fun _ _ => rfl) (fun _ _ => rfl) (fun p hp b ids' hb k n hk c => by
      match b with
      | 0 =>
        have : ids' = dif := by simpa [hS, acrossSetup, setup2] using hb.symm
        subst this
        have hn : ids'.getD k 0 = n := by simp [List.getD, hk]
        obtain ⟨g1, g2, g3⟩ := hsp p hp
        simp only [acrossTerms, acrossValues, terms2, values2, hn]
        rw [conc2_eq _ _ _ g1 g2 g3]
        simp [hS, acrossSetup, setup2, cols2, List.zipIdx_cons, nth]
        ring
      | b + 1 => simp [hS, acrossSetup, setup2] at hb) (fun p hp a h ha k n hk c => by
      rw [hA] at ha
      match a with
      | 0 =>
        have e : h = sf := by simpa using ha.symm
        subst e
        have hn : surf.getD k 0 = n := by simp [List.getD, show surf[k]? = some n from hk]
        simp only [acrossTerms, acrossValues, terms2, values2, extra, if_true, hn, advRate, advPart, Adv.surf_eq, sf, List.map_nil, List.sum_nil, add_zero]
      | a + 1 =>
        rw [List.getElem?_cons_succ, List.getElem?_map, Option.map_eq_some_iff] at ha
        obtain ⟨loc, hl, rfl⟩ := ha
        have hn : ids.getD k 0 = n := by simp [List.getD, show ids[k]? = some n from hk]
        have hl' : H.locs.getD a 0 = loc := by simp [List.getD, hl]
        simp only [acrossTerms, acrossValues, extra, Nat.succ_ne_zero, if_false, Nat.add_sub_cancel, hn, hl', f]
        exact E.across_eq H hY loc (hloc loc (List.mem_of_getElem? hl)) p.1 p.2 k n fun r => c r n) hG (i, j)
    (List.mem_flatMap.mpr ⟨j, List.mem_range'_1.mpr ⟨hj1, hj2⟩, List.mem_map.mpr ⟨i, List.mem_range'_1.mpr ⟨hi1, hi2⟩, rfl⟩⟩) n R q m
  have on : ∀ (q : ℤ × ℤ) (k : ℕ), skip (i, j) = false → ids.Nodup → ids[k]? = some n → HasDerivAt (fun x => F S (E.acrossTerms H hY dif surf ids src G) skip (fun _ => false) (upd c q n x) (i, j) n)
      (J (((i, j), n), (q, n)) + (H.locs.map fun loc => netOf (E.misplaced H hY loc i j k n) q).sum) (c q n) := fun q k hk hnd hi => by
    refine (key q n).congr_deriv ?_
    rw [E.rest_sum H hY S sf f ids (fun _ => rfl) hA skip (i, j) hk hnd k n hi q]
  refine ⟨fun q m hq => ?_, on, fun loc k hk hnd hi hl hj h0 s1 s2 s3 s4 hder => ?_⟩
  · refine (key q m).congr_deriv ?_
    rw [rest_zero, add_zero]
    rcases hq with hq | hq | hq
    · refine Or.inr fun a k h ha hh => ?_
      rw [hA] at ha
      match a with
      | 0 => simp [extra, netOf_nil]
      | a + 1 =>
        rw [List.getElem?_cons_succ, List.getElem?_map, Option.map_eq_some_iff] at ha
        obtain ⟨loc, hl, rfl⟩ := ha
        have hl' : H.locs.getD a 0 = loc := by simp [List.getD, hl]
        have hq' := hq loc (List.mem_of_getElem? hl)
        have g1 : ¬|loc - (j : ℝ) * hY| < 1 / 1000 := not_lt.mpr (le_trans (by linarith) (le_abs_self _))
        have g2 : (j : ℝ) * hY < loc := by linarith
        simp only [extra, misplaced, Nat.succ_ne_zero, if_false, Nat.add_sub_cancel, hl', if_neg g1, if_pos g2, netOf_nil]
    · exact Or.inl hq
    · refine Or.inr fun a k h ha hh => ?_
      rw [hA] at ha
      match a with
      | 0 => simp [extra, netOf_nil]
      | a + 1 =>
        rw [List.getElem?_cons_succ, List.getElem?_map, Option.map_eq_some_iff] at ha
        obtain ⟨loc, hl, rfl⟩ := ha
        exact absurd (List.mem_of_getElem? hh) hq
  · have e := hder.unique (on _ k hk hnd hi)
    rw [hl, List.map_singleton, List.sum_singleton] at e
    have e' : netOf (E.misplaced H hY loc i j k n) ((i : ℤ), (j : ℤ) + 1) = 0 := by linarith
    have n1 : ¬((i : ℤ), (j : ℤ)) = ((i : ℤ), (j : ℤ) + 1) := fun h => by have := congrArg Prod.snd h; simp only at this; omega
    have n2 : ¬((i : ℤ), (j : ℤ) - 1) = ((i : ℤ), (j : ℤ) + 1) := fun h => by have := congrArg Prod.snd h; simp only at this; omega
    unfold misplaced at e'
    by_cases h : |loc - (j : ℝ) * hY| < 1 / 1000
    · rw [if_pos h] at e'
      simp only [netOf_cons, netOf_nil, if_true, if_neg n1, add_zero] at e'
      exact absurd e' (by positivity)
    · have h4 : loc ≤ (j : ℝ) * hY := by
        by_contra h5
        push Not at h5
        exact h (by rw [abs_of_pos (by linarith)]; linarith)
      rw [if_neg h, if_neg (not_lt.mpr h4)] at e'
      simp only [netOf_cons, netOf_nil, if_true, if_neg n2, add_zero] at e'
      have h6 : (j : ℝ) * hY - loc + hY ≠ 0 := by linarith [sub_nonneg.mpr h4] |> fun (h : 0 < (j : ℝ) * hY - loc + hY) => h.ne'
      exact absurd e' (by positivity)

open Dispatch in
/-- The iron network `grNet` with a boundary across `y` at 3/2 and rows one apart: right entries in the row below, a wrong one in the row above. -/
example (R₀ : Rates ℝ) (R : ℕ × ℕ → Rates ℝ) (t : TmData ℝ) (c : ℤ × ℤ → ℕ → ℝ) : ∃ B : Build (grNet.dofs true) (requests (feRxns grNet (grNet.momentIds true) R₀ fun _ => true)),
    ∃ ps : ℕ × ℕ → List (List (ℕ × ℝ)), ∀ l : ℕ × ℕ → List (ℕ × ℝ), (∀ p, Interleaves (ps p) (l p)) → ∃ J : Entry (ℕ × ℕ) (ℤ × ℤ) → ℝ, ∀ (G : ℕ × ℕ → (ℕ → ℝ) → List (ℕ × ℝ)),
      (∀ p c', Interleaves ((⟨feRxns grNet (grNet.momentIds true) (R p) fun _ => true, false, t⟩ : Network 2 ℝ).fluxThreads c' 1 1) (G p c')) →
        (∀ n q m, HasDerivAt (fun x => F (acrossSetup (⟨[3 / 2], fun _ => 1⟩ : Bounds ℝ) (grNet.dofs true) 1 4 0 3 [0] [0] [0] (FillMap.pairs (grNet.dofs true) (FillMap.diagonal B.crs (grNet.dofs true)))) ((exSpace ℝ).acrossTerms ⟨[3 / 2], fun _ => 1⟩ 1 [0] [0] [0] (fun _ => []) G)
          (fun p => decide (p.1 < 1)) (fun _ => false) (upd c q m x) (3, 1) n) (J (((3, 1), n), (q, m))) (c q m)) ∧
        ¬HasDerivAt (fun x => F (acrossSetup (⟨[3 / 2], fun _ => 1⟩ : Bounds ℝ) (grNet.dofs true) 1 4 0 3 [0] [0] [0] (FillMap.pairs (grNet.dofs true) (FillMap.diagonal B.crs (grNet.dofs true)))) ((exSpace ℝ).acrossTerms ⟨[3 / 2], fun _ => 1⟩ 1 [0] [0] [0] (fun _ => []) G)
          (fun p => decide (p.1 < 1)) (fun _ => false) (upd c (((3 : ℕ) : ℤ), ((2 : ℕ) : ℤ) + 1) 0 x) (3, 2) 0) (J (((3, 2), 0), ((((3 : ℕ) : ℤ), ((2 : ℕ) : ℤ) + 1), 0))) (c (((3 : ℕ) : ℤ), ((2 : ℕ) : ℤ) + 1) 0) := by
  have hl : Laid grNet := ⟨grNet_ready.lay, grNet_ready.singleI, grNet_ready.singleV⟩
  obtain ⟨B⟩ := build_exists (grNet.dofs true) (requests (feRxns grNet (grNet.momentIds true) R₀ fun _ => true)) (within_rows (fe_within grNet hl R₀ _))
  have sm : ∀ (R : Rates ℝ) (c : ℕ → ℝ), Smooth (⟨feRxns grNet (grNet.momentIds true) R fun _ => true, false, t⟩ : Network 2 ℝ) c := fun R c => (fe_regular grNet R _ t c 0).1
  have qu : ∀ (R : Rates ℝ) (n : ℕ), Quiet (⟨feRxns grNet (grNet.momentIds true) R fun _ => true, false, t⟩ : Network 2 ℝ) n := fun R n => (fe_regular grNet R _ t (fun _ => 0) n).2
  obtain ⟨ps, -, h2⟩ := across_boundary_partial (exSpace ℝ) ⟨[3 / 2], fun _ => 1⟩ 1 ⟨feRxns grNet (grNet.momentIds true) R₀ fun _ => true, false, t⟩ (fe_within grNet hl R₀ (fun _ => true)) B (fun p => ⟨feRxns grNet (grNet.momentIds true) (R p) fun _ => true, false, t⟩)
    (fun p => fe_rates grNet (R p) R₀ _ t) (fun _ => 1) (fun _ => 1) 1 4 0 3 [0] [0] [0] rfl (fun loc h => by rw [List.mem_singleton.mp h]; norm_num) (fun p => decide (p.1 < 1)) (fun p _ => exSpace_spacing p.1) c
  refine ⟨B, ps, fun l hl => ?_⟩
  obtain ⟨J, -, h3⟩ := h2 l hl
  refine ⟨J, fun G hG => ⟨fun n q m => (h3 3 1 (by omega) (by omega) (by omega) (by omega) n ⟨fun _ => sm _ _, fun _ => qu _ _⟩ (fun _ => []) G hG).1 q m (Or.inl fun loc h => by rw [List.mem_singleton.mp h]; norm_num), ?_⟩⟩
  exact (h3 3 2 (by omega) (by omega) (by omega) (by omega) 0 ⟨fun _ => sm _ _, fun _ => qu _ _⟩ (fun _ => []) G hG).2.2 (3 / 2) 0 (by decide) (by simp) rfl rfl
    (by norm_num) one_pos one_ne_zero (by norm_num [exSpace]) (by norm_num [exSpace]) (by norm_num [exSpace])

/-- Without diffusion, towards a boundary at 3/2 between the rows 1 and 2: in row 2 the number of row 3 stands in the column of row 1. -/
example : (rhsJacobian (acrossSetup (⟨[3 / 2], fun _ => 300⟩ : Bounds ℚ) 1 1 1 1 2 [] [0] [0] [(0, 0)]) ({ (exSpace ℚ) with sink := fun _ => 0 }.acrossValues ⟨[3 / 2], fun _ => 300⟩ 1 [] [0] [0] fun _ => []) 5 (fun _ => false) (fun _ => false)
      (fresh (acrossSetup (⟨[3 / 2], fun _ => 300⟩ : Bounds ℚ) 1 1 1 1 2 [] [0] [0] [(0, 0)]))).map
    (fun r => [r.2 (((1, 1), 0), ((1, 0), 0)), r.2 (((1, 1), 0), ((1, 1), 0)), r.2 (((1, 1), 0), ((1, 2), 0)), r.2 (((1, 2), 0), ((1, 1), 0)), r.2 (((1, 2), 0), ((1, 2), 0)), r.2 (((1, 2), 0), ((1, 3), 0))]) =
      some [16 / 81, -16, 0, 16 / 81, -16, 0] := by decide +kernel

end Space

end Xolotl.Solver.Matrix
