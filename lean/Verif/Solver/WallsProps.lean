import Verif.Solver.Walls
import Verif.Solver.AcrossProps

set_option linter.unusedSectionVars false

/-!
# Grain boundaries across the second and third dimension in the matrix of three dimensions: properties (C99)
-/

namespace Xolotl.Solver.Matrix

open Xolotl.Solver.Coo Xolotl.Network Xolotl.Transport Line Pattern Conn

namespace Space

variable {d D : ℕ}

variable (E : Space ℝ) (W : Walls ℝ)

/-- The row of a point that counts for a boundary across `z` (`true`) or `y` (`false`). -/
def rowOf : Bool → ℕ × ℕ × ℕ → ℕ
  | true, (_, _, z) => z
  | false, (_, y, _) => y

/-- The point with the row `r` in place of that. -/
def spotOf : Bool → ℕ × ℕ × ℕ → ℤ → ℤ × ℤ × ℤ
  | true, (x, y, _), r => (x, y, r)
  | false, (x, _, z), r => (x, r, z)

/-- The distance of the rows. -/
def gapOf : Bool → ℝ
  | true => W.hZ
  | false => W.hY

theorem row_eq (z : Bool) (p : ℕ × ℕ × ℕ) : rowOf z p = along z p := by cases z <;> rfl

theorem spot_eq (z : Bool) (p : ℕ × ℕ × ℕ) (r : ℤ) : spotOf z p r = across z p r := by cases z <;> rfl

/-- The coefficients that the announcement misplaces, by row of the direction: none below the boundary; above it that of the upper neighbour, which is put to the lower one; on it that of the upper neighbour, which is put to the point itself. -/
noncomputable def displaced (w : Bool × ℝ) (x r k n : ℕ) : List (ℤ × ℝ) :=
  if |w.2 - r * gapOf W w.1| < 1 / 1000 then
    [((r : ℤ) + 1, 3 * W.sink k * (E.dif x n).mid / (E.kB * (E.temp x).mid * gapOf W w.1 ^ 5)), ((r : ℤ), -(3 * W.sink k * (E.dif x n).mid / (E.kB * (E.temp x).mid * gapOf W w.1 ^ 5)))]
  else if r * gapOf W w.1 < w.2 then []
  else
    [((r : ℤ) + 1, 3 * W.sink k * (E.dif x n).mid / (E.kB * (E.temp x).mid * gapOf W w.1 * (r * gapOf W w.1 - w.2 + gapOf W w.1) ^ 4)),
      ((r : ℤ) - 1, -(3 * W.sink k * (E.dif x n).mid / (E.kB * (E.temp x).mid * gapOf W w.1 * (r * gapOf W w.1 - w.2 + gapOf W w.1) ^ 4)))]

/-- The stencil of three dimensions never makes a handler throw. -/
theorem wall_defined (loc : ℝ) (x r k n : ℕ) (c : ℤ → ℝ) :
    Adv.yConc 7 (W.sink k) E.kB loc (r * W.hY) W.hY (E.dif x n).mid (E.temp x).mid (fun i => if i = 3 then c ((r : ℤ) - 1) else if i = 4 then c ((r : ℤ) + 1) else c r) = some (E.wallRate W (false, loc) x r k n c) ∧
    Adv.zConc 7 (W.sink k) E.kB loc (r * W.hZ) W.hZ (E.dif x n).mid (E.temp x).mid (fun i => if i = 5 then c ((r : ℤ) - 1) else if i = 6 then c ((r : ℤ) + 1) else c r) = some (E.wallRate W (true, loc) x r k n c) := by
  unfold wallRate
  constructor
  · rw [Adv.y_eq 7 (by omega)]; simp only [Bool.false_eq_true, if_false, Option.getD_some]
  · rw [Adv.z_eq 7 (by omega)]; simp only [if_true, Option.getD_some]

/-- The rate in the announced columns and the misplaced coefficients. -/
theorem wall_eq (w : Bool × ℝ) (hloc : 1 / 1000 ≤ w.2) (x r k n : ℕ) (c : ℤ → ℝ) :
    E.wallRate W w x r k n c = (E.wallPart W w x r k n).1 * c (announcedY w.2 r).1 + (E.wallPart W w x r k n).2 * c (announcedY w.2 r).2 + ((E.displaced W w x r k n).map fun u => u.2 * c u.1).sum := by
  rw [announced_low w.2 hloc]
  obtain ⟨z, loc⟩ := w
  unfold wallRate wallPart displaced
  cases z
  · simp only [Bool.false_eq_true, if_false, gapOf]
    rw [Adv.y_eq 7 (by omega)]
    by_cases ho : Adv.onSink loc ((r : ℝ) * W.hY)
    · have h' : |loc - (r : ℝ) * W.hY| < 1 / 1000 := ho
      simp only [ho, h', if_true, Option.getD_some, Adv.yPart, List.map_cons, List.map_nil, List.sum_cons, List.sum_nil]
      norm_num
      ring
    · have h' : ¬|loc - (r : ℝ) * W.hY| < 1 / 1000 := ho
      rcases Adv.cmp_cases loc _ ho with ⟨a, b⟩ | ⟨a, b⟩
      · have ab : |loc - (r : ℝ) * W.hY| = r * W.hY - loc := by rw [abs_of_neg (by linarith)]; ring
        rw [((Adv.stencil_away loc _ ho).1).mpr a]
        simp only [h', b, if_false]
        simp only [ho, if_false, Option.getD_some, Adv.yPart, ab, List.map_cons, List.map_nil, List.sum_cons, List.sum_nil, Adv.nbr, if_true]
        generalize (r : ℝ) * W.hY - loc + W.hY = b
        generalize (r : ℝ) * W.hY - loc = a
        norm_num
        ring
      · rw [((Adv.stencil_away loc _ ho).2).mpr a]
        simp only [ho, h', a, if_false, if_true, Option.getD_some, List.map_nil, List.sum_nil, add_zero, Adv.nbr]
        norm_num
  · simp only [if_true, gapOf]
    rw [Adv.z_eq 7 (by omega)]
    by_cases ho : Adv.onSink loc ((r : ℝ) * W.hZ)
    · have h' : |loc - (r : ℝ) * W.hZ| < 1 / 1000 := ho
      simp only [ho, h', if_true, Option.getD_some, Adv.zPart, List.map_cons, List.map_nil, List.sum_cons, List.sum_nil]
      norm_num
      ring
    · have h' : ¬|loc - (r : ℝ) * W.hZ| < 1 / 1000 := ho
      rcases Adv.cmp_cases loc _ ho with ⟨a, b⟩ | ⟨a, b⟩
      · have ab : |loc - (r : ℝ) * W.hZ| = r * W.hZ - loc := by rw [abs_of_neg (by linarith)]; ring
        rw [((Adv.stencil_away loc _ ho).1).mpr a]
        simp only [h', b, if_false]
        simp only [ho, if_false, Option.getD_some, Adv.zPart, ab, List.map_cons, List.map_nil, List.sum_cons, List.sum_nil, Adv.nbr, if_true]
        generalize (r : ℝ) * W.hZ - loc + W.hZ = b
        generalize (r : ℝ) * W.hZ - loc = a
        norm_num
        ring
      · rw [((Adv.stencil_away loc _ ho).2).mpr a]
        simp only [ho, h', a, if_false, if_true, Option.getD_some, List.map_nil, List.sum_nil, add_zero, Adv.nbr]
        norm_num

/-- The same by point. -/
noncomputable def displacedAt (w : Bool × ℝ) (p : ℕ × ℕ × ℕ) (k n : ℕ) : List ((ℤ × ℤ × ℤ) × ℝ) := (E.displaced W w p.1 (rowOf w.1 p) k n).map fun u => (spotOf w.1 p u.1, u.2)

/-- The further coefficients of a handler: none towards the surface. -/
noncomputable def wallExtra (ids : List ℕ) (a : ℕ) (p : ℕ × ℕ × ℕ) (k : ℕ) : List ((ℤ × ℤ × ℤ) × ℝ) := if a = 0 then [] else E.displacedAt W (W.wall a) p k (ids.getD k 0)

/-- The handlers of the boundaries, numbered from 1 on, misplace the sum over the boundaries. -/
theorem walls_sum (S : Setup (ℕ × ℕ × ℕ) (ℤ × ℤ × ℤ)) (surf : Handler (ℕ × ℕ × ℕ) (ℤ × ℤ × ℤ)) (f : Bool × ℝ → Handler (ℕ × ℕ × ℕ) (ℤ × ℤ × ℤ)) (ids : List ℕ) (hf : ∀ w, (f w).ids = ids) (hS : S.adv = surf :: W.locs.map f) (skip : ℕ × ℕ × ℕ → Bool)
    (p : ℕ × ℕ × ℕ) (hk : skip p = false) (hnd : ids.Nodup) (k n : ℕ) (hi : ids[k]? = some n) (q : ℤ × ℤ × ℤ) :
    rest S (E.wallExtra W ids) skip p n q n = (W.locs.map fun w => netOf (E.displacedAt W w p k n) q).sum := by
  have hg : ids.getD k 0 = n := by simp [List.getD, hi]
  rw [rest, hk, hS, List.zipIdx_cons, List.map_cons, List.sum_cons]
  have z : (surf.ids.zipIdx.map fun ci => if ci.1 = n then netOf (E.wallExtra W ids 0 p ci.2) q else 0).sum = 0 := by
    refine List.sum_eq_zero fun y hy => ?_
    obtain ⟨ci, -, rfl⟩ := List.mem_map.mp hy
    simp [wallExtra, netOf_nil]
  simp only [Bool.false_eq_true, if_false, if_true]
  rw [z, zero_add, zero_add, List.zipIdx_map, List.map_map]
  refine zipIdx_sum _ _ _ _ fun la hla => ?_
  have e := List.mem_zipIdx hla
  have e1 : W.wall la.2 = la.1 := by
    rw [Walls.wall, List.getD_eq_getElem?_getD, List.getElem?_eq_getElem (by omega)]
    exact e.2.2.symm
  have e2 : la.2 ≠ 0 := by omega
  simp only [Function.comp, Prod.map, id, hf]
  rw [once_sum (fun k => netOf (E.wallExtra W ids la.2 p k) q) n ids 0 k hnd hi]
  simp only [zero_add, wallExtra, e2, if_false, e1, hg]

/-- **C99** In three dimensions with grain boundaries across `y` and `z` beyond the first row, for any number, order and locations of them: at the points below all boundaries every entry of the matrix is the derivative of the right-hand side; elsewhere it
is but for the columns of an advecting cluster in its own row, where the derivative by the upper neighbour of the direction is missing and was added to the lower neighbour (above a boundary) or to the point itself (on a boundary), so that the matrix is
wrong above every single boundary. -/
theorem box_walls_partial (M₀ : Network d ℝ) (hw : ∀ r ∈ M₀.rxns, r.Within D) (B : Build D (requests M₀.rxns)) (M : ℕ × ℕ × ℕ → Network d ℝ) (hM : ∀ p, (M p).rxns.map Rxn.connectivity = M₀.rxns.map Rxn.connectivity)
    (depth spacing : ℕ × ℕ × ℕ → ℝ) (xs xm ys ym zs zm : ℕ) (dif surf ids : List ℕ) (hlen : surf.length = ids.length) (hloc : ∀ w ∈ W.locs, 1 / 1000 ≤ w.2) (skip : ℕ × ℕ × ℕ → Bool)
    (hsp : ∀ p, skip p = false → hxLeft E.grid p.1 ≠ 0 ∧ hxRight E.nX E.grid p.1 ≠ 0 ∧ hxLeft E.grid p.1 + hxRight E.nX E.grid p.1 ≠ 0) (c : ℤ × ℤ × ℤ → ℕ → ℝ) :
    ∃ ps : ℕ × ℕ × ℕ → List (List (ℕ × ℝ)), (∀ p, ((M p).partialThreads (c (p.1, p.2.1, p.2.2)) (depth p) (spacing p)).mapM (place B.crs) = some (ps p)) ∧ ∀ l : ℕ × ℕ × ℕ → List (ℕ × ℝ), (∀ p, Interleaves (ps p) (l p)) →
      ∃ J, rhsJacobian (wallSetup W D xs xm ys ym zs zm dif surf ids (FillMap.pairs D (FillMap.diagonal B.crs D))) (E.wallValues W dif surf ids l) 7 skip (fun _ => false)
          (fresh (wallSetup W D xs xm ys ym zs zm dif surf ids (FillMap.pairs D (FillMap.diagonal B.crs D)))) =
            some (fresh (wallSetup W D xs xm ys ym zs zm dif surf ids (FillMap.pairs D (FillMap.diagonal B.crs D))), J) ∧
        ∀ p : ℕ × ℕ × ℕ, xs ≤ p.1 → p.1 < xs + xm → ys ≤ p.2.1 → p.2.1 < ys + ym → zs ≤ p.2.2 → p.2.2 < zs + zm → ∀ n, Row skip (M p) (c (p.1, p.2.1, p.2.2)) p n → ∀ (src : ℕ × ℕ × ℕ → List (ℕ × ℝ)) (G : ℕ × ℕ × ℕ → (ℕ → ℝ) → List (ℕ × ℝ)),
          (∀ p c', Interleaves ((M p).fluxThreads c' (depth p) (spacing p)) (G p c')) →
          (∀ (q : ℤ × ℤ × ℤ) (m : ℕ), (∀ w ∈ W.locs, rowOf w.1 p * gapOf W w.1 + 1 / 1000 ≤ w.2) ∨ m ≠ n ∨ n ∉ ids →
            HasDerivAt (fun x => F (wallSetup W D xs xm ys ym zs zm dif surf ids (FillMap.pairs D (FillMap.diagonal B.crs D))) (E.wallTerms W dif surf ids src G) skip (fun _ => false) (upd c q m x) p n) (J ((p, n), (q, m))) (c q m)) ∧
          (∀ (q : ℤ × ℤ × ℤ) (k : ℕ), skip p = false → ids.Nodup → ids[k]? = some n →
            HasDerivAt (fun x => F (wallSetup W D xs xm ys ym zs zm dif surf ids (FillMap.pairs D (FillMap.diagonal B.crs D))) (E.wallTerms W dif surf ids src G) skip (fun _ => false) (upd c q n x) p n)
              (J ((p, n), (q, n)) + (W.locs.map fun w => netOf (E.displacedAt W w p k n) q).sum) (c q n)) ∧
          (∀ (w : Bool × ℝ) (k : ℕ), skip p = false → ids.Nodup → ids[k]? = some n → W.locs = [w] → w.2 - 1 / 1000 < rowOf w.1 p * gapOf W w.1 → 0 < gapOf W w.1 → W.sink k ≠ 0 → (E.dif p.1 n).mid ≠ 0 → E.kB ≠ 0 → (E.temp p.1).mid ≠ 0 →
            ¬HasDerivAt (fun x => F (wallSetup W D xs xm ys ym zs zm dif surf ids (FillMap.pairs D (FillMap.diagonal B.crs D))) (E.wallTerms W dif surf ids src G) skip (fun _ => false) (upd c (spotOf w.1 p ((rowOf w.1 p : ℤ) + 1)) n x) p n)
              (J ((p, n), (spotOf w.1 p ((rowOf w.1 p : ℤ) + 1), n))) (c (spotOf w.1 p ((rowOf w.1 p : ℤ) + 1)) n)) := by
  set S := wallSetup W D xs xm ys ym zs zm dif surf ids (FillMap.pairs D (FillMap.diagonal B.crs D)) with hS
  let sf : Handler (ℕ × ℕ × ℕ) (ℤ × ℤ × ℤ) := ⟨surf, fun p => ((p.1, p.2.1, p.2.2), (p.1 + 1, p.2.1, p.2.2)), fun p => ((p.1, p.2.1, p.2.2), (p.1 + 1, p.2.1, p.2.2))⟩
  let f : Bool × ℝ → Handler (ℕ × ℕ × ℕ) (ℤ × ℤ × ℤ) := fun w => ⟨ids, wallCols w, wallCols w⟩
  have hA : S.adv = sf :: W.locs.map f := rfl
  have inj : ∀ (w : Bool) (p : ℕ × ℕ × ℕ) (r s : ℤ), spotOf w p r = spotOf w p s → r = s := fun w p r s h => by
    cases w <;> simp only [spotOf, Prod.mk.injEq] at h <;> omega
  obtain ⟨ps, h1, h2⟩ := linear_rest M₀ hw B M hM depth spacing S rfl (points3_nodup xs xm ys ym zs zm) 7 (fun _ => rfl)
    (fun p h hh => ⟨nAdvec_same S sf f ids W.locs (fun _ => rfl) hA hlen h hh, by
      rw [hA, List.mem_cons] at hh
      rcases hh with rfl | hh
      · rfl
      · obtain ⟨w, -, rfl⟩ := List.mem_map.mp hh
        rfl⟩) skip c
  refine ⟨ps, h1, fun l hl => ?_⟩
  obtain ⟨J, hJ, h3⟩ := h2 (E.wallValues W dif surf ids l) hl
  refine ⟨J, hJ, fun p hi1 hi2 hj1 hj2 hz1 hz2 n R src G hG => ?_⟩
  have hwall : ∀ a w, W.locs[a]? = some w → W.wall (a + 1) = w := fun a w h => by simp [Walls.wall, List.getD, h]
  have mem : p ∈ S.points := by
    obtain ⟨i, j, z⟩ := p
    simp only [hS, wallSetup, setup3, List.mem_flatMap, List.mem_map, List.mem_range'_1]
    exact ⟨z, ⟨hz1, hz2⟩, j, ⟨hj1, hj2⟩, i, ⟨hi1, hi2⟩, rfl⟩
  have key := fun q m => h3 (E.wallTerms W dif surf ids src G) (E.wallExtra W ids) (fun _ _ => rfl) (fun _ _ => rfl) (fun p hp b ids' hb k n hk c => by
      match b with
      | 0 =>
        have : ids' = dif := by simpa [hS, wallSetup, setup3] using hb.symm
        subst this
        have hn : ids'.getD k 0 = n := by simp [List.getD, hk]
        obtain ⟨g1, g2, g3⟩ := hsp p hp
        simp only [wallTerms, wallValues, terms3, values3, hn]
        rw [conc3_eq _ _ _ _ g1 g2 g3]
        simp [hS, wallSetup, setup3, cols3, List.zipIdx_cons, nth]
        ring
      | b + 1 => simp [hS, wallSetup, setup3] at hb) (fun p hp a h ha k n hk c => by
      rw [hA] at ha
      match a with
      | 0 =>
        have e : h = sf := by simpa using ha.symm
        subst e
        have hn : surf.getD k 0 = n := by simp [List.getD, show surf[k]? = some n from hk]
        simp only [wallTerms, wallValues, terms3, values3, wallExtra, if_true, hn, advRate, advPart, Adv.surf_eq, sf, List.map_nil, List.sum_nil, add_zero]
      | a + 1 =>
        rw [List.getElem?_cons_succ, List.getElem?_map, Option.map_eq_some_iff] at ha
        obtain ⟨w, hl, rfl⟩ := ha
        have hn : ids.getD k 0 = n := by simp [List.getD, show ids[k]? = some n from hk]
        simp only [wallTerms, wallValues, wallExtra, displacedAt, row_eq, spot_eq, Nat.succ_ne_zero, if_false, hn, hwall a w hl, f, wallCols, List.map_map]
        exact E.wall_eq W w (hloc w (List.mem_of_getElem? hl)) p.1 (along w.1 p) k n fun r => c (across w.1 p r) n) hG p mem n R q m
  have on : ∀ (q : ℤ × ℤ × ℤ) (k : ℕ), skip p = false → ids.Nodup → ids[k]? = some n → HasDerivAt (fun x => F S (E.wallTerms W dif surf ids src G) skip (fun _ => false) (upd c q n x) p n)
      (J ((p, n), (q, n)) + (W.locs.map fun w => netOf (E.displacedAt W w p k n) q).sum) (c q n) := fun q k hk hnd hi => by
    refine (key q n).congr_deriv ?_
    rw [E.walls_sum W S sf f ids (fun _ => rfl) hA skip p hk hnd k n hi q]
  refine ⟨fun q m hq => ?_, on, fun w k hk hnd hi hl hj h0 s1 s2 s3 s4 hder => ?_⟩
  · refine (key q m).congr_deriv ?_
    rw [rest_zero, add_zero]
    rcases hq with hq | hq | hq
    · refine Or.inr fun a k h ha hh => ?_
      rw [hA] at ha
      match a with
      | 0 => simp [wallExtra, netOf_nil]
      | a + 1 =>
        rw [List.getElem?_cons_succ, List.getElem?_map, Option.map_eq_some_iff] at ha
        obtain ⟨w, hl, rfl⟩ := ha
        have hq' := hq w (List.mem_of_getElem? hl)
        have g1 : ¬|w.2 - (rowOf w.1 p : ℝ) * gapOf W w.1| < 1 / 1000 := not_lt.mpr (le_trans (by linarith) (le_abs_self _))
        have g2 : (rowOf w.1 p : ℝ) * gapOf W w.1 < w.2 := by linarith
        simp only [wallExtra, displacedAt, displaced, Nat.succ_ne_zero, if_false, hwall a w hl, if_neg g1, if_pos g2, List.map_nil, netOf_nil]
    · exact Or.inl hq
    · refine Or.inr fun a k h ha hh => ?_
      rw [hA] at ha
      match a with
      | 0 => simp [wallExtra, netOf_nil]
      | a + 1 =>
        rw [List.getElem?_cons_succ, List.getElem?_map, Option.map_eq_some_iff] at ha
        obtain ⟨w, hl, rfl⟩ := ha
        exact absurd (List.mem_of_getElem? hh) hq
  · have e := hder.unique (on _ k hk hnd hi)
    rw [hl, List.map_singleton, List.sum_singleton] at e
    have e' : netOf (E.displacedAt W w p k n) (spotOf w.1 p ((rowOf w.1 p : ℤ) + 1)) = 0 := by linarith
    have n1 : ¬spotOf w.1 p (rowOf w.1 p : ℤ) = spotOf w.1 p ((rowOf w.1 p : ℤ) + 1) := fun h => by have := inj _ _ _ _ h; omega
    have n2 : ¬spotOf w.1 p ((rowOf w.1 p : ℤ) - 1) = spotOf w.1 p ((rowOf w.1 p : ℤ) + 1) := fun h => by have := inj _ _ _ _ h; omega
    unfold displacedAt displaced at e'
    by_cases h : |w.2 - (rowOf w.1 p : ℝ) * gapOf W w.1| < 1 / 1000
    · rw [if_pos h] at e'
      simp only [List.map_cons, List.map_nil, netOf_cons, netOf_nil, if_true, if_neg n1, add_zero] at e'
      exact absurd e' (by positivity)
    · have h4 : w.2 ≤ (rowOf w.1 p : ℝ) * gapOf W w.1 := by
        by_contra h5
        push Not at h5
        exact h (by rw [abs_of_pos (by linarith)]; linarith)
      rw [if_neg h, if_neg (not_lt.mpr h4)] at e'
      simp only [List.map_cons, List.map_nil, netOf_cons, netOf_nil, if_true, if_neg n2, add_zero] at e'
      have h6 : (rowOf w.1 p : ℝ) * gapOf W w.1 - w.2 + gapOf W w.1 ≠ 0 := (by linarith [sub_nonneg.mpr h4] : 0 < (rowOf w.1 p : ℝ) * gapOf W w.1 - w.2 + gapOf W w.1).ne'
      exact absurd e' (by positivity)

open Dispatch in
/-- The iron network `grNet` with boundaries across `y` at 5/2 and across `z` at 3/2 and rows one apart: right entries below both. -/
example (R₀ : Rates ℝ) (R : ℕ × ℕ × ℕ → Rates ℝ) (t : TmData ℝ) (c : ℤ × ℤ × ℤ → ℕ → ℝ) : ∃ B : Build (grNet.dofs true) (requests (feRxns grNet (grNet.momentIds true) R₀ fun _ => true)),
    ∃ ps : ℕ × ℕ × ℕ → List (List (ℕ × ℝ)), ∀ l : ℕ × ℕ × ℕ → List (ℕ × ℝ), (∀ p, Interleaves (ps p) (l p)) → ∃ J : Entry (ℕ × ℕ × ℕ) (ℤ × ℤ × ℤ) → ℝ, ∀ (G : ℕ × ℕ × ℕ → (ℕ → ℝ) → List (ℕ × ℝ)),
      (∀ p c', Interleaves ((⟨feRxns grNet (grNet.momentIds true) (R p) fun _ => true, false, t⟩ : Network 2 ℝ).fluxThreads c' 1 1) (G p c')) →
        ∀ n q m, HasDerivAt (fun x => F (wallSetup (⟨[(false, 5 / 2), (true, 3 / 2)], fun _ => 1, 1, 1⟩ : Walls ℝ) (grNet.dofs true) 1 4 0 4 0 3 [0] [0] [0] (FillMap.pairs (grNet.dofs true) (FillMap.diagonal B.crs (grNet.dofs true))))
          ((exSpace ℝ).wallTerms ⟨[(false, 5 / 2), (true, 3 / 2)], fun _ => 1, 1, 1⟩ [0] [0] [0] (fun _ => []) G) (fun p => decide (p.1 < 1)) (fun _ => false) (upd c q m x) (3, 2, 1) n) (J (((3, 2, 1), n), (q, m))) (c q m) := by
  have hl : Laid grNet := ⟨grNet_ready.lay, grNet_ready.singleI, grNet_ready.singleV⟩
  obtain ⟨B⟩ := build_exists (grNet.dofs true) (requests (feRxns grNet (grNet.momentIds true) R₀ fun _ => true)) (within_rows (fe_within grNet hl R₀ _))
  have sm : ∀ (R : Rates ℝ) (c : ℕ → ℝ), Smooth (⟨feRxns grNet (grNet.momentIds true) R fun _ => true, false, t⟩ : Network 2 ℝ) c := fun R c => (fe_regular grNet R _ t c 0).1
  have qu : ∀ (R : Rates ℝ) (n : ℕ), Quiet (⟨feRxns grNet (grNet.momentIds true) R fun _ => true, false, t⟩ : Network 2 ℝ) n := fun R n => (fe_regular grNet R _ t (fun _ => 0) n).2
  obtain ⟨ps, -, h2⟩ := box_walls_partial (exSpace ℝ) ⟨[(false, 5 / 2), (true, 3 / 2)], fun _ => 1, 1, 1⟩ ⟨feRxns grNet (grNet.momentIds true) R₀ fun _ => true, false, t⟩ (fe_within grNet hl R₀ (fun _ => true)) B
    (fun p => ⟨feRxns grNet (grNet.momentIds true) (R p) fun _ => true, false, t⟩) (fun p => fe_rates grNet (R p) R₀ _ t) (fun _ => 1) (fun _ => 1) 1 4 0 4 0 3 [0] [0] [0] rfl (fun w h => by
      simp only [List.mem_cons, List.not_mem_nil, or_false] at h
      rcases h with rfl | rfl <;> norm_num) (fun p => decide (p.1 < 1)) (fun p _ => exSpace_spacing p.1) c
  refine ⟨B, ps, fun l hl => ?_⟩
  obtain ⟨J, -, h3⟩ := h2 l hl
  exact ⟨J, fun G hG n q m => (h3 (3, 2, 1) (by simp) (by simp) (by simp) (by simp) (by simp) (by simp) n ⟨fun _ => sm _ _, fun _ => qu _ _⟩ (fun _ => []) G hG).1 q m (Or.inl fun w h => by
    simp only [List.mem_cons, List.not_mem_nil, or_false] at h
    rcases h with rfl | rfl <;> norm_num [rowOf, gapOf])⟩

open Dispatch in
/-- The iron network `grNet` with a boundary across `z` at 3/2 and rows one apart: a wrong entry above it. -/
example (R₀ : Rates ℝ) (R : ℕ × ℕ × ℕ → Rates ℝ) (t : TmData ℝ) (c : ℤ × ℤ × ℤ → ℕ → ℝ) : ∃ B : Build (grNet.dofs true) (requests (feRxns grNet (grNet.momentIds true) R₀ fun _ => true)),
    ∃ ps : ℕ × ℕ × ℕ → List (List (ℕ × ℝ)), ∀ l : ℕ × ℕ × ℕ → List (ℕ × ℝ), (∀ p, Interleaves (ps p) (l p)) → ∃ J : Entry (ℕ × ℕ × ℕ) (ℤ × ℤ × ℤ) → ℝ, ∀ (G : ℕ × ℕ × ℕ → (ℕ → ℝ) → List (ℕ × ℝ)),
      (∀ p c', Interleaves ((⟨feRxns grNet (grNet.momentIds true) (R p) fun _ => true, false, t⟩ : Network 2 ℝ).fluxThreads c' 1 1) (G p c')) →
        ¬HasDerivAt (fun x => F (wallSetup (⟨[(true, 3 / 2)], fun _ => 1, 1, 1⟩ : Walls ℝ) (grNet.dofs true) 1 4 0 4 0 3 [0] [0] [0] (FillMap.pairs (grNet.dofs true) (FillMap.diagonal B.crs (grNet.dofs true))))
          ((exSpace ℝ).wallTerms ⟨[(true, 3 / 2)], fun _ => 1, 1, 1⟩ [0] [0] [0] (fun _ => []) G) (fun p => decide (p.1 < 1)) (fun _ => false) (upd c (3, 1, 3) 0 x) (3, 1, 2) 0) (J (((3, 1, 2), 0), ((3, 1, 3), 0))) (c (3, 1, 3) 0) := by
  have hl : Laid grNet := ⟨grNet_ready.lay, grNet_ready.singleI, grNet_ready.singleV⟩
  obtain ⟨B⟩ := build_exists (grNet.dofs true) (requests (feRxns grNet (grNet.momentIds true) R₀ fun _ => true)) (within_rows (fe_within grNet hl R₀ _))
  have sm : ∀ (R : Rates ℝ) (c : ℕ → ℝ), Smooth (⟨feRxns grNet (grNet.momentIds true) R fun _ => true, false, t⟩ : Network 2 ℝ) c := fun R c => (fe_regular grNet R _ t c 0).1
  have qu : ∀ (R : Rates ℝ) (n : ℕ), Quiet (⟨feRxns grNet (grNet.momentIds true) R fun _ => true, false, t⟩ : Network 2 ℝ) n := fun R n => (fe_regular grNet R _ t (fun _ => 0) n).2
  obtain ⟨ps, -, h2⟩ := box_walls_partial (exSpace ℝ) ⟨[(true, 3 / 2)], fun _ => 1, 1, 1⟩ ⟨feRxns grNet (grNet.momentIds true) R₀ fun _ => true, false, t⟩ (fe_within grNet hl R₀ (fun _ => true)) B
    (fun p => ⟨feRxns grNet (grNet.momentIds true) (R p) fun _ => true, false, t⟩) (fun p => fe_rates grNet (R p) R₀ _ t) (fun _ => 1) (fun _ => 1) 1 4 0 4 0 3 [0] [0] [0] rfl (fun w h => by
      rw [List.mem_singleton.mp h]; norm_num) (fun p => decide (p.1 < 1)) (fun p _ => exSpace_spacing p.1) c
  refine ⟨B, ps, fun l hl => ?_⟩
  obtain ⟨J, -, h3⟩ := h2 l hl
  exact ⟨J, fun G hG => (h3 (3, 1, 2) (by simp) (by simp) (by simp) (by simp) (by simp) (by simp) 0 ⟨fun _ => sm _ _, fun _ => qu _ _⟩ (fun _ => []) G hG).2.2 (true, 3 / 2) 0 (by decide) (by simp) rfl rfl
    (by norm_num [rowOf, gapOf]) (by norm_num [gapOf]) one_ne_zero (by norm_num [exSpace]) (by norm_num [exSpace]) (by norm_num [exSpace])⟩

/-- Without diffusion, towards a boundary across `z` at 3/2 between the rows 1 and 2: in row 2 the number of row 3 stands in the column of row 1. -/
example : (rhsJacobian (wallSetup (⟨[(true, 3 / 2)], fun _ => 300, 2, 1⟩ : Walls ℚ) 1 1 1 0 1 1 2 [] [0] [0] [(0, 0)]) ({ (exSpace ℚ) with sink := fun _ => 0 }.wallValues ⟨[(true, 3 / 2)], fun _ => 300, 2, 1⟩ [] [0] [0] fun _ => []) 7 (fun _ => false) (fun _ => false)
      (fresh (wallSetup (⟨[(true, 3 / 2)], fun _ => 300, 2, 1⟩ : Walls ℚ) 1 1 1 0 1 1 2 [] [0] [0] [(0, 0)]))).map
    (fun r => [r.2 (((1, 0, 1), 0), ((1, 0, 0), 0)), r.2 (((1, 0, 1), 0), ((1, 0, 1), 0)), r.2 (((1, 0, 1), 0), ((1, 0, 2), 0)), r.2 (((1, 0, 2), 0), ((1, 0, 1), 0)), r.2 (((1, 0, 2), 0), ((1, 0, 2), 0)), r.2 (((1, 0, 2), 0), ((1, 0, 3), 0))]) =
      some [16 / 81, -16, 0, 16 / 81, -16, 0] := by decide +kernel

end Space

end Xolotl.Solver.Matrix
