import Verif.Solver.Boundary
import Verif.Solver.MatrixProps
import Verif.Transport.AdvectionProps

set_option linter.unusedSectionVars false

/-!
# Grain boundaries across the depth in the matrix: properties (C99)
-/

namespace Xolotl.Solver.Matrix

open Xolotl.Solver.Coo Xolotl.Network Xolotl.Transport Line Pattern Conn

/-! ### Terms with a part that the numbers do not have -/

theorem sum_deriv {α : Type} (f : α → ℝ → ℝ) (f' : α → ℝ) (x : ℝ) : ∀ l : List α, (∀ a ∈ l, HasDerivAt (f a) (f' a) x) → HasDerivAt (fun y => (l.map fun a => f a y).sum) ((l.map f').sum) x
  | [], _ => by simpa using hasDerivAt_const x (0 : ℝ)
  | a :: l, h => by
    simp only [List.map_cons, List.sum_cons]
    exact (h a (by simp)).add (sum_deriv f f' x l fun b hb => h b (by simp [hb]))

theorem netOf_flatMap_add {α ι : Type} [DecidableEq ι] (g h k : α → List (ι × ℝ)) (n : ι) : ∀ l : List α, (∀ a ∈ l, netOf (g a) n = netOf (h a) n + netOf (k a) n) →
    netOf (l.flatMap g) n = netOf (l.flatMap h) n + (l.map fun a => netOf (k a) n).sum
  | [], _ => by simp [netOf_nil]
  | a :: l, H => by
    rw [List.flatMap_cons, List.flatMap_cons, netOf_append, netOf_append, H a (by simp), netOf_flatMap_add g h k n l fun b hb => H b (by simp [hb]), List.map_cons, List.sum_cons]
    ring

theorem netOf_map_add {α ι : Type} [DecidableEq ι] (key : α → ι) (f g : α → ℝ) (n : ι) : ∀ l : List α,
    netOf (l.map fun a => (key a, f a + g a)) n = netOf (l.map fun a => (key a, f a)) n + netOf (l.map fun a => (key a, g a)) n
  | [] => by simp [netOf_nil]
  | a :: l => by
    simp only [List.map_cons, netOf_cons, netOf_map_add key f g n l]
    split_ifs <;> ring

theorem netOf_map_sum {α ι : Type} [DecidableEq ι] (key : α → ι) (f : α → ℝ) (n : ι) : ∀ l : List α, netOf (l.map fun a => (key a, f a)) n = (l.map fun a => if key a = n then f a else 0).sum
  | [] => by simp [netOf_nil]
  | a :: l => by simp only [List.map_cons, netOf_cons, List.sum_cons, netOf_map_sum key f n l]

/-- Another term of the advection adds to the right-hand side what it adds. -/
theorem F_adv {P Q : Type} (S : Setup P Q) (T : Terms P Q ℝ) (X : ℕ → P → ℕ → (Q → ℕ → ℝ) → ℝ) (skip stop : P → Bool) (c : Q → ℕ → ℝ) (p : P) (n : ℕ) :
    F S { T with adv := fun a p k c => T.adv a p k c + X a p k c } skip stop c p n = F S T skip stop c p n +
      if skip p || stop p then 0 else (S.adv.zipIdx.map fun ha => (ha.1.ids.zipIdx.map fun ci => if ci.1 = n then X ha.2 p ci.2 c else 0).sum).sum := by
  simp only [F, applyUpdates_eq, zero_add, additions, netOf_cons]
  by_cases hk : (skip p || stop p) = true
  · simp [hk]
  · simp only [hk, Bool.false_eq_true, if_false, netOf_append]
    rw [netOf_flatMap_add _ (fun ha => ha.1.ids.zipIdx.map fun ci => (ci.1, T.adv ha.2 p ci.2 c)) (fun ha => ha.1.ids.zipIdx.map fun ci => (ci.1, X ha.2 p ci.2 c)) n S.adv.zipIdx
      (fun ha _ => netOf_map_add (fun ci : ℕ × ℕ => ci.1) _ _ n _)]
    simp only [netOf_map_sum (fun ci : ℕ × ℕ => ci.1)]
    ring

namespace Space

variable {d D : ℕ}

/-- What the entry of row `n` at `p` and column `m` at `q` lacks if the numbers of the advection lack `U`. -/
def lack {P Q : Type} [DecidableEq Q] (S : Setup P Q) (U : ℕ → P → ℕ → ℝ × ℝ) (skip : P → Bool) (p : P) (n : ℕ) (q : Q) (m : ℕ) : ℝ :=
  if skip p then 0 else (S.adv.zipIdx.map fun ha => (ha.1.ids.zipIdx.map fun ci => if ci.1 = n then (if m = n then (if (ha.1.real p).1 = q then (U ha.2 p ci.2).1 else 0) + (if (ha.1.real p).2 = q then (U ha.2 p ci.2).2 else 0) else 0) else 0).sum).sum

/-- Where the terms are linear and the numbers are their coefficients but for `U` in the advection, the matrix lacks just that. -/
theorem linear_lack {P Q : Type} [DecidableEq P] [DecidableEq Q] (M₀ : Network d ℝ) (hw : ∀ r ∈ M₀.rxns, r.Within D) (B : Build D (requests M₀.rxns)) (M : P → Network d ℝ)
    (hM : ∀ p, (M p).rxns.map Rxn.connectivity = M₀.rxns.map Rxn.connectivity) (depth spacing : P → ℝ) (S : Setup P Q) (hnw : S.nw = FillMap.pairs D (FillMap.diagonal B.crs D)) (hn : S.points.Nodup) (s : ℕ) (hs : ∀ p, (S.cols p).length = s)
    (hadv : ∀ p, ∀ h ∈ S.adv, h.ids.length = nAdvec S ∧ h.reg p = h.real p) (skip : P → Bool) (c : Q → ℕ → ℝ) :
    ∃ ps : P → List (List (ℕ × ℝ)), (∀ p, ((M p).partialThreads (c (S.self p)) (depth p) (spacing p)).mapM (place B.crs) = some (ps p)) ∧ ∀ V : Values P ℝ, (∀ p, Interleaves (ps p) (V.nw p)) →
      ∃ J, rhsJacobian S V s skip (fun _ => false) (fresh S) = some (fresh S, J) ∧
        ∀ (T : Terms P Q ℝ) (U : ℕ → P → ℕ → ℝ × ℝ), (∀ p c, T.temp p c = 0) → (∀ p k, V.temp p k = 0) →
          (∀ p, skip p = false → ∀ (b : ℕ) ids, S.blocks[b]? = some ids → ∀ (k n : ℕ), ids[k]? = some n → ∀ c, T.block b p k c = ((S.cols p).zipIdx.map fun qk => V.block b p k qk.2 * c qk.1 n).sum) →
          (∀ p, skip p = false → ∀ (a : ℕ) h, S.adv[a]? = some h → ∀ (k n : ℕ), h.ids[k]? = some n → ∀ c,
            T.adv a p k c = ((V.adv a p k).1 + (U a p k).1) * c (h.real p).1 n + ((V.adv a p k).2 + (U a p k).2) * c (h.real p).2 n) →
          (∀ p c', Interleaves ((M p).fluxThreads c' (depth p) (spacing p)) (T.nw p c')) →
          ∀ p ∈ S.points, ∀ n, Row skip (M p) (c (S.self p)) p n → ∀ q m, HasDerivAt (fun x => F S T skip (fun _ => false) (upd c q m x) p n) (J ((p, n), (q, m)) + lack S U skip p n q m) (c q m) := by
  obtain ⟨ps, h1, h2⟩ := linear_jacobian M₀ hw B M hM depth spacing S hnw hn s hs hadv skip c
  refine ⟨ps, h1, fun V hV => ?_⟩
  obtain ⟨J, hJ, h3⟩ := h2 V hV
  refine ⟨J, hJ, fun T U ht hvt hb ha hG p hp n R q m => ?_⟩
  let X : ℕ → P → ℕ → (Q → ℕ → ℝ) → ℝ := fun a p k c => (S.adv[a]?).elim 0 fun h => (h.ids[k]?).elim 0 fun n => (U a p k).1 * c (h.real p).1 n + (U a p k).2 * c (h.real p).2 n
  let T' : Terms P Q ℝ := { T with adv := fun a p k c => T.adv a p k c - X a p k c }
  have e : T = { T' with adv := fun a p k c => T'.adv a p k c + X a p k c } := by simp [T']
  have base := h3 T' ht hvt hb (fun p hk a h hh k n hi c => by simp only [T', X, hh, hi, Option.elim_some, ha p hk a h hh k n hi c]; ring) hG p hp n R q m
  have hF : ∀ x, F S T skip (fun _ => false) (upd c q m x) p n = F S T' skip (fun _ => false) (upd c q m x) p n +
      if skip p || false then 0 else (S.adv.zipIdx.map fun ha => (ha.1.ids.zipIdx.map fun ci => if ci.1 = n then X ha.2 p ci.2 (upd c q m x) else 0).sum).sum := fun x => by
    conv_lhs => rw [e]
    exact F_adv S T' X skip (fun _ => false) (upd c q m x) p n
  simp only [hF]
  refine base.add ?_
  rw [lack]
  cases hk : skip p
  · simp only [Bool.or_self, Bool.false_eq_true, if_false]
    refine sum_deriv (fun (ha : Handler P Q × ℕ) x => (ha.1.ids.zipIdx.map fun ci => if ci.1 = n then X ha.2 p ci.2 (upd c q m x) else 0).sum) _ _ _ fun ha hha => ?_
    refine sum_deriv (fun (ci : ℕ × ℕ) x => if ci.1 = n then X ha.2 p ci.2 (upd c q m x) else 0) _ _ _ fun ci hci => ?_
    by_cases hcn : ci.1 = n
    · have e1 : S.adv[ha.2]? = some ha.1 := List.mem_zipIdx_iff_getElem?.mp hha
      have e2 : ha.1.ids[ci.2]? = some n := by rw [← hcn]; exact List.mem_zipIdx_iff_getElem?.mp hci
      simp only [hcn, if_true, X, e1, e2, Option.elim_some]
      refine (((upd_deriv c q m (ha.1.real p).1 n).const_mul _).add ((upd_deriv c q m (ha.1.real p).2 n).const_mul _)).congr_deriv ?_
      by_cases hm : m = n
      · simp [hm]
      · simp [hm, Ne.symm hm]
    · simpa [hcn] using hasDerivAt_const (c q m) (0 : ℝ)
  · simpa using hasDerivAt_const (c q m) (0 : ℝ)

variable (E : Space ℝ) (H : Bounds ℝ)

/-- The columns are announced where the numbers belong, on and off the boundary. -/
theorem announced_meant (loc : ℝ) (x : ℕ) : E.announced loc x = E.meant loc x := by
  unfold announced meant advCols Adv.stencil
  by_cases h : Adv.onSink loc (E.centre x)
  · have h' : |loc - E.centre x| < 1 / 1000 := h
    simp only [h, h', decide_true, if_true]
  · have h' : ¬|loc - E.centre x| < 1 / 1000 := h
    rw [if_neg h', if_neg h]
    simp only [h, decide_false, Bool.false_eq_true, if_false]
    rcases Adv.cmp_cases loc _ h with ⟨a, b⟩ | ⟨a, b⟩
    · rw [if_pos a, if_neg b, if_pos a]; simp
    · rw [if_neg b, if_pos a, if_neg b]; simp [sub_eq_add_neg]

/-- What the numbers of a boundary lack: nothing off the boundary, everything on it. -/
noncomputable def missing (loc : ℝ) (x k n : ℕ) : ℝ × ℝ :=
  if |loc - E.centre x| < 1 / 1000 then
    (3 * H.sink k * (E.dif x n).mid / (E.kB * (E.temp x).mid * hxLeft E.grid x ^ 5), 3 * H.sink k * (E.dif x n).mid / (E.kB * (E.temp x).mid * hxRight E.nX E.grid x ^ 5))
  else (0, 0)

/-- The stencils of two and three dimensions never make the handler throw. -/
theorem bound_defined (dim : ℕ) (hd : 2 ≤ dim) (loc : ℝ) (x k n : ℕ) (c : S1 ℝ) :
    Adv.xConc (2 * dim + 1) (H.sink k) E.kB loc (E.centre x) (hxLeft E.grid x) (hxRight E.nX E.grid x) (E.dif x n).mid (E.temp x).mid (Line.nth c) = some (E.boundRate H dim loc x k n c) := by
  unfold boundRate
  by_cases h : Adv.onSink loc (E.centre x)
  · rw [Adv.x_eq_on _ (by omega) _ _ _ _ _ _ _ _ (0, 0) _ h, Option.getD_some]
  · rw [Adv.x_eq_off _ dim (by omega) _ _ _ _ _ _ _ _ (0, 0) _ h, Option.getD_some]

/-- The rate towards a boundary is the linear form in the columns that are meant, with the numbers and what they lack as coefficients. -/
theorem rate_eq (dim : ℕ) (hd : 2 ≤ dim) (loc : ℝ) (x k n : ℕ) (c : ℤ → ℝ) :
    E.boundRate H dim loc x k n ⟨c x, c ((x : ℤ) - 1), c ((x : ℤ) + 1)⟩ =
      ((E.boundPart H dim loc x k n).1 + (E.missing H loc x k n).1) * c (E.meant loc x).1 + ((E.boundPart H dim loc x k n).2 + (E.missing H loc x k n).2) * c (E.meant loc x).2 := by
  unfold boundRate boundPart missing meant
  by_cases h : Adv.onSink loc (E.centre x)
  · have h' : |loc - E.centre x| < 1 / 1000 := h
    rw [Adv.x_eq_on _ (by omega) _ _ _ _ _ _ _ _ (0, 0) _ h]
    simp only [h', if_true, Adv.xPart, h, show dim ≠ 1 by omega, if_false, Option.getD_some, Line.nth, zero_add]
    simp
  · have h' : ¬|loc - E.centre x| < 1 / 1000 := h
    rw [Adv.x_eq_off _ dim (by omega) _ _ _ _ _ _ _ _ (0, 0) _ h]
    simp only [h', if_false, Option.getD_some, add_zero]
    rcases Adv.cmp_cases loc _ h with ⟨a, b⟩ | ⟨a, b⟩
    · rw [if_pos a, ((Adv.stencil_away loc _ h).1).mpr a]; simp [Line.nth, Adv.nbr]
    · rw [if_neg b, ((Adv.stencil_away loc _ h).2).mpr a]; simp [Line.nth, Adv.nbr]

theorem once_sum (f : ℕ → ℝ) (n : ℕ) : ∀ (ids : List ℕ) (s k : ℕ), ids.Nodup → ids[k]? = some n → ((ids.zipIdx s).map fun ci => if ci.1 = n then f ci.2 else 0).sum = f (s + k)
  | [], s, k, _, h => by simp at h
  | i :: l, s, k, hn, h => by
    rw [List.nodup_cons] at hn
    rw [List.zipIdx_cons, List.map_cons, List.sum_cons]
    match k with
    | 0 =>
      have e : i = n := by simpa using h
      subst e
      rw [never_sum f i l (s + 1) hn.1]; simp
    | k + 1 =>
      have h' : l[k]? = some n := by simpa using h
      have : i ≠ n := fun e => hn.1 (e ▸ List.mem_of_getElem? h')
      rw [once_sum f n l (s + 1) k hn.2 h']
      simp only [this, if_false, zero_add]
      congr 1; omega
where never_sum (f : ℕ → ℝ) (n : ℕ) : ∀ (ids : List ℕ) (s : ℕ), n ∉ ids → ((ids.zipIdx s).map fun ci => if ci.1 = n then f ci.2 else 0).sum = 0
  | [], s, _ => by simp
  | i :: l, s, h => by
    rw [List.mem_cons, not_or] at h
    rw [List.zipIdx_cons, List.map_cons, List.sum_cons, never_sum f n l (s + 1) h.2]
    simp [Ne.symm h.1]

theorem zipIdx_sum {α : Type} (g : α → ℝ) (f : α × ℕ → ℝ) : ∀ (l : List α) (s : ℕ), (∀ a ∈ l.zipIdx s, f a = g a.1) → ((l.zipIdx s).map f).sum = (l.map g).sum
  | [], s, _ => by simp
  | a :: l, s, h => by
    rw [List.zipIdx_cons, List.map_cons, List.sum_cons, List.map_cons, List.sum_cons, h (a, s) (by simp [List.zipIdx_cons]), zipIdx_sum g f l (s + 1) fun b hb => h b (by simp [List.zipIdx_cons, hb])]

/-- The coefficients that a stencil of the advection lacks: none towards the surface. -/
noncomputable def lacking (ids : List ℕ) (a x k : ℕ) : ℝ × ℝ := if a = 0 then (0, 0) else E.missing H (H.locs.getD (a - 1) 0) x k (ids.getD k 0)

/-- The handlers of the boundaries, numbered from 1 on, lack the sum over the boundaries. -/
theorem lack_sum {P Q : Type} [DecidableEq Q] (S : Setup P Q) (surf : Handler P Q) (f : ℝ → Handler P Q) (ids : List ℕ) (hf : ∀ loc, (f loc).ids = ids) (hS : S.adv = surf :: H.locs.map f) (xOf : P → ℕ) (skip : P → Bool) (p : P) (hk : skip p = false)
    (hnd : ids.Nodup) (k n : ℕ) (hi : ids[k]? = some n) (q : Q) :
    lack S (fun a p k => E.lacking H ids a (xOf p) k) skip p n q n =
      (H.locs.map fun loc => (if ((f loc).real p).1 = q then (E.missing H loc (xOf p) k n).1 else 0) + (if ((f loc).real p).2 = q then (E.missing H loc (xOf p) k n).2 else 0)).sum := by
  have hg : ids.getD k 0 = n := by simp [List.getD, hi]
  rw [lack, hk, hS, List.zipIdx_cons, List.map_cons, List.sum_cons]
  have z : (surf.ids.zipIdx.map fun ci => if ci.1 = n then (if (surf.real p).1 = q then (E.lacking H ids 0 (xOf p) ci.2).1 else 0) + (if (surf.real p).2 = q then (E.lacking H ids 0 (xOf p) ci.2).2 else 0) else 0).sum = 0 := by
    refine List.sum_eq_zero fun y hy => ?_
    obtain ⟨ci, -, rfl⟩ := List.mem_map.mp hy
    simp [lacking]
  simp only [Bool.false_eq_true, if_false, if_true]
  rw [z, zero_add, zero_add, List.zipIdx_map, List.map_map]
  refine zipIdx_sum _ _ _ _ fun la hla => ?_
  have e := List.mem_zipIdx hla
  have e1 : H.locs.getD (la.2 - 1) 0 = la.1 := by
    rw [List.getD_eq_getElem?_getD, List.getElem?_eq_getElem (by omega)]
    exact e.2.2.symm
  have e2 : la.2 ≠ 0 := by omega
  simp only [Function.comp, Prod.map, id, hf]
  rw [once_sum (fun k => (if ((f la.1).real p).1 = q then (E.lacking H ids la.2 (xOf p) k).1 else 0) + (if ((f la.1).real p).2 = q then (E.lacking H ids la.2 (xOf p) k).2 else 0)) n ids 0 k hnd hi]
  simp only [zero_add, lacking, e2, if_false, e1, hg]

/-- Nothing is lacking in other columns and other rows. -/
theorem lack_zero {P Q : Type} [DecidableEq Q] (S : Setup P Q) (U : ℕ → P → ℕ → ℝ × ℝ) (skip : P → Bool) (p : P) (n : ℕ) (q : Q) (m : ℕ)
    (h : m ≠ n ∨ ∀ a k, ∀ h, S.adv[a]? = some h → h.ids[k]? = some n → U a p k = (0, 0)) : lack S U skip p n q m = 0 := by
  rw [lack]
  cases hk : skip p
  swap
  · simp
  · simp only [Bool.false_eq_true, if_false]
    refine List.sum_eq_zero fun y hy => ?_
    obtain ⟨ha, hha, rfl⟩ := List.mem_map.mp hy
    refine List.sum_eq_zero fun y hy => ?_
    obtain ⟨ci, hci, rfl⟩ := List.mem_map.mp hy
    rcases h with h | h
    · simp [h]
    · by_cases e : ci.1 = n
      · have := h ha.2 ci.2 ha.1 (List.mem_zipIdx_iff_getElem?.mp hha) (by rw [← e]; exact List.mem_zipIdx_iff_getElem?.mp hci)
        simp [this]
      · simp [e]

theorem nAdvec_same {P Q α : Type} (S : Setup P Q) (surf : Handler P Q) (f : α → Handler P Q) (ids : List ℕ) (locs : List α) (hf : ∀ loc, (f loc).ids = ids) (hS : S.adv = surf :: locs.map f) (hl : surf.ids.length = ids.length) :
    ∀ h ∈ S.adv, h.ids.length = nAdvec S := by
  have g : ∀ (l : List ℕ), (∀ x ∈ l, x = ids.length) → l.foldl max ids.length = ids.length := by
    intro l
    induction l with
    | nil => simp
    | cons x l ih => intro hx; rw [List.foldl_cons, hx x (by simp), max_self]; exact ih fun y hy => hx y (by simp [hy])
  have e : nAdvec S = ids.length := by
    rw [nAdvec, hS, List.map_cons, List.foldl_cons, hl, Nat.zero_max]
    exact g _ fun x hx => by
      obtain ⟨h, hh, rfl⟩ := List.mem_map.mp hx
      obtain ⟨loc, -, rfl⟩ := List.mem_map.mp hh
      rw [hf]
  intro h hh
  rw [e]
  rw [hS, List.mem_cons] at hh
  rcases hh with rfl | hh
  · exact hl
  · obtain ⟨loc, -, rfl⟩ := List.mem_map.mp hh
    rw [hf]

theorem missing_sum (x k n : ℕ) (p : ℤ → Prop) [DecidablePred p] : ∀ locs : List ℝ,
    (locs.map fun loc => (if p (E.meant loc x).1 then (E.missing H loc x k n).1 else 0) + (if p (E.meant loc x).2 then (E.missing H loc x k n).2 else 0)).sum =
      ((locs.filter fun loc => |loc - E.centre x| < 1 / 1000).length : ℝ) *
        ((if p ((x : ℤ) - 1) then 3 * H.sink k * (E.dif x n).mid / (E.kB * (E.temp x).mid * hxLeft E.grid x ^ 5) else 0) +
          (if p ((x : ℤ) + 1) then 3 * H.sink k * (E.dif x n).mid / (E.kB * (E.temp x).mid * hxRight E.nX E.grid x ^ 5) else 0))
  | [] => by simp
  | loc :: locs => by
    rw [List.map_cons, List.sum_cons, missing_sum x k n p locs]
    by_cases h : |loc - E.centre x| < 1 / 1000
    · rw [List.filter_cons_of_pos (by simpa using h), List.length_cons]
      simp only [missing, meant, h, if_true]
      push_cast
      ring
    · rw [List.filter_cons_of_neg (by simpa using h)]
      simp only [missing, if_neg h]
      simp

/-- **C99** In two dimensions with grain boundaries across the depth, for any number and locations of them: at a point that is on none of them every entry of the matrix is the derivative of the right-hand side; at a point on boundaries an entry is
the derivative but for the columns of an advecting cluster in its own row at the left and right neighbour, where the whole derivative of the advection towards these boundaries is missing, so that the matrix is wrong there. -/
theorem plane_boundary_partial (M₀ : Network d ℝ) (hw : ∀ r ∈ M₀.rxns, r.Within D) (B : Build D (requests M₀.rxns)) (M : ℕ × ℕ → Network d ℝ) (hM : ∀ p, (M p).rxns.map Rxn.connectivity = M₀.rxns.map Rxn.connectivity)
    (depth spacing : ℕ × ℕ → ℝ) (xs xm ys ym : ℕ) (dif surf ids : List ℕ) (hlen : surf.length = ids.length) (skip : ℕ × ℕ → Bool)
    (hsp : ∀ p, skip p = false → hxLeft E.grid p.1 ≠ 0 ∧ hxRight E.nX E.grid p.1 ≠ 0 ∧ hxLeft E.grid p.1 + hxRight E.nX E.grid p.1 ≠ 0) (c : ℤ × ℤ → ℕ → ℝ) :
    ∃ ps : ℕ × ℕ → List (List (ℕ × ℝ)), (∀ p, ((M p).partialThreads (c (p.1, p.2)) (depth p) (spacing p)).mapM (place B.crs) = some (ps p)) ∧ ∀ l : ℕ × ℕ → List (ℕ × ℝ), (∀ p, Interleaves (ps p) (l p)) →
      ∃ J, rhsJacobian (E.boundSetup2 H D xs xm ys ym dif surf ids (FillMap.pairs D (FillMap.diagonal B.crs D))) (E.boundValues2 H dif surf ids l) 5 skip (fun _ => false)
          (fresh (E.boundSetup2 H D xs xm ys ym dif surf ids (FillMap.pairs D (FillMap.diagonal B.crs D)))) =
            some (fresh (E.boundSetup2 H D xs xm ys ym dif surf ids (FillMap.pairs D (FillMap.diagonal B.crs D))), J) ∧
        ∀ i j, xs ≤ i → i < xs + xm → ys ≤ j → j < ys + ym → ∀ n, Row skip (M (i, j)) (c (i, j)) (i, j) n → ∀ (src : ℕ × ℕ → List (ℕ × ℝ)) (G : ℕ × ℕ → (ℕ → ℝ) → List (ℕ × ℝ)),
          (∀ p c', Interleaves ((M p).fluxThreads c' (depth p) (spacing p)) (G p c')) →
          (∀ (q : ℤ × ℤ) (m : ℕ), (∀ loc ∈ H.locs, 1 / 1000 ≤ |loc - E.centre i|) ∨ m ≠ n ∨ n ∉ ids →
            HasDerivAt (fun x => F (E.boundSetup2 H D xs xm ys ym dif surf ids (FillMap.pairs D (FillMap.diagonal B.crs D))) (E.boundTerms2 H dif surf ids src G) skip (fun _ => false) (upd c q m x) (i, j) n) (J (((i, j), n), (q, m))) (c q m)) ∧
          (∀ (q : ℤ × ℤ) (k : ℕ), skip (i, j) = false → ids.Nodup → ids[k]? = some n →
            HasDerivAt (fun x => F (E.boundSetup2 H D xs xm ys ym dif surf ids (FillMap.pairs D (FillMap.diagonal B.crs D))) (E.boundTerms2 H dif surf ids src G) skip (fun _ => false) (upd c q n x) (i, j) n)
              (J (((i, j), n), (q, n)) + ((H.locs.filter fun loc => |loc - E.centre i| < 1 / 1000).length : ℝ) *
                ((if ((i : ℤ) - 1, (j : ℤ)) = q then 3 * H.sink k * (E.dif i n).mid / (E.kB * (E.temp i).mid * hxLeft E.grid i ^ 5) else 0) +
                  (if ((i : ℤ) + 1, (j : ℤ)) = q then 3 * H.sink k * (E.dif i n).mid / (E.kB * (E.temp i).mid * hxRight E.nX E.grid i ^ 5) else 0))) (c q n)) ∧
          (∀ (loc : ℝ) (k : ℕ), skip (i, j) = false → ids.Nodup → ids[k]? = some n → loc ∈ H.locs → |loc - E.centre i| < 1 / 1000 → H.sink k ≠ 0 → (E.dif i n).mid ≠ 0 → E.kB ≠ 0 → (E.temp i).mid ≠ 0 →
            ¬HasDerivAt (fun x => F (E.boundSetup2 H D xs xm ys ym dif surf ids (FillMap.pairs D (FillMap.diagonal B.crs D))) (E.boundTerms2 H dif surf ids src G) skip (fun _ => false) (upd c ((i : ℤ) - 1, (j : ℤ)) n x) (i, j) n)
              (J (((i, j), n), (((i : ℤ) - 1, (j : ℤ)), n))) (c ((i : ℤ) - 1, (j : ℤ)) n)) := by
  set S := E.boundSetup2 H D xs xm ys ym dif surf ids (FillMap.pairs D (FillMap.diagonal B.crs D)) with hS
  let sf : Handler (ℕ × ℕ) (ℤ × ℤ) := ⟨surf, fun p => ((p.1, p.2), (p.1 + 1, p.2)), fun p => ((p.1, p.2), (p.1 + 1, p.2))⟩
  let f : ℝ → Handler (ℕ × ℕ) (ℤ × ℤ) := fun loc => ⟨ids, fun p => (((E.announced loc p.1).1, p.2), ((E.announced loc p.1).2, p.2)), fun p => (((E.meant loc p.1).1, p.2), ((E.meant loc p.1).2, p.2))⟩
  have hA : S.adv = sf :: H.locs.map f := rfl
  obtain ⟨ps, h1, h2⟩ := linear_lack M₀ hw B M hM depth spacing S rfl (points2_nodup xs xm ys ym) 5 (fun _ => rfl)
    (fun p h hh => ⟨nAdvec_same S sf f ids H.locs (fun _ => rfl) hA hlen h hh, by
      rw [hA, List.mem_cons] at hh
      rcases hh with rfl | hh
      · rfl
      · obtain ⟨loc, -, rfl⟩ := List.mem_map.mp hh
        simp only [f, announced_meant]⟩) skip c
  refine ⟨ps, h1, fun l hl => ?_⟩
  obtain ⟨J, hJ, h3⟩ := h2 (E.boundValues2 H dif surf ids l) hl
  refine ⟨J, hJ, fun i j hi1 hi2 hj1 hj2 n R src G hG => ?_⟩
  have key := fun q m => h3 (E.boundTerms2 H dif surf ids src G) (fun a p k => E.lacking H ids a p.1 k) (fun _ _ => rfl) (fun _ _ => rfl) (fun p hp b ids' hb k n hk c => by
      match b with
      | 0 =>
        have : ids' = dif := by simpa [hS, boundSetup2, setup2] using hb.symm
        subst this
        have hn : ids'.getD k 0 = n := by simp [List.getD, hk]
        obtain ⟨g1, g2, g3⟩ := hsp p hp
        simp only [boundTerms2, boundValues2, terms2, values2, hn]
        rw [conc2_eq _ _ _ g1 g2 g3]
        simp [hS, boundSetup2, setup2, cols2, List.zipIdx_cons, nth]
        ring
      | b + 1 => simp [hS, boundSetup2, setup2] at hb) (fun p hp a h ha k n hk c => by
      rw [hA] at ha
      match a with
      | 0 =>
        have e : h = sf := by simpa using ha.symm
        subst e
        have hn : surf.getD k 0 = n := by simp [List.getD, show surf[k]? = some n from hk]
        simp only [boundTerms2, boundValues2, terms2, values2, lacking, if_true, hn, advRate, advPart, Adv.surf_eq, sf, add_zero]
      | a + 1 =>
        rw [List.getElem?_cons_succ, List.getElem?_map, Option.map_eq_some_iff] at ha
        obtain ⟨loc, hloc, rfl⟩ := ha
        have hn : ids.getD k 0 = n := by simp [List.getD, show ids[k]? = some n from hk]
        have hl : H.locs.getD a 0 = loc := by simp [List.getD, hloc]
        simp only [boundTerms2, boundValues2, lacking, Nat.succ_ne_zero, if_false, Nat.add_sub_cancel, hn, hl, f]
        exact E.rate_eq H 2 le_rfl loc p.1 k n fun z => c (z, p.2) n) hG (i, j)
    (List.mem_flatMap.mpr ⟨j, List.mem_range'_1.mpr ⟨hj1, hj2⟩, List.mem_map.mpr ⟨i, List.mem_range'_1.mpr ⟨hi1, hi2⟩, rfl⟩⟩) n R q m
  have on : ∀ (q : ℤ × ℤ) (k : ℕ), skip (i, j) = false → ids.Nodup → ids[k]? = some n → HasDerivAt (fun x => F S (E.boundTerms2 H dif surf ids src G) skip (fun _ => false) (upd c q n x) (i, j) n)
      (J (((i, j), n), (q, n)) + ((H.locs.filter fun loc => |loc - E.centre i| < 1 / 1000).length : ℝ) *
        ((if ((i : ℤ) - 1, (j : ℤ)) = q then 3 * H.sink k * (E.dif i n).mid / (E.kB * (E.temp i).mid * hxLeft E.grid i ^ 5) else 0) +
          (if ((i : ℤ) + 1, (j : ℤ)) = q then 3 * H.sink k * (E.dif i n).mid / (E.kB * (E.temp i).mid * hxRight E.nX E.grid i ^ 5) else 0))) (c q n) := fun q k hk hnd hi => by
    refine (key q n).congr_deriv ?_
    rw [E.lack_sum H S sf f ids (fun _ => rfl) hA (fun p => p.1) skip (i, j) hk hnd k n hi q]
    congr 1
    refine E.missing_sum H i k n (fun z => ((z : ℤ), (j : ℤ)) = q) H.locs
  refine ⟨fun q m hq => ?_, on, fun loc k hk hnd hi hloc habs s1 s2 s3 s4 hder => ?_⟩
  · refine (key q m).congr_deriv ?_
    rw [lack_zero, add_zero]
    rcases hq with hq | hq | hq
    · refine Or.inr fun a k h ha hh => ?_
      rw [hA] at ha
      match a with
      | 0 => simp [lacking]
      | a + 1 =>
        rw [List.getElem?_cons_succ, List.getElem?_map, Option.map_eq_some_iff] at ha
        obtain ⟨loc, hloc, rfl⟩ := ha
        have hl : H.locs.getD a 0 = loc := by simp [List.getD, hloc]
        simp only [lacking, missing, Nat.succ_ne_zero, if_false, Nat.add_sub_cancel, hl, if_neg (not_lt.mpr (hq loc (List.mem_of_getElem? hloc)))]
    · exact Or.inl hq
    · refine Or.inr fun a k h ha hh => ?_
      rw [hA] at ha
      match a with
      | 0 => simp [lacking]
      | a + 1 =>
        rw [List.getElem?_cons_succ, List.getElem?_map, Option.map_eq_some_iff] at ha
        obtain ⟨loc, hloc, rfl⟩ := ha
        exact absurd (List.mem_of_getElem? hh) hq
  · have e := hder.unique (on _ k hk hnd hi)
    have g := (hsp (i, j) hk).1
    have hlen : ((H.locs.filter fun loc => |loc - E.centre i| < 1 / 1000).length : ℝ) ≠ 0 := by
      exact_mod_cast (List.length_pos_of_mem (List.mem_filter.mpr ⟨hloc, by simpa using habs⟩)).ne'
    have hne : ¬((i : ℤ) + 1, (j : ℤ)) = ((i : ℤ) - 1, (j : ℤ)) := fun h => by have := congrArg Prod.fst h; simp only at this; omega
    rw [if_pos rfl, if_neg hne, add_zero] at e
    have e' := (mul_eq_zero.mp (by linarith : ((H.locs.filter fun loc => |loc - E.centre i| < 1 / 1000).length : ℝ) * (3 * H.sink k * (E.dif i n).mid / (E.kB * (E.temp i).mid * hxLeft E.grid i ^ 5)) = 0)).resolve_left hlen
    exact absurd e' (by positivity)

/-- **C99** The same in three dimensions. -/
theorem box_boundary_partial (M₀ : Network d ℝ) (hw : ∀ r ∈ M₀.rxns, r.Within D) (B : Build D (requests M₀.rxns)) (M : ℕ × ℕ × ℕ → Network d ℝ) (hM : ∀ p, (M p).rxns.map Rxn.connectivity = M₀.rxns.map Rxn.connectivity)
    (depth spacing : ℕ × ℕ × ℕ → ℝ) (xs xm ys ym zs zm : ℕ) (dif surf ids : List ℕ) (hlen : surf.length = ids.length) (skip : ℕ × ℕ × ℕ → Bool)
    (hsp : ∀ p, skip p = false → hxLeft E.grid p.1 ≠ 0 ∧ hxRight E.nX E.grid p.1 ≠ 0 ∧ hxLeft E.grid p.1 + hxRight E.nX E.grid p.1 ≠ 0) (c : ℤ × ℤ × ℤ → ℕ → ℝ) :
    ∃ ps : ℕ × ℕ × ℕ → List (List (ℕ × ℝ)), (∀ p, ((M p).partialThreads (c (p.1, p.2.1, p.2.2)) (depth p) (spacing p)).mapM (place B.crs) = some (ps p)) ∧ ∀ l : ℕ × ℕ × ℕ → List (ℕ × ℝ), (∀ p, Interleaves (ps p) (l p)) →
      ∃ J, rhsJacobian (E.boundSetup3 H D xs xm ys ym zs zm dif surf ids (FillMap.pairs D (FillMap.diagonal B.crs D))) (E.boundValues3 H dif surf ids l) 7 skip (fun _ => false)
          (fresh (E.boundSetup3 H D xs xm ys ym zs zm dif surf ids (FillMap.pairs D (FillMap.diagonal B.crs D)))) =
            some (fresh (E.boundSetup3 H D xs xm ys ym zs zm dif surf ids (FillMap.pairs D (FillMap.diagonal B.crs D))), J) ∧
        ∀ i j z, xs ≤ i → i < xs + xm → ys ≤ j → j < ys + ym → zs ≤ z → z < zs + zm → ∀ n, Row skip (M (i, j, z)) (c (i, j, z)) (i, j, z) n → ∀ (src : ℕ × ℕ × ℕ → List (ℕ × ℝ)) (G : ℕ × ℕ × ℕ → (ℕ → ℝ) → List (ℕ × ℝ)),
          (∀ p c', Interleaves ((M p).fluxThreads c' (depth p) (spacing p)) (G p c')) →
          (∀ (q : ℤ × ℤ × ℤ) (m : ℕ), (∀ loc ∈ H.locs, 1 / 1000 ≤ |loc - E.centre i|) ∨ m ≠ n ∨ n ∉ ids →
            HasDerivAt (fun x => F (E.boundSetup3 H D xs xm ys ym zs zm dif surf ids (FillMap.pairs D (FillMap.diagonal B.crs D))) (E.boundTerms3 H dif surf ids src G) skip (fun _ => false) (upd c q m x) (i, j, z) n) (J (((i, j, z), n), (q, m))) (c q m)) ∧
          (∀ (q : ℤ × ℤ × ℤ) (k : ℕ), skip (i, j, z) = false → ids.Nodup → ids[k]? = some n →
            HasDerivAt (fun x => F (E.boundSetup3 H D xs xm ys ym zs zm dif surf ids (FillMap.pairs D (FillMap.diagonal B.crs D))) (E.boundTerms3 H dif surf ids src G) skip (fun _ => false) (upd c q n x) (i, j, z) n)
              (J (((i, j, z), n), (q, n)) + ((H.locs.filter fun loc => |loc - E.centre i| < 1 / 1000).length : ℝ) *
                ((if ((i : ℤ) - 1, (j : ℤ), (z : ℤ)) = q then 3 * H.sink k * (E.dif i n).mid / (E.kB * (E.temp i).mid * hxLeft E.grid i ^ 5) else 0) +
                  (if ((i : ℤ) + 1, (j : ℤ), (z : ℤ)) = q then 3 * H.sink k * (E.dif i n).mid / (E.kB * (E.temp i).mid * hxRight E.nX E.grid i ^ 5) else 0))) (c q n)) ∧
          (∀ (loc : ℝ) (k : ℕ), skip (i, j, z) = false → ids.Nodup → ids[k]? = some n → loc ∈ H.locs → |loc - E.centre i| < 1 / 1000 → H.sink k ≠ 0 → (E.dif i n).mid ≠ 0 → E.kB ≠ 0 → (E.temp i).mid ≠ 0 →
            ¬HasDerivAt (fun x => F (E.boundSetup3 H D xs xm ys ym zs zm dif surf ids (FillMap.pairs D (FillMap.diagonal B.crs D))) (E.boundTerms3 H dif surf ids src G) skip (fun _ => false) (upd c ((i : ℤ) - 1, (j : ℤ), (z : ℤ)) n x) (i, j, z) n)
              (J (((i, j, z), n), (((i : ℤ) - 1, (j : ℤ), (z : ℤ)), n))) (c ((i : ℤ) - 1, (j : ℤ), (z : ℤ)) n)) := by
  set S := E.boundSetup3 H D xs xm ys ym zs zm dif surf ids (FillMap.pairs D (FillMap.diagonal B.crs D)) with hS
  let sf : Handler (ℕ × ℕ × ℕ) (ℤ × ℤ × ℤ) := ⟨surf, fun p => ((p.1, p.2.1, p.2.2), (p.1 + 1, p.2.1, p.2.2)), fun p => ((p.1, p.2.1, p.2.2), (p.1 + 1, p.2.1, p.2.2))⟩
  let f : ℝ → Handler (ℕ × ℕ × ℕ) (ℤ × ℤ × ℤ) := fun loc => ⟨ids, fun p => (((E.announced loc p.1).1, p.2.1, p.2.2), ((E.announced loc p.1).2, p.2.1, p.2.2)), fun p => (((E.meant loc p.1).1, p.2.1, p.2.2), ((E.meant loc p.1).2, p.2.1, p.2.2))⟩
  have hA : S.adv = sf :: H.locs.map f := rfl
  obtain ⟨ps, h1, h2⟩ := linear_lack M₀ hw B M hM depth spacing S rfl (points3_nodup xs xm ys ym zs zm) 7 (fun _ => rfl)
    (fun p h hh => ⟨nAdvec_same S sf f ids H.locs (fun _ => rfl) hA hlen h hh, by
      rw [hA, List.mem_cons] at hh
      rcases hh with rfl | hh
      · rfl
      · obtain ⟨loc, -, rfl⟩ := List.mem_map.mp hh
        simp only [f, announced_meant]⟩) skip c
  refine ⟨ps, h1, fun l hl => ?_⟩
  obtain ⟨J, hJ, h3⟩ := h2 (E.boundValues3 H dif surf ids l) hl
  refine ⟨J, hJ, fun i j z hi1 hi2 hj1 hj2 hz1 hz2 n R src G hG => ?_⟩
  have key := fun q m => h3 (E.boundTerms3 H dif surf ids src G) (fun a p k => E.lacking H ids a p.1 k) (fun _ _ => rfl) (fun _ _ => rfl) (fun p hp b ids' hb k n hk c => by
      match b with
      | 0 =>
        have : ids' = dif := by simpa [hS, boundSetup3, setup3] using hb.symm
        subst this
        have hn : ids'.getD k 0 = n := by simp [List.getD, hk]
        obtain ⟨g1, g2, g3⟩ := hsp p hp
        simp only [boundTerms3, boundValues3, terms3, values3, hn]
        rw [conc3_eq _ _ _ _ g1 g2 g3]
        simp [hS, boundSetup3, setup3, cols3, List.zipIdx_cons, nth]
        ring
      | b + 1 => simp [hS, boundSetup3, setup3] at hb) (fun p hp a h ha k n hk c => by
      rw [hA] at ha
      match a with
      | 0 =>
        have e : h = sf := by simpa using ha.symm
        subst e
        have hn : surf.getD k 0 = n := by simp [List.getD, show surf[k]? = some n from hk]
        simp only [boundTerms3, boundValues3, terms3, values3, lacking, if_true, hn, advRate, advPart, Adv.surf_eq, sf, add_zero]
      | a + 1 =>
        rw [List.getElem?_cons_succ, List.getElem?_map, Option.map_eq_some_iff] at ha
        obtain ⟨loc, hloc, rfl⟩ := ha
        have hn : ids.getD k 0 = n := by simp [List.getD, show ids[k]? = some n from hk]
        have hl : H.locs.getD a 0 = loc := by simp [List.getD, hloc]
        simp only [boundTerms3, boundValues3, lacking, Nat.succ_ne_zero, if_false, Nat.add_sub_cancel, hn, hl, f]
        exact E.rate_eq H 3 (by omega) loc p.1 k n fun w => c (w, p.2.1, p.2.2) n) hG (i, j, z)
    (List.mem_flatMap.mpr ⟨z, List.mem_range'_1.mpr ⟨hz1, hz2⟩, List.mem_flatMap.mpr ⟨j, List.mem_range'_1.mpr ⟨hj1, hj2⟩, List.mem_map.mpr ⟨i, List.mem_range'_1.mpr ⟨hi1, hi2⟩, rfl⟩⟩⟩) n R q m
  have on : ∀ (q : ℤ × ℤ × ℤ) (k : ℕ), skip (i, j, z) = false → ids.Nodup → ids[k]? = some n → HasDerivAt (fun x => F S (E.boundTerms3 H dif surf ids src G) skip (fun _ => false) (upd c q n x) (i, j, z) n)
      (J (((i, j, z), n), (q, n)) + ((H.locs.filter fun loc => |loc - E.centre i| < 1 / 1000).length : ℝ) *
        ((if ((i : ℤ) - 1, (j : ℤ), (z : ℤ)) = q then 3 * H.sink k * (E.dif i n).mid / (E.kB * (E.temp i).mid * hxLeft E.grid i ^ 5) else 0) +
          (if ((i : ℤ) + 1, (j : ℤ), (z : ℤ)) = q then 3 * H.sink k * (E.dif i n).mid / (E.kB * (E.temp i).mid * hxRight E.nX E.grid i ^ 5) else 0))) (c q n) := fun q k hk hnd hi => by
    refine (key q n).congr_deriv ?_
    rw [E.lack_sum H S sf f ids (fun _ => rfl) hA (fun p => p.1) skip (i, j, z) hk hnd k n hi q]
    congr 1
    refine E.missing_sum H i k n (fun w => ((w : ℤ), (j : ℤ), (z : ℤ)) = q) H.locs
  refine ⟨fun q m hq => ?_, on, fun loc k hk hnd hi hloc habs s1 s2 s3 s4 hder => ?_⟩
  · refine (key q m).congr_deriv ?_
    rw [lack_zero, add_zero]
    rcases hq with hq | hq | hq
    · refine Or.inr fun a k h ha hh => ?_
      rw [hA] at ha
      match a with
      | 0 => simp [lacking]
      | a + 1 =>
        rw [List.getElem?_cons_succ, List.getElem?_map, Option.map_eq_some_iff] at ha
        obtain ⟨loc, hloc, rfl⟩ := ha
        have hl : H.locs.getD a 0 = loc := by simp [List.getD, hloc]
        simp only [lacking, missing, Nat.succ_ne_zero, if_false, Nat.add_sub_cancel, hl, if_neg (not_lt.mpr (hq loc (List.mem_of_getElem? hloc)))]
    · exact Or.inl hq
    · refine Or.inr fun a k h ha hh => ?_
      rw [hA] at ha
      match a with
      | 0 => simp [lacking]
      | a + 1 =>
        rw [List.getElem?_cons_succ, List.getElem?_map, Option.map_eq_some_iff] at ha
        obtain ⟨loc, hloc, rfl⟩ := ha
        exact absurd (List.mem_of_getElem? hh) hq
  · have e := hder.unique (on _ k hk hnd hi)
    have g := (hsp (i, j, z) hk).1
    have hlen : ((H.locs.filter fun loc => |loc - E.centre i| < 1 / 1000).length : ℝ) ≠ 0 := by
      exact_mod_cast (List.length_pos_of_mem (List.mem_filter.mpr ⟨hloc, by simpa using habs⟩)).ne'
    have hne : ¬((i : ℤ) + 1, (j : ℤ), (z : ℤ)) = ((i : ℤ) - 1, (j : ℤ), (z : ℤ)) := fun h => by have := congrArg Prod.fst h; simp only at this; omega
    rw [if_pos rfl, if_neg hne, add_zero] at e
    have e' := (mul_eq_zero.mp (by linarith : ((H.locs.filter fun loc => |loc - E.centre i| < 1 / 1000).length : ℝ) * (3 * H.sink k * (E.dif i n).mid / (E.kB * (E.temp i).mid * hxLeft E.grid i ^ 5)) = 0)).resolve_left hlen
    exact absurd e' (by positivity)

open Dispatch in
/-- The iron network `grNet` with a boundary through the second column of cells: a wrong entry on the boundary, right ones beside it. -/
example (R₀ : Rates ℝ) (R : ℕ × ℕ → Rates ℝ) (R' : ℕ × ℕ × ℕ → Rates ℝ) (t : TmData ℝ) (c : ℤ × ℤ → ℕ → ℝ) (c' : ℤ × ℤ × ℤ → ℕ → ℝ) : ∃ B : Build (grNet.dofs true) (requests (feRxns grNet (grNet.momentIds true) R₀ fun _ => true)),
    (∃ ps : ℕ × ℕ → List (List (ℕ × ℝ)), ∀ l : ℕ × ℕ → List (ℕ × ℝ), (∀ p, Interleaves (ps p) (l p)) → ∃ J : Entry (ℕ × ℕ) (ℤ × ℤ) → ℝ, ∀ (G : ℕ × ℕ → (ℕ → ℝ) → List (ℕ × ℝ)),
      (∀ p c', Interleaves ((⟨feRxns grNet (grNet.momentIds true) (R p) fun _ => true, false, t⟩ : Network 2 ℝ).fluxThreads c' 1 1) (G p c')) →
        (∀ n q m, HasDerivAt (fun x => F ((exSpace ℝ).boundSetup2 ⟨[3 / 2], fun _ => 1⟩ (grNet.dofs true) 1 4 0 3 [0] [0] [0] (FillMap.pairs (grNet.dofs true) (FillMap.diagonal B.crs (grNet.dofs true)))) ((exSpace ℝ).boundTerms2 ⟨[3 / 2], fun _ => 1⟩ [0] [0] [0] (fun _ => []) G)
          (fun p => decide (p.1 < 1 + p.2)) (fun _ => false) (upd c q m x) (3, 1) n) (J (((3, 1), n), (q, m))) (c q m)) ∧
        ¬HasDerivAt (fun x => F ((exSpace ℝ).boundSetup2 ⟨[3 / 2], fun _ => 1⟩ (grNet.dofs true) 1 4 0 3 [0] [0] [0] (FillMap.pairs (grNet.dofs true) (FillMap.diagonal B.crs (grNet.dofs true)))) ((exSpace ℝ).boundTerms2 ⟨[3 / 2], fun _ => 1⟩ [0] [0] [0] (fun _ => []) G)
          (fun p => decide (p.1 < 1 + p.2)) (fun _ => false) (upd c (((2 : ℕ) : ℤ) - 1, ((1 : ℕ) : ℤ)) 0 x) (2, 1) 0) (J (((2, 1), 0), ((((2 : ℕ) : ℤ) - 1, ((1 : ℕ) : ℤ)), 0))) (c (((2 : ℕ) : ℤ) - 1, ((1 : ℕ) : ℤ)) 0)) ∧
    ∃ ps : ℕ × ℕ × ℕ → List (List (ℕ × ℝ)), ∀ l : ℕ × ℕ × ℕ → List (ℕ × ℝ), (∀ p, Interleaves (ps p) (l p)) → ∃ J : Entry (ℕ × ℕ × ℕ) (ℤ × ℤ × ℤ) → ℝ, ∀ (G : ℕ × ℕ × ℕ → (ℕ → ℝ) → List (ℕ × ℝ)),
      (∀ p c', Interleaves ((⟨feRxns grNet (grNet.momentIds true) (R' p) fun _ => true, false, t⟩ : Network 2 ℝ).fluxThreads c' 1 1) (G p c')) → ∀ n q m,
        HasDerivAt (fun x => F ((exSpace ℝ).boundSetup3 ⟨[3 / 2], fun _ => 1⟩ (grNet.dofs true) 1 4 0 3 0 3 [0] [0] [0] (FillMap.pairs (grNet.dofs true) (FillMap.diagonal B.crs (grNet.dofs true)))) ((exSpace ℝ).boundTerms3 ⟨[3 / 2], fun _ => 1⟩ [0] [0] [0] (fun _ => []) G)
          (fun p => decide (p.1 < 1 + p.2.1)) (fun _ => false) (upd c' q m x) (3, 1, 2) n) (J (((3, 1, 2), n), (q, m))) (c' q m) := by
  have hl : Laid grNet := ⟨grNet_ready.lay, grNet_ready.singleI, grNet_ready.singleV⟩
  obtain ⟨B⟩ := build_exists (grNet.dofs true) (requests (feRxns grNet (grNet.momentIds true) R₀ fun _ => true)) (within_rows (fe_within grNet hl R₀ _))
  have sm : ∀ (R : Rates ℝ) (c : ℕ → ℝ), Smooth (⟨feRxns grNet (grNet.momentIds true) R fun _ => true, false, t⟩ : Network 2 ℝ) c := fun R c => (fe_regular grNet R _ t c 0).1
  have qu : ∀ (R : Rates ℝ) (n : ℕ), Quiet (⟨feRxns grNet (grNet.momentIds true) R fun _ => true, false, t⟩ : Network 2 ℝ) n := fun R n => (fe_regular grNet R _ t (fun _ => 0) n).2
  have off : ∀ loc ∈ [(3 / 2 : ℝ)], 1 / 1000 ≤ |loc - (exSpace ℝ).centre 3| := fun loc h => by
    rw [List.mem_singleton.mp h]; norm_num [centre, exSpace, abs_of_neg]
  refine ⟨B, ?_, ?_⟩
  · obtain ⟨ps, -, h2⟩ := plane_boundary_partial (exSpace ℝ) ⟨[3 / 2], fun _ => 1⟩ ⟨feRxns grNet (grNet.momentIds true) R₀ fun _ => true, false, t⟩ (fe_within grNet hl R₀ (fun _ => true)) B (fun p => ⟨feRxns grNet (grNet.momentIds true) (R p) fun _ => true, false, t⟩)
      (fun p => fe_rates grNet (R p) R₀ _ t) (fun _ => 1) (fun _ => 1) 1 4 0 3 [0] [0] [0] rfl (fun p => decide (p.1 < 1 + p.2)) (fun p _ => exSpace_spacing p.1) c
    refine ⟨ps, fun l hl => ?_⟩
    obtain ⟨J, -, h3⟩ := h2 l hl
    refine ⟨J, fun G hG => ⟨fun n q m => (h3 3 1 (by omega) (by omega) (by omega) (by omega) n ⟨fun _ => sm _ _, fun _ => qu _ _⟩ (fun _ => []) G hG).1 q m (Or.inl off), ?_⟩⟩
    exact (h3 2 1 (by omega) (by omega) (by omega) (by omega) 0 ⟨fun _ => sm _ _, fun _ => qu _ _⟩ (fun _ => []) G hG).2.2 (3 / 2) 0 (by decide) (by simp) rfl (by simp)
      (by norm_num [centre, exSpace]) one_ne_zero (by norm_num [exSpace]) (by norm_num [exSpace]) (by norm_num [exSpace])
  · obtain ⟨ps, -, h2⟩ := box_boundary_partial (exSpace ℝ) ⟨[3 / 2], fun _ => 1⟩ ⟨feRxns grNet (grNet.momentIds true) R₀ fun _ => true, false, t⟩ (fe_within grNet hl R₀ (fun _ => true)) B (fun p => ⟨feRxns grNet (grNet.momentIds true) (R' p) fun _ => true, false, t⟩)
      (fun p => fe_rates grNet (R' p) R₀ _ t) (fun _ => 1) (fun _ => 1) 1 4 0 3 0 3 [0] [0] [0] rfl (fun p => decide (p.1 < 1 + p.2.1)) (fun p _ => exSpace_spacing p.1) c'
    refine ⟨ps, fun l hl => ?_⟩
    obtain ⟨J, -, h3⟩ := h2 l hl
    exact ⟨J, fun G hG n q m => (h3 3 1 2 (by omega) (by omega) (by omega) (by omega) (by omega) (by omega) n ⟨fun _ => sm _ _, fun _ => qu _ _⟩ (fun _ => []) G hG).1 q m (Or.inl off)⟩

/-- Without diffusion, towards a boundary at the second of three depths: on the left the left neighbour counts, on the right the right one, on the boundary neither. -/
example : (rhsJacobian ((exSpace ℚ).boundSetup2 ⟨[3 / 2], fun _ => 300⟩ 1 1 3 0 1 [] [0] [0] [(0, 0)]) ({ (exSpace ℚ) with sink := fun _ => 0 }.boundValues2 ⟨[3 / 2], fun _ => 300⟩ [] [0] [0] fun _ => []) 5 (fun _ => false) (fun _ => false)
      (fresh ((exSpace ℚ).boundSetup2 ⟨[3 / 2], fun _ => 300⟩ 1 1 3 0 1 [] [0] [0] [(0, 0)]))).map
    (fun r => [r.2 (((1, 0), 0), ((0, 0), 0)), r.2 (((1, 0), 0), ((1, 0), 0)), r.2 (((2, 0), 0), ((1, 0), 0)), r.2 (((2, 0), 0), ((3, 0), 0)), r.2 (((3, 0), 0), ((3, 0), 0)), r.2 (((3, 0), 0), ((4, 0), 0))]) =
      some [1 / 16, -1, 0, 0, -1, 1 / 16] := by decide +kernel

end Space

end Xolotl.Solver.Matrix
