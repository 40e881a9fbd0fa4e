import Verif.Solver.Matrix
import Verif.Solver.CooProps
import Verif.Network.PatternProps
import Verif.Network.WholeProps
import Verif.Transport.StencilProps
import Verif.Transport.AdvectionProps
import Verif.Transport.SoretProps
import Verif.Transport.HeatProps
import Mathlib.Algebra.BigOperators.Group.Finset.Piecewise

set_option linter.unusedSectionVars false

/-!
# The matrix on a grid: properties (C99)
-/

namespace Xolotl.Solver.Matrix

open Xolotl.Solver.Coo Xolotl.Network Xolotl.Transport

variable {P Q K : Type} [Field K] [LinearOrder K]

/-! ### The array -/

/-- Stores between `a` and `b`, none of which overwrites an earlier one. -/
structure Span (a : ℕ) (l : List (Store K)) (b : ℕ) : Prop where
  le : a ≤ b
  mem : ∀ u ∈ l, a ≤ u.idx ∧ u.idx < b
  pw : l.Pairwise fun u w => u.idx = w.idx → w.add = true

theorem Span.nil {a b : ℕ} (h : a ≤ b) : Span a ([] : List (Store K)) b := ⟨h, by simp, .nil⟩

theorem Span.append {a b c : ℕ} {l l' : List (Store K)} (h : Span a l b) (h' : Span b l' c) : Span a (l ++ l') c := by
  refine ⟨h.le.trans h'.le, fun u hu => ?_, List.pairwise_append.mpr ⟨h.pw, h'.pw, fun u hu w hw e => ?_⟩⟩
  · rcases List.mem_append.mp hu with hu | hu
    · exact ⟨(h.mem u hu).1, (h.mem u hu).2.trans_le h'.le⟩
    · exact ⟨h.le.trans (h'.mem u hu).1, (h'.mem u hu).2⟩
  · have := (h.mem u hu).2
    have := (h'.mem w hw).1
    omega

theorem Span.widen {a b c : ℕ} {l : List (Store K)} (h : Span a l b) (hc : b ≤ c) : Span a l c :=
  ⟨h.le.trans hc, fun u hu => ⟨(h.mem u hu).1, (h.mem u hu).2.trans_le hc⟩, h.pw⟩

/-- Stores that overwrite only zeros: every element ends as the sum of what was stored to it. -/
theorem stored (l : List (Store K)) : ∀ v : List K, (∀ u ∈ l, u.idx < v.length) → (l.Pairwise fun u w => u.idx = w.idx → w.add = true) → (∀ u ∈ l, u.add = false → v[u.idx]? = some 0) →
    ∃ v', l.foldlM store v = some v' ∧ v'.length = v.length ∧ ∀ p < v.length, v'[p]? = (v[p]?).map (· + netOf (l.map fun u => (u.idx, u.val)) p) := by
  induction l with
  | nil => exact fun v _ _ _ => ⟨v, rfl, rfl, fun p hp => by rw [List.map_nil, netOf_nil]; simp⟩
  | cons u l ih =>
    intro v h hp h0
    have hu := h u (by simp)
    rw [List.pairwise_cons] at hp
    obtain ⟨v', e, hl, hv⟩ := ih (v.modify u.idx fun x => if u.add then x + u.val else u.val) (fun w hw => by rw [List.length_modify]; exact h w (by simp [hw])) hp.2 fun w hw hwa => by
      rw [List.getElem?_modify]
      have hne : u.idx ≠ w.idx := fun e => by simp [hp.1 w hw e] at hwa
      simp [hne, h0 w (by simp [hw]) hwa]
    refine ⟨v', ?_, by rw [hl, List.length_modify], fun p hp' => ?_⟩
    · simp only [List.foldlM_cons, store, if_pos hu]
      exact e
    · rw [hv p (by rwa [List.length_modify]), List.getElem?_modify, List.map_cons, netOf_cons, List.getElem?_eq_getElem hp']
      by_cases hup : u.idx = p
      · cases ha : u.add with
        | true => simp [hup, add_assoc]
        | false =>
          have := h0 u (by simp) ha
          rw [hup, List.getElem?_eq_getElem hp'] at this
          simp [hup, Option.some.inj this]
      · simp [hup]

/-! ### The indices of the stores -/

theorem span_groups {α : Type} (s v : ℕ) (g : α × ℕ → List (Store K)) (hg : ∀ a i, Span (v + i * s) (g (a, i)) (v + (i + 1) * s)) (l : List α) : ∀ k,
    Span (v + k * s) ((l.zipIdx k).flatMap g) (v + (k + l.length) * s) := by
  induction l with
  | nil => intro k; exact .nil le_rfl
  | cons a l ih =>
    intro k
    rw [List.zipIdx_cons, List.flatMap_cons]
    have := (hg a k).append (ih (k + 1))
    rw [List.length_cons, show k + (l.length + 1) = k + 1 + l.length by omega]
    exact this

theorem span_range (s a : ℕ) (f : ℕ → K) : Span a ((List.range s).map fun k => (⟨a + k, false, f k⟩ : Store K)) (a + s) := by
  refine ⟨by omega, fun u hu => ?_, ?_⟩
  · obtain ⟨k, hk, rfl⟩ := List.mem_map.mp hu
    have := List.mem_range.mp hk
    dsimp only
    omega
  · rw [List.pairwise_map]
    refine List.nodup_range.imp fun {a b} hab e => ?_
    dsimp only at e
    omega

theorem span_temp (V : Values P K) (s : ℕ) (l : List P) : Span 0 (tempS V s l) (l.length * s) := by
  have := span_groups s 0 (fun pi : P × ℕ => (List.range s).map fun k => (⟨pi.2 * s + k, false, V.temp pi.1 k⟩ : Store K)) (fun a i => by
    have := span_range s (i * s) (V.temp a)
    rw [Nat.zero_add, Nat.zero_add, Nat.add_mul, Nat.one_mul]
    exact this) l 0
  simpa [tempS] using this

theorem span_block (V : Values P K) (s : ℕ) (p : P) (b v : ℕ) (ids : List ℕ) : Span v (blockS V s p b v ids) (v + s * ids.length) := by
  have := span_groups s v (fun ci : ℕ × ℕ => (List.range s).map fun k => (⟨v + (ci.2 * s + k), false, V.block b p ci.2 k⟩ : Store K)) (fun a i => by
    have := span_range s (v + i * s) (V.block b p i)
    rw [Nat.add_mul, Nat.one_mul, ← Nat.add_assoc]
    simpa only [Nat.add_assoc] using this) ids 0
  rw [Nat.mul_comm s]
  simpa [blockS] using this

theorem span_blocks (V : Values P K) (s : ℕ) (p : P) (l : List (List ℕ)) : ∀ b v,
    Span v (blocksS V s p b v l).1 (blocksS V s p b v l).2 ∧ (blocksS V s p b v l).2 = v + (l.map fun ids => s * ids.length).sum := by
  induction l with
  | nil => intro b v; exact ⟨.nil le_rfl, rfl⟩
  | cons ids l ih =>
    intro b v
    obtain ⟨h1, h2⟩ := ih (b + 1) (v + s * ids.length)
    simp only [blocksS]
    refine ⟨(span_block V s p b v ids).append h1, ?_⟩
    rw [h2, List.map_cons, List.sum_cons]
    omega

theorem span_advH (V : Values P K) (p : P) (a v : ℕ) (ids : List ℕ) : Span v (advHS V p a v ids) (v + 2 * ids.length) := by
  have := span_groups 2 v (fun ci : ℕ × ℕ => [(⟨v + ci.2 * 2, false, (V.adv a p ci.2).1⟩ : Store K), ⟨v + (ci.2 * 2 + 1), false, (V.adv a p ci.2).2⟩]) (fun a i => by
    refine ⟨by omega, fun u hu => ?_, ?_⟩
    · rcases List.mem_pair.mp hu with rfl | rfl <;> dsimp only <;> omega
    · rw [List.pairwise_pair]; intro e; dsimp only at e; omega) ids 0
  rw [Nat.mul_comm 2]
  simpa [advHS] using this

theorem nAdvec_le (S : Setup P Q) : ∀ h ∈ S.adv, h.ids.length ≤ nAdvec S := by
  have : ∀ (l : List ℕ) (a x : ℕ), (x ∈ l ∨ x ≤ a) → x ≤ l.foldl max a := by
    intro l
    induction l with
    | nil => intro a x hx; simpa using hx
    | cons b l ih =>
      intro a x hx
      refine ih _ _ ?_
      rcases hx with hx | hx
      · rcases List.mem_cons.mp hx with rfl | hx
        · right; exact le_max_right _ _
        · left; exact hx
      · right; exact le_trans hx (le_max_left _ _)
  intro h hh
  exact this _ 0 _ (Or.inl (List.mem_map.mpr ⟨h, hh, rfl⟩))

theorem span_adv (V : Values P K) (n : ℕ) (p : P) (l : List (Handler P Q)) (hl : ∀ h ∈ l, h.ids.length ≤ n) : ∀ a v,
    Span v (advS V n p a v l).1 (advS V n p a v l).2 ∧ (advS V n p a v l).2 = v + 2 * n * l.length := by
  induction l with
  | nil => intro a v; exact ⟨.nil le_rfl, rfl⟩
  | cons h l ih =>
    intro a v
    obtain ⟨h1, h2⟩ := ih (fun x hx => hl x (by simp [hx])) (a + 1) (v + 2 * n)
    have hn := hl h (by simp)
    simp only [advS]
    refine ⟨((span_advH V p a v h.ids).widen (by omega)).append h1, ?_⟩
    rw [h2, List.length_cons, Nat.mul_add]
    omega

theorem span_nw (V : Values P K) (v n : ℕ) (p : P) (h : ∀ u ∈ V.nw p, u.1 < n) : Span v (nwS V v p) (v + n) := by
  refine ⟨by omega, fun u hu => ?_, ?_⟩
  · obtain ⟨w, hw, rfl⟩ := List.mem_map.mp hu
    have := h w hw
    dsimp only
    omega
  · rw [nwS, List.pairwise_map]
    exact List.pairwise_of_forall fun _ _ _ => rfl

theorem span_points (S : Setup P Q) (V : Values P K) (s : ℕ) (skip stop : P → Bool) (hnw : ∀ p, ∀ u ∈ V.nw p, u.1 < S.nw.length) (l : List P) : ∀ v,
    Span v (pointsS S V s skip stop v l) (v + l.length * advance S s) := by
  induction l with
  | nil => intro v; exact .nil (by simp)
  | cons p l ih =>
    intro v
    rw [List.length_cons, Nat.add_mul, Nat.one_mul]
    have hstep := ih (v + advance S s)
    rw [show v + advance S s + l.length * advance S s = v + (l.length * advance S s + advance S s) by omega] at hstep
    rw [pointsS]
    split_ifs with h1 h2
    · exact ⟨by omega, fun u hu => ⟨by have := (hstep.mem u hu).1; omega, (hstep.mem u hu).2⟩, hstep.pw⟩
    · exact (ih v).widen (by omega)
    · obtain ⟨a1, a2⟩ := span_blocks V s p S.blocks 0 v
      obtain ⟨b1, b2⟩ := span_adv V (nAdvec S) p S.adv (nAdvec_le S) 0 (blocksS V s p 0 v S.blocks).2
      have hv : (advS V (nAdvec S) p 0 (blocksS V s p 0 v S.blocks).2 S.adv).2 + S.nw.length = v + advance S s := by rw [b2, a2, advance]; omega
      have n1 := span_nw V (advS V (nAdvec S) p 0 (blocksS V s p 0 v S.blocks).2 S.adv).2 S.nw.length p (hnw p)
      dsimp only
      refine (a1.append (b1.append n1)).append ?_
      rw [hv]
      exact hstep

theorem span_stores (S : Setup P Q) (V : Values P K) (s : ℕ) (skip stop : P → Bool) (hnw : ∀ p, ∀ u ∈ V.nw p, u.1 < S.nw.length) :
    Span 0 (stores S V s skip stop) (S.points.length * s + S.points.length * advance S s) :=
  (span_temp V s S.points).append (span_points S V s skip stop hnw S.points _)

/-! ### What the stores are for -/

/-- The stores, one by one, are the numbers of `C` and go where `W` says. -/
def Fits (W : List (ℕ × Entry P Q)) (st : List (Store K)) (C : List (Entry P Q × K)) : Prop := List.Forall₂ (fun u c => c.2 = u.val ∧ (u.idx, c.1) ∈ W) st C

theorem Fits.append {W W' : List (ℕ × Entry P Q)} {st st' : List (Store K)} {C C' : List (Entry P Q × K)} (h : Fits W st C) (h' : Fits W' st' C') : Fits (W ++ W') (st ++ st') (C ++ C') :=
  List.rel_append (h.imp fun _ _ x => ⟨x.1, List.mem_append_left _ x.2⟩) (h'.imp fun _ _ x => ⟨x.1, List.mem_append_right _ x.2⟩)

theorem fits_flatMap {α : Type} (w : α → List (ℕ × Entry P Q)) (f : α → List (Store K)) (g : α → List (Entry P Q × K)) (h : ∀ a, Fits (w a) (f a) (g a)) (l : List α) :
    Fits (l.flatMap w) (l.flatMap f) (l.flatMap g) := by
  induction l with
  | nil => exact .nil
  | cons a l ih => rw [List.flatMap_cons, List.flatMap_cons, List.flatMap_cons]; exact (h a).append ih

theorem fits_map {α : Type} (w : α → ℕ × Entry P Q) (f : α → Store K) (g : α → Entry P Q × K) (h : ∀ a, (g a).2 = (f a).val ∧ ((f a).idx, (g a).1) = w a) (l : List α) :
    Fits (l.map w) (l.map f) (l.map g) := by
  rw [Fits, List.forall₂_map_left_iff, List.forall₂_map_right_iff, List.forall₂_same]
  exact fun a ha => ⟨(h a).1, by rw [(h a).2]; exact List.mem_map.mpr ⟨a, ha, rfl⟩⟩

theorem range_zipIdx {α : Type} (l : List α) (f : ℕ → Store K) : (List.range l.length).map f = l.zipIdx.map fun qk => f qk.2 := by
  rw [List.range_eq_range', ← List.zipIdx_map_snd 0 l, List.map_map]; rfl

/-- The numbers of the temperature of a point. -/
def tempC (S : Setup P Q) (V : Values P K) (p : P) : List (Entry P Q × K) := (S.cols p).zipIdx.map fun qk => (((p, S.dof), (qk.1, S.dof)), V.temp p qk.2)

/-- The numbers of a kind of diffusion. -/
def blockC (S : Setup P Q) (V : Values P K) (p : P) (b : ℕ) (ids : List ℕ) : List (Entry P Q × K) :=
  ids.zipIdx.flatMap fun ci => (S.cols p).zipIdx.map fun qk => (((p, ci.1), (qk.1, ci.1)), V.block b p ci.2 qk.2)

/-- The numbers of an advection handler. -/
def advC (V : Values P K) (p : P) (a : ℕ) (h : Handler P Q) : List (Entry P Q × K) :=
  h.ids.zipIdx.flatMap fun ci => [(((p, ci.1), ((h.real p).1, ci.1)), (V.adv a p ci.2).1), (((p, ci.1), ((h.real p).2, ci.1)), (V.adv a p ci.2).2)]

/-- The numbers of the network. -/
def nwC (S : Setup P Q) (V : Values P K) (p : P) : List (Entry P Q × K) := (V.nw p).map fun u => (((p, (S.nw.getD u.1 (0, 0)).1), (S.self p, (S.nw.getD u.1 (0, 0)).2)), u.2)

/-- The numbers of a point. -/
def pointC (S : Setup P Q) (V : Values P K) (skip stop : P → Bool) (p : P) : List (Entry P Q × K) :=
  if skip p || stop p then [] else (S.blocks.zipIdx.flatMap fun bi => blockC S V p bi.2 bi.1) ++ ((S.adv.zipIdx.flatMap fun ha => advC V p ha.2 ha.1) ++ nwC S V p)

theorem fits_temp (S : Setup P Q) (V : Values P K) (s : ℕ) (hs : ∀ p, (S.cols p).length = s) : Fits (tempWrites S s) (tempS V s S.points) (S.points.flatMap (tempC S V)) := by
  have e : S.points.flatMap (tempC S V) = S.points.zipIdx.flatMap fun pi => tempC S V pi.1 := by
    conv_lhs => rw [← List.zipIdx_map_fst 0 S.points, List.flatMap_map]
  rw [e]
  refine fits_flatMap _ _ _ (fun pi => ?_) _
  rw [← hs pi.1, range_zipIdx]
  refine fits_map _ _ _ (fun qk => ?_) _
  exact ⟨rfl, rfl⟩

theorem fits_block (S : Setup P Q) (V : Values P K) (s : ℕ) (p : P) (hs : (S.cols p).length = s) (b v : ℕ) (ids : List ℕ) : Fits (blockWrites S s v p ids) (blockS V s p b v ids) (blockC S V p b ids) := by
  refine fits_flatMap _ _ _ (fun ci => ?_) _
  subst hs
  rw [range_zipIdx]
  refine fits_map _ _ _ (fun qk => ?_) _
  exact ⟨rfl, rfl⟩

theorem fits_blocks (S : Setup P Q) (V : Values P K) (s : ℕ) (p : P) (hs : (S.cols p).length = s) (l : List (List ℕ)) : ∀ b v,
    Fits (blocksW S s p v l).1 (blocksS V s p b v l).1 ((l.zipIdx b).flatMap fun bi => blockC S V p bi.2 bi.1) ∧ (blocksW S s p v l).2 = (blocksS V s p b v l).2 := by
  induction l with
  | nil => intro b v; exact ⟨.nil, rfl⟩
  | cons ids l ih =>
    intro b v
    obtain ⟨h1, h2⟩ := ih (b + 1) (v + s * ids.length)
    rw [List.zipIdx_cons, List.flatMap_cons]
    exact ⟨(fits_block S V s p hs b v ids).append h1, h2⟩

theorem fits_advH (V : Values P K) (p : P) (a v : ℕ) (h : Handler P Q) : Fits (advWrites v p h) (advHS V p a v h.ids) (advC V p a h) := by
  refine fits_flatMap _ _ _ (fun ci => ?_) _
  exact .cons ⟨rfl, by simp⟩ (.cons ⟨rfl, by simp⟩ .nil)

theorem fits_adv (V : Values P K) (n : ℕ) (p : P) (l : List (Handler P Q)) : ∀ a v,
    Fits (advW n p v l).1 (advS V n p a v l).1 ((l.zipIdx a).flatMap fun ha => advC V p ha.2 ha.1) ∧ (advW n p v l).2 = (advS V n p a v l).2 := by
  induction l with
  | nil => intro a v; exact ⟨.nil, rfl⟩
  | cons h l ih =>
    intro a v
    obtain ⟨h1, h2⟩ := ih (a + 1) (v + 2 * n)
    rw [List.zipIdx_cons, List.flatMap_cons]
    exact ⟨(fits_advH V p a v h).append h1, h2⟩

theorem fits_nw (S : Setup P Q) (V : Values P K) (v : ℕ) (p : P) (hnw : ∀ u ∈ V.nw p, u.1 < S.nw.length) : Fits (nwWrites S v p) (nwS V v p) (nwC S V p) := by
  rw [Fits, nwS, nwC, List.forall₂_map_left_iff, List.forall₂_map_right_iff, List.forall₂_same]
  refine fun u hu => ⟨rfl, List.mem_map.mpr ⟨(S.nw[u.1]'(hnw u hu), u.1), List.mem_zipIdx_iff_getElem?.mpr (List.getElem?_eq_getElem _), ?_⟩⟩
  simp [List.getD, List.getElem?_eq_getElem (hnw u hu)]

theorem fits_points (S : Setup P Q) (V : Values P K) (s : ℕ) (skip stop : P → Bool) (hs : ∀ p, (S.cols p).length = s) (hnw : ∀ p, ∀ u ∈ V.nw p, u.1 < S.nw.length) (l : List P) : ∀ v,
    Fits (pointsW S s skip stop v l).1 (pointsS S V s skip stop v l) (l.flatMap (pointC S V skip stop)) := by
  induction l with
  | nil => intro v; exact .nil
  | cons p l ih =>
    intro v
    rw [List.flatMap_cons, pointsW, pointsS, pointC]
    by_cases h1 : skip p = true
    · simp only [h1, Bool.true_or, if_true, List.nil_append]
      exact ih _
    · by_cases h2 : stop p = true
      · simp only [h1, h2, Bool.or_true, if_true, List.nil_append]
        exact ih _
      · obtain ⟨a1, a2⟩ := fits_blocks S V s p (hs p) S.blocks 0 v
        obtain ⟨b1, b2⟩ := fits_adv V (nAdvec S) p S.adv 0 (blocksS V s p 0 v S.blocks).2
        simp only [h1, h2, Bool.or_self, if_false, Bool.false_eq_true]
        rw [a2, b2]
        exact (a1.append (b1.append (fits_nw S V _ p (hnw p)))).append (ih _)

theorem fits_stores (S : Setup P Q) (V : Values P K) (s : ℕ) (skip stop : P → Bool) (hs : ∀ p, (S.cols p).length = s) (hnw : ∀ p, ∀ u ∈ V.nw p, u.1 < S.nw.length) :
    Fits (writes S s skip stop) (stores S V s skip stop) (S.points.flatMap (tempC S V) ++ S.points.flatMap (pointC S V skip stop)) :=
  (fits_temp S V s hs).append (fits_points S V s skip stop hs hnw S.points _)

/-! ### The matrix -/

theorem netOf_zip_sum {ι : Type*} [DecidableEq ι] (L : List ι) : ∀ (v : List K) (w : ℕ → K) (k : ι), (∀ i < L.length, v[i]? = some (w i)) →
    netOf (L.zip v) k = ∑ i ∈ Finset.range L.length, if L[i]? = some k then w i else 0 := by
  induction L with
  | nil => intro v w k _; simp [netOf_nil]
  | cons a L ih =>
    intro v w k h
    cases v with
    | nil => simpa using h 0 (by simp)
    | cons x v =>
      rw [List.zip_cons_cons, netOf_cons, List.length_cons, Finset.sum_range_succ', ih v (fun i => w (i + 1)) k fun i hi => by simpa using h (i + 1) (by simpa using hi)]
      have := h 0 (by simp)
      simp only [List.getElem?_cons_zero, Option.some.injEq] at this
      subst this
      simp [add_comm]

theorem sum_fits [DecidableEq P] [DecidableEq Q] (L : List (Option (Entry P Q))) (W : List (ℕ × Entry P Q)) (hW : ∀ i e, (i, e) ∈ W → L[i]? = some (some e)) (e : Entry P Q) {st : List (Store K)} {C : List (Entry P Q × K)}
    (h : Fits W st C) : (∑ i ∈ Finset.range L.length, if L[i]? = some (some e) then netOf (st.map fun u => (u.idx, u.val)) i else 0) = netOf C e := by
  induction h with
  | nil => simp [netOf_nil]
  | @cons u c st C hc _ ih =>
    have hL := hW _ _ hc.2
    have hlt := (List.getElem?_eq_some_iff.mp hL).1
    simp only [List.map_cons, netOf_cons]
    rw [← ih, ← hc.1]
    have : ∀ i, (if L[i]? = some (some e) then ((if u.idx = i then c.2 else 0) + netOf (st.map fun u => (u.idx, u.val)) i) else 0) =
        (if u.idx = i then (if c.1 = e then c.2 else 0) else 0) + (if L[i]? = some (some e) then netOf (st.map fun u => (u.idx, u.val)) i else 0) := by
      intro i
      by_cases hi : u.idx = i
      · subst hi
        by_cases he : c.1 = e <;> simp [hL, he]
      · simp [hi]
    rw [Finset.sum_congr rfl fun i _ => this i, Finset.sum_add_distrib, Finset.sum_ite_eq]
    simp [hlt]

/-- **C99** One evaluation of the matrix on a grid, from an array of zeros on: no access leaves the array, the array is zero again, and every entry of the matrix is the sum of the numbers computed for its row and column, and of no others.
Needed: the loop over the points never stops at a point without advancing the index, all advection handlers have equally many clusters and announce the columns that they write. -/
theorem matrix_sum_partial [DecidableEq P] [DecidableEq Q] (S : Setup P Q) (V : Values P K) (s : ℕ) (skip stop : P → Bool) (hs : ∀ p, (S.cols p).length = s) (hstop : ∀ p ∈ S.points, stop p = true → skip p = true)
    (hadv : ∀ p, ∀ h ∈ S.adv, h.ids.length = nAdvec S ∧ h.reg p = h.real p) (hnw : ∀ p, ∀ u ∈ V.nw p, u.1 < S.nw.length) :
    ∃ J, rhsJacobian S V s skip stop (fresh S) = some (fresh S, J) ∧ ∀ e, J e = netOf (S.points.flatMap (tempC S V) ++ S.points.flatMap (pointC S V skip stop)) e := by
  have hsp := span_stores S V s skip stop hnw
  have hlen : (slots S).length = S.points.length * s + S.points.length * advance S s := by
    rw [slots, List.length_append, tempSlots_length S s hs]
    have : ∀ p, (pointSlots S p).length = advance S s := fun p => by
      have h1 := pointSlots_length S s p (hs p)
      have h2 : (S.adv.map fun h => nAdvec S - h.ids.length).sum = 0 := by
        refine List.sum_eq_zero_iff_forall_eq_nat.mpr fun x hx => ?_
        obtain ⟨h, hh, rfl⟩ := List.mem_map.mp hx
        have := (hadv p h hh).1; omega
      omega
    rw [List.length_flatMap, List.map_congr_left fun p _ => this p, List.map_const', List.sum_replicate, smul_eq_mul]
  obtain ⟨v, ev, hv1, hv2⟩ := stored (stores S V s skip stop) (fresh S) (fun u hu => by
    have := (hsp.mem u hu).2
    rw [fresh, List.length_replicate]; omega) hsp.pw fun u hu _ => by
      have := (hsp.mem u hu).2
      rw [fresh, List.getElem?_replicate, if_pos (by omega)]
  rw [fresh, List.length_replicate] at hv1 hv2
  refine ⟨fun e => 0 + netOf ((slots S).zip v) (some e), ?_, fun e => ?_⟩
  · rw [rhsJacobian, ev, Option.bind_some, addCoo, if_pos (by omega), Option.map_some]
    congr 2
    rw [fresh, List.map_const', hv1]
  · dsimp only
    rw [zero_add, netOf_zip_sum (slots S) v (fun i => netOf ((stores S V s skip stop).map fun u => (u.idx, u.val)) i) (some e) fun i hi => by
      rw [hv2 i (by omega), List.getElem?_replicate, if_pos (by omega)]; simp]
    exact sum_fits (slots S) (writes S s skip stop) (fun i e h => ((placed_partial S s skip stop hs hstop hadv i e).mp h).1) e (fits_stores S V s skip stop hs hnw)


/-! ### The derivative of the right-hand side -/

/-- The state with one component replaced. -/
def upd [DecidableEq Q] (c : Q → ℕ → K) (q : Q) (m : ℕ) (x : K) : Q → ℕ → K := fun q' m' => if q' = q ∧ m' = m then x else c q' m'

/-- The sum of the numbers whose point of the stencil is `q`. -/
def colSum [DecidableEq Q] (cols : List Q) (v : ℕ → K) (q : Q) : K := netOf (cols.zipIdx.map fun qk => (qk.1, v qk.2)) q

/-- The numbers are term by term the derivatives of the terms of the right-hand side in the component `m` of the state at `q`. -/
structure Local [DecidableEq Q] (S : Setup P Q) (V : Values P ℝ) (T : Terms P Q ℝ) (skip stop : P → Bool) (c : Q → ℕ → ℝ) (p : P) (n : ℕ) (q : Q) (m : ℕ) : Prop where
  temp : n = S.dof → HasDerivAt (fun x => T.temp p (upd c q m x)) (if m = S.dof then colSum (S.cols p) (V.temp p) q else 0) (c q m)
  block : skip p = false → stop p = false → ∀ b ids, S.blocks[b]? = some ids → ∀ i : ℕ, ids[i]? = some n →
    HasDerivAt (fun x => T.block b p i (upd c q m x)) (if m = n then colSum (S.cols p) (V.block b p i) q else 0) (c q m)
  adv : skip p = false → stop p = false → ∀ a h, S.adv[a]? = some h → ∀ i : ℕ, h.ids[i]? = some n →
    HasDerivAt (fun x => T.adv a p i (upd c q m x)) (if m = n then (if (h.real p).1 = q then (V.adv a p i).1 else 0) + (if (h.real p).2 = q then (V.adv a p i).2 else 0) else 0) (c q m)
  nw : skip p = false → stop p = false →
    HasDerivAt (fun x => netOf (T.nw p (upd c q m x (S.self p))) n) (if S.self p = q then netOf ((V.nw p).map fun u => (S.nw.getD u.1 (0, 0), u.2)) (n, m) else 0) (c q m)

theorem deriv_flatMap {α ι κ : Type} [DecidableEq ι] [DecidableEq κ] (f : α → ℝ → List (ι × ℝ)) (g : α → List (κ × ℝ)) (n : ι) (e : κ) (x : ℝ) (l : List α)
    (h : ∀ a ∈ l, HasDerivAt (fun x => netOf (f a x) n) (netOf (g a) e) x) : HasDerivAt (fun x => netOf (l.flatMap fun a => f a x) n) (netOf (l.flatMap g) e) x := by
  induction l with
  | nil => simp only [List.flatMap_nil, netOf_nil]; exact hasDerivAt_const _ _
  | cons a l ih =>
    simp only [List.flatMap_cons, netOf_append]
    exact (h a (by simp)).add (ih fun b hb => h b (by simp [hb]))

theorem netOf_map_key {α ι κ : Type} [DecidableEq ι] [DecidableEq κ] (l : List α) (f : α → ι) (g : α → κ) (v : α → K) (n : ι) (e : κ) (h : ∀ a ∈ l, f a = n ↔ g a = e) :
    netOf (l.map fun a => (f a, v a)) n = netOf (l.map fun a => (g a, v a)) e := by
  induction l with
  | nil => rfl
  | cons a l ih =>
    rw [List.map_cons, List.map_cons, netOf_cons, netOf_cons, ih fun b hb => h b (by simp [hb])]
    simp only [h a (by simp)]

variable [DecidableEq P] [DecidableEq Q]

theorem net_cols (cols : List Q) (v : ℕ → K) (p : P) (d n m : ℕ) (q : Q) :
    netOf (cols.zipIdx.map fun qk => ((((p, d), (qk.1, d)) : Entry P Q), v qk.2)) ((p, n), (q, m)) = if d = n then (if m = n then colSum cols v q else 0) else 0 := by
  split_ifs with h1 h2
  · subst h1 h2
    exact netOf_map_key _ _ _ _ _ _ fun a _ => by simp
  · subst h1
    refine netOf_eq_zero fun u hu e => ?_
    obtain ⟨w, -, rfl⟩ := List.mem_map.mp hu
    simp only [Prod.mk.injEq, true_and] at e
    exact h2 e.2.symm
  · refine netOf_eq_zero fun u hu e => ?_
    obtain ⟨w, -, rfl⟩ := List.mem_map.mp hu
    simp only [Prod.mk.injEq, true_and] at e
    exact h1 e.1

theorem net_rows (f : P → List (Entry P Q × K)) (hf : ∀ p, ∀ u ∈ f p, u.1.1.1 = p) (l : List P) (hl : l.Nodup) (p : P) (hp : p ∈ l) (n : ℕ) (y : Q × ℕ) : netOf (l.flatMap f) ((p, n), y) = netOf (f p) ((p, n), y) := by
  induction l with
  | nil => simp at hp
  | cons a l ih =>
    rw [List.nodup_cons] at hl
    rw [List.flatMap_cons, netOf_append]
    rcases List.mem_cons.mp hp with rfl | hp
    · rw [show netOf (l.flatMap f) ((p, n), y) = 0 from netOf_eq_zero fun u hu e => by
        obtain ⟨b, hb, hu⟩ := List.mem_flatMap.mp hu
        have := hf b u hu
        rw [e] at this
        dsimp only at this
        exact hl.1 (this ▸ hb), add_zero]
    · rw [ih hl.2 hp, show netOf (f a) ((p, n), y) = 0 from netOf_eq_zero fun u hu e => by
        have := hf a u hu
        rw [e] at this
        exact hl.1 (this ▸ hp), zero_add]

theorem tempC_row (S : Setup P Q) (V : Values P K) (p : P) : ∀ u ∈ tempC S V p, u.1.1.1 = p := fun u hu => by
  obtain ⟨w, -, rfl⟩ := List.mem_map.mp hu
  rfl

theorem pointC_row (S : Setup P Q) (V : Values P K) (skip stop : P → Bool) (p : P) : ∀ u ∈ pointC S V skip stop p, u.1.1.1 = p := fun u hu => by
  rw [pointC] at hu
  split_ifs at hu
  · simp at hu
  · simp only [blockC, advC, nwC, List.mem_append, List.mem_flatMap, List.mem_map, List.mem_cons, List.not_mem_nil, or_false] at hu
    rcases hu with ⟨_, _, _, _, _, _, rfl⟩ | ⟨_, _, _, _, rfl | rfl⟩ | ⟨_, _, rfl⟩ <;> rfl

/-- **C99** On a grid of any dimension: where the numbers are term by term the derivatives of the terms, the matrix that PETSc gets from one evaluation is the derivative of the whole right-hand side, entry by entry: for every local point and degree of
freedom as row and every point and degree of freedom as column, inside and outside of the announced pattern. -/
theorem matrix_jacobian_partial (S : Setup P Q) (V : Values P ℝ) (s : ℕ) (skip stop : P → Bool) (hs : ∀ p, (S.cols p).length = s) (hstop : ∀ p ∈ S.points, stop p = true → skip p = true)
    (hadv : ∀ p, ∀ h ∈ S.adv, h.ids.length = nAdvec S ∧ h.reg p = h.real p) (hnw : ∀ p, ∀ u ∈ V.nw p, u.1 < S.nw.length) (hn : S.points.Nodup) :
    ∃ J, rhsJacobian S V s skip stop (fresh S) = some (fresh S, J) ∧
      ∀ (T : Terms P Q ℝ) (c : Q → ℕ → ℝ), ∀ p ∈ S.points, ∀ n q m, Local S V T skip stop c p n q m → HasDerivAt (fun x => F S T skip stop (upd c q m x) p n) (J ((p, n), (q, m))) (c q m) := by
  obtain ⟨J, h1, h2⟩ := matrix_sum_partial S V s skip stop hs hstop hadv hnw
  refine ⟨J, h1, fun T c p hp n q m L => ?_⟩
  rw [h2, netOf_append, net_rows _ (tempC_row S V) _ hn p hp, net_rows _ (pointC_row S V skip stop) _ hn p hp]
  simp only [F, applyUpdates_eq, zero_add, additions, netOf_cons]
  refine HasDerivAt.add ?_ ?_
  · rw [tempC, net_cols]
    by_cases hd : S.dof = n
    · simp only [hd, if_true]
      have := L.temp hd.symm
      rw [hd] at this
      exact this
    · simp only [hd, if_false]
      exact hasDerivAt_const _ _
  · rw [pointC]
    by_cases hk : (skip p || stop p) = true
    · simp only [hk, if_true, netOf_nil]
      exact hasDerivAt_const _ _
    · simp only [hk, Bool.false_eq_true, if_false, netOf_append]
      simp only [Bool.or_eq_true, not_or, Bool.not_eq_true] at hk
      refine HasDerivAt.add ?_ ?_
      · refine deriv_flatMap _ _ _ _ _ _ fun bi hbi => ?_
        rw [List.mem_zipIdx_iff_getElem?] at hbi
        have : ∀ x, (bi.1.zipIdx.map fun ci => (ci.1, T.block bi.2 p ci.2 (upd c q m x))) = bi.1.zipIdx.flatMap fun ci => [(ci.1, T.block bi.2 p ci.2 (upd c q m x))] := fun x => List.map_eq_flatMap
        simp only [this]
        refine deriv_flatMap _ _ _ _ _ _ fun ci hci => ?_
        rw [List.mem_zipIdx_iff_getElem?] at hci
        rw [net_cols]
        simp only [netOf_cons, netOf_nil, add_zero]
        by_cases hc : ci.1 = n
        · simp only [hc, if_true]
          exact L.block hk.1 hk.2 _ _ hbi _ (hc ▸ hci)
        · simp only [hc, if_false]
          exact hasDerivAt_const _ _
      · refine ((?_ : HasDerivAt _ _ _).const_add _)
        refine HasDerivAt.add ?_ ?_
        · refine deriv_flatMap _ _ _ _ _ _ fun ha hha => ?_
          rw [List.mem_zipIdx_iff_getElem?] at hha
          have : ∀ x, (ha.1.ids.zipIdx.map fun ci => (ci.1, T.adv ha.2 p ci.2 (upd c q m x))) = ha.1.ids.zipIdx.flatMap fun ci => [(ci.1, T.adv ha.2 p ci.2 (upd c q m x))] := fun x => List.map_eq_flatMap
          simp only [this]
          refine deriv_flatMap _ _ _ _ _ _ fun ci hci => ?_
          rw [List.mem_zipIdx_iff_getElem?] at hci
          simp only [netOf_cons, netOf_nil, add_zero, Prod.mk.injEq, true_and]
          by_cases hc : ci.1 = n
          · have := L.adv hk.1 hk.2 _ _ hha _ (hc ▸ hci)
            simp only [hc, if_true, true_and]
            refine this.congr_deriv ?_
            by_cases hm : m = n
            · simp [hm]
            · simp [hm, Ne.symm hm]
          · simp only [hc, if_false, false_and, add_zero]
            exact hasDerivAt_const _ _
        · refine (L.nw hk.1 hk.2).congr_deriv ?_
          split_ifs with hq
          · exact netOf_map_key _ _ _ _ _ _ fun u _ => by simp [hq, Prod.ext_iff]
          · refine (netOf_eq_zero fun u hu e => ?_).symm
            obtain ⟨w, -, rfl⟩ := List.mem_map.mp hu
            simp only [Prod.mk.injEq] at e
            exact hq e.2.1

/-! ### One dimension -/

namespace Line

open Function

theorem upd_deriv {Q : Type} [DecidableEq Q] (c : Q → ℕ → ℝ) (q : Q) (m : ℕ) (q' : Q) (n : ℕ) : HasDerivAt (fun x => upd c q m x q' n) (if q' = q ∧ n = m then 1 else 0) (c q m) := by
  unfold upd
  split_ifs
  · exact hasDerivAt_id _
  · exact hasDerivAt_const _ _

theorem colSum_cols1 (v : ℕ → ℝ) (i : ℕ) (q : ℤ) : colSum (cols1 i) v q = (if (i : ℤ) = q then v 0 else 0) + ((if (i : ℤ) - 1 = q then v 1 else 0) + (if (i : ℤ) + 1 = q then v 2 else 0)) := by
  simp [colSum, cols1, netOf_cons, netOf_nil, List.zipIdx_cons]

theorem lin_deriv (k a b d : ℝ) (c : ℤ → ℕ → ℝ) (i n : ℕ) (q : ℤ) (m : ℕ) :
    HasDerivAt (fun x => k + (a * (st (upd c q m x) i n).mid + b * (st (upd c q m x) i n).left + d * (st (upd c q m x) i n).right)) (if m = n then colSum (cols1 i) (nth ⟨a, b, d⟩) q else 0) (c q m) := by
  have := ((((upd_deriv c q m i n).const_mul a).add ((upd_deriv c q m ((i : ℤ) - 1) n).const_mul b)).add ((upd_deriv c q m ((i : ℤ) + 1) n).const_mul d)).const_add k
  refine this.congr_deriv ?_
  rw [colSum_cols1]
  by_cases h : m = n
  · subst h
    simp [nth, add_assoc]
  · simp [h, Ne.symm h]

/-- The heat equation as a function of one component of the state. -/
theorem heat_deriv (h : Heat.Ctx ℝ) (i dof : ℕ) (c : ℤ → ℕ → ℝ) (q : ℤ) (m : ℕ) (v : ℝ × ℝ × ℝ) (h0 : HasDerivAt (Heat.along h i (stT c i dof) 0) v.1 (stT c i dof 0)) (h1 : HasDerivAt (Heat.along h i (stT c i dof) 1) v.2.1 (stT c i dof 1))
    (h2 : HasDerivAt (Heat.along h i (stT c i dof) 2) v.2.2 (stT c i dof 2)) :
    HasDerivAt (fun x => Heat.rhs h i (stT (upd c q m x) i dof)) (if m = dof then colSum (cols1 i) (fun k => if k = 0 then v.1 else if k = 1 then v.2.1 else v.2.2) q else 0) (c q m) := by
  have key : ∀ k q', (∀ x, stT (upd c q' dof x) i dof = update (stT c i dof) k x) → stT c i dof k = c q' dof → ∀ d, HasDerivAt (Heat.along h i (stT c i dof) k) d (stT c i dof k) →
      HasDerivAt (fun x => Heat.rhs h i (stT (upd c q' dof x) i dof)) d (c q' dof) := by
    intro k q' e e' d hd
    simp only [e, ← e']
    exact hd
  rw [colSum_cols1]
  by_cases hm : m = dof
  · subst hm
    by_cases e0 : (i : ℤ) = q
    · subst e0
      have := key 0 i (fun x => by funext k; by_cases a : k = 0 <;> simp [stT, upd, a]) (by simp [stT]) _ h0
      simpa using this
    · by_cases e1 : (i : ℤ) - 1 = q
      · subst e1
        have := key 1 ((i : ℤ) - 1) (fun x => by
          funext k
          by_cases a : k = 1
          · simp [stT, a]; simp [upd]
          · have : ¬((i : ℤ) + 1 = i - 1) := by omega
            simp [stT, upd, a, this, e0]) (by simp [stT]) _ h1
        have n2 : ¬((i : ℤ) + 1 = i - 1) := by omega
        simpa [n2, e0] using this
      · by_cases e2 : (i : ℤ) + 1 = q
        · subst e2
          have n2 : ¬((i : ℤ) - 1 = i + 1) := by omega
          have := key 2 ((i : ℤ) + 1) (fun x => by
            funext k
            by_cases a : k = 2
            · simp [stT, a]; simp [upd]
            · simp [stT, upd, a, n2]) (by simp [stT]) _ h2
          simpa [n2] using this
        · simp only [e0, e1, e2, if_false, add_zero, if_true]
          refine (hasDerivAt_const _ (Heat.rhs h i (stT c i m))).congr_of_eventuallyEq (Filter.Eventually.of_forall fun x => ?_)
          dsimp only
          rw [show stT (upd c q m x) i m = stT c i m from by funext k; simp [stT, upd, e0, e1, e2]]
  · simp only [hm, if_false]
    refine (hasDerivAt_const _ (Heat.rhs h i (stT c i dof))).congr_of_eventuallyEq (Filter.Eventually.of_forall fun x => ?_)
    dsimp only
    rw [show stT (upd c q m x) i dof = stT c i dof from by funext k; simp [stT, upd, Ne.symm hm]]

/-! #### The network -/

open Pattern Conn

variable {d D : ℕ}

theorem pairs_position {ts : List (List (Option ℕ × Option ℕ))} (B : Build D ts) {r k p : ℕ} (hr : r < D) (hp : B.crs.getPosition r k = some p) : (FillMap.pairs D (FillMap.diagonal B.crs D))[p]? = some (r, k) := by
  have := FillMap.pairs_position B.rows r k p (by rwa [B.length]) hp
  rw [B.length] at this
  exact this

theorem place_back {ts : List (List (Option ℕ × Option ℕ))} (B : Build D ts) : ∀ (us : List ((ℕ × ℕ) × ℝ)) (ps : List (ℕ × ℝ)), (∀ u ∈ us, u.1.1 < D) → place B.crs us = some ps →
    (ps.map fun q => ((FillMap.pairs D (FillMap.diagonal B.crs D)).getD q.1 (0, 0), q.2)) = us ∧ ∀ q ∈ ps, q.1 < (FillMap.pairs D (FillMap.diagonal B.crs D)).length := by
  intro us
  induction us with
  | nil => intro ps _ h; simp [place] at h; subst h; simp
  | cons u us ih =>
    intro ps hu h
    rw [place, List.mapM_cons] at h
    simp only [Option.bind_eq_bind, Option.pure_def, Option.bind_eq_some_iff, Option.map_eq_some_iff, Option.some.injEq] at h
    obtain ⟨_, ⟨p, hp, rfl⟩, ps', hps, rfl⟩ := h
    obtain ⟨h1, h2⟩ := ih ps' (fun w hw => hu w (by simp [hw])) hps
    have := pairs_position B (hu u (by simp)) hp
    refine ⟨?_, ?_⟩
    · rw [List.map_cons, h1]
      simp [List.getD, this]
    · intro q hq
      rcases List.mem_cons.mp hq with rfl | hq
      · exact (List.getElem?_eq_some_iff.mp this).1
      · exact h2 q hq

theorem places_back {ts : List (List (Option ℕ × Option ℕ))} (B : Build D ts) : ∀ (us : List (List ((ℕ × ℕ) × ℝ))) (ps : List (List (ℕ × ℝ))), (∀ t ∈ us, ∀ u ∈ t, u.1.1 < D) → us.mapM (place B.crs) = some ps →
    (ps.flatten.map fun q => ((FillMap.pairs D (FillMap.diagonal B.crs D)).getD q.1 (0, 0), q.2)) = us.flatten ∧ ∀ q ∈ ps.flatten, q.1 < (FillMap.pairs D (FillMap.diagonal B.crs D)).length := by
  intro us
  induction us with
  | nil => intro ps _ h; simp at h; subst h; simp
  | cons t us ih =>
    intro ps hu h
    rw [List.mapM_cons] at h
    simp only [Option.bind_eq_bind, Option.pure_def, Option.bind_eq_some_iff, Option.some.injEq] at h
    obtain ⟨qs, hq, ps', hps, rfl⟩ := h
    obtain ⟨h1, h2⟩ := ih ps' (fun w hw => hu w (by simp [hw])) hps
    obtain ⟨h3, h4⟩ := place_back B t qs (hu t (by simp)) hq
    refine ⟨by rw [List.flatten_cons, List.flatten_cons, List.map_append, h1, h3], fun q hq => ?_⟩
    rw [List.flatten_cons, List.mem_append] at hq
    rcases hq with hq | hq
    · exact h4 q hq
    · exact h2 q hq

/-- The additions of the network at one point: every one has a position, and with the coordinates in place of the positions they are the contributions of the reactions. -/
theorem network_rows (M₀ : Network d ℝ) (hw : ∀ r ∈ M₀.rxns, r.Within D) (B : Build D (requests M₀.rxns)) (M : Network d ℝ) (hM : M.rxns.map Rxn.connectivity = M₀.rxns.map Rxn.connectivity) (c : ℕ → ℝ) (depth spacing : ℝ) :
    ∃ ps, (M.partialThreads c depth spacing).mapM (place B.crs) = some ps ∧ ∀ l, Interleaves ps l → (∀ u ∈ l, u.1 < (FillMap.pairs D (FillMap.diagonal B.crs D)).length) ∧
      ∀ e, netOf (l.map fun u => ((FillMap.pairs D (FillMap.diagonal B.crs D)).getD u.1 (0, 0), u.2)) e = netOf (M.partialThreads c depth spacing).flatten e := by
  obtain ⟨ps, e, -⟩ := matrix_exact M₀ M hw hM B (Pattern.start B.nPartials fun _ _ => 0) rfl c depth spacing
  have hrow : ∀ t ∈ M.partialThreads c depth spacing, ∀ u ∈ t, u.1.1 < D := fun t ht u hu => by
    obtain ⟨r, hr, rfl⟩ := List.mem_map.mp ht
    have h1 : u.1 ∈ M₀.rxns.flatMap Rxn.connectivity := by
      rw [List.flatMap_def, ← hM, ← List.flatMap_def]
      exact M.network_connectivity_covers _ c r hr u hu
    exact within_rows hw _ u.1.2 (Pattern.mem_requests.mpr h1)
  obtain ⟨h1, h2⟩ := places_back B _ _ hrow e
  exact ⟨ps, e, fun l hl => ⟨fun u hu => h2 u (hl.perm.mem_iff.mp hu), fun y => by rw [netOf_perm (hl.perm.map _), h1]⟩⟩

theorem network_local {Q : Type} [DecidableEq Q] (M : Network d ℝ) (c : Q → ℕ → ℝ) (s : Q) (hM : Smooth M (c s)) (depth spacing : ℝ) (n : ℕ) (hq : Quiet M n) (q : Q) (m : ℕ) (G : (ℕ → ℝ) → List (ℕ × ℝ))
    (hG : ∀ c', Interleaves (M.fluxThreads c' depth spacing) (G c')) :
    HasDerivAt (fun x => netOf (G (upd c q m x s)) n) (if s = q then netOf (M.partialThreads (c s) depth spacing).flatten (n, m) else 0) (c q m) := by
  split_ifs with hs
  · subst hs
    have e : ∀ x, upd c s m x s = update (c s) m x := fun x => by funext k; by_cases hkm : k = m <;> simp [upd, hkm]
    simp only [e]
    exact M.network_jacobian_rows hM.prod (c s) hM.nuc depth spacing n m hq _ (fun x => hG _) _ (Interleaves.sequential _)
  · have e : ∀ x, upd c q m x s = c s := fun x => by funext k; simp [upd, hs]
    simp only [e]
    exact hasDerivAt_const _ _

/-! #### The temperature -/

/-- Where the heat equation's numbers are right. -/
def Inner (E : Line ℝ) (D : ℕ) (c : ℤ → ℕ → ℝ) (i : ℕ) (h : Heat.Ctx ℝ) : Prop :=
  h.dim ≤ 1 ∧ hxLeft E.tgrid i ≠ 0 ∧ hxRight E.nX E.tgrid i ≠ 0 ∧ hxLeft E.tgrid i + hxRight E.nX E.tgrid i ≠ 0 ∧ Heat.capacity (c i D) ≠ 0 ∧ i ≠ h.surf ∧ i ≠ h.bulk ∧ ¬Heat.atInterface h i

theorem temp_deriv (E : Line ℝ) (D : ℕ) (c : ℤ → ℕ → ℝ) (i : ℕ) (hi : ∀ h, E.heat = some h → tempTimes E.nX E.robin (free1 E.nX E.left E.right E.gb) i = 0 ∨ Inner E D c i h) (q : ℤ) (m : ℕ) :
    HasDerivAt (fun x => E.termT D i (upd c q m x)) (if m = D then colSum (cols1 i) (E.valueT D c i) q else 0) (c q m) := by
  unfold termT valueT
  cases hh : E.heat with
  | none =>
    simp only [colSum_cols1]
    refine (hasDerivAt_const _ _).congr_deriv ?_
    simp
  | some h =>
    dsimp only
    rcases hi h hh with h0 | h0
    · simp only [h0, Nat.cast_zero, zero_mul, colSum_cols1]
      refine (hasDerivAt_const _ _).congr_deriv ?_
      simp
    · obtain ⟨i1, i2, i3, i4, i5, i6, i7, i8⟩ := h0
      obtain ⟨a, b, e⟩ := Heat.interior_partial (E.ctx h i) i (stT c i D) i1 i2 i3 i4 (by simpa [stT] using i5) i6 i7 i8
      refine ((heat_deriv (E.ctx h i) i D c q m _ a b e).const_mul _).congr_deriv ?_
      simp only [colSum_cols1]
      split_ifs <;> simp [mul_add]

/-! #### The matrix -/

/-- What the statement needs at row `(i, n)`: in the temperature's row the heat equation is not used, not evaluated at the point, or the point is in the interior, and in the rows of clusters at points with transport and reactions
the spacings are not zero, Soret diffusion sees concentrations above the threshold, the network is smooth and no trap mutation of the desorbing cluster changes the row. -/
structure Regular (E : Line ℝ) (D : ℕ) (soret : List ℕ) (M : Network d ℝ) (c : ℤ → ℕ → ℝ) (i n : ℕ) : Prop where
  heat : n = D → ∀ h, E.heat = some h → tempTimes E.nX E.robin (free1 E.nX E.left E.right E.gb) i = 0 ∨ Inner E D c i h
  spacing : E.skip i = false → E.hL i ≠ 0 ∧ E.hR i ≠ 0 ∧ E.hL i + E.hR i ≠ 0
  soret : E.skip i = false → n ∈ soret → E.eps ≤ |c i n| ∨ E.eps ≤ |c ((i : ℤ) - 1) n| ∨ E.eps ≤ |c ((i : ℤ) + 1) n|
  smooth : E.skip i = false → Smooth M (c i)
  quiet : E.skip i = false → Quiet M n

variable (E : Line ℝ)

/-- **C99** In one dimension the matrix that PETSc gets is the Jacobian of the right-hand side: the terms of the temperature, Soret diffusion, diffusion, the advection towards the surface, the source and the reactions of every local point together, for every
order of the additions of the network in the matrix (`l`) and in the right-hand side (`G`), in every regular row and in all columns. -/
theorem line_jacobian_partial (M₀ : Network d ℝ) (hw : ∀ r ∈ M₀.rxns, r.Within D) (B : Build D (requests M₀.rxns)) (M : ℕ → Network d ℝ) (hM : ∀ i, (M i).rxns.map Rxn.connectivity = M₀.rxns.map Rxn.connectivity)
    (depth spacing : ℕ → ℝ) (xs xm : ℕ) (h0 : 1 ≤ E.left ∨ 1 ≤ xs) (soret dif : List ℕ) (adv : List (List ℕ)) (na : ℕ) (hna : ∀ ids ∈ adv, ids.length = na) (c : ℤ → ℕ → ℝ) :
    ∃ ps : ℕ → List (List (ℕ × ℝ)), (∀ i, ((M i).partialThreads (c i) (depth i) (spacing i)).mapM (place B.crs) = some (ps i)) ∧ ∀ l : ℕ → List (ℕ × ℝ), (∀ i, Interleaves (ps i) (l i)) →
      ∃ J, rhsJacobian (setup1 D xs xm soret dif (adv.map surface) (FillMap.pairs D (FillMap.diagonal B.crs D))) (E.values D soret dif adv l c) 3 E.skip stop
          (fresh (setup1 D xs xm soret dif (adv.map surface) (FillMap.pairs D (FillMap.diagonal B.crs D)))) =
            some (fresh (setup1 D xs xm soret dif (adv.map surface) (FillMap.pairs D (FillMap.diagonal B.crs D))), J) ∧
        ∀ i, xs ≤ i → i < xs + xm → ∀ n, Regular E D soret (M i) c i n → ∀ (q : ℤ) (m : ℕ) (G : ℕ → (ℕ → ℝ) → List (ℕ × ℝ)), (∀ i c', Interleaves ((M i).fluxThreads c' (depth i) (spacing i)) (G i c')) →
          HasDerivAt (fun x => F (setup1 D xs xm soret dif (adv.map surface) (FillMap.pairs D (FillMap.diagonal B.crs D))) (E.terms D soret dif adv G) E.skip stop (upd c q m x) i n) (J ((i, n), (q, m))) (c q m) := by
  choose ps hps hnw using fun i : ℕ => network_rows M₀ hw B (M i) (hM i) (c i) (depth i) (spacing i)
  refine ⟨ps, hps, fun l hl => ?_⟩
  set S := setup1 D xs xm soret dif (adv.map surface) (FillMap.pairs D (FillMap.diagonal B.crs D)) with hS
  have hna' : adv ≠ [] → nAdvec S = na := by
    intro hne
    have : ∀ (l : List (List ℕ)) (a : ℕ), (∀ ids ∈ l, ids.length = na) → (l ≠ [] ∨ a = na) → a ≤ na → (((l.map surface).map fun h => h.ids.length).foldl max a) = na := by
      intro l
      induction l with
      | nil => intro a _ h _; simpa using h
      | cons x l ih =>
        intro a h _ ha
        have hx := h x (by simp)
        simp only [List.map_cons, List.foldl_cons]
        refine ih _ (fun y hy => h y (by simp [hy])) (Or.inr ?_) ?_ <;> simp [surface, hx, ha]
    exact this adv 0 hna (Or.inl hne) (Nat.zero_le _)
  obtain ⟨J, hJ, hder⟩ := matrix_jacobian_partial S (E.values D soret dif adv l c) 3 E.skip stop (fun p => rfl) (fun p hp hstop => by
      have h1 : p = 0 := by simpa [stop] using hstop
      have h2 := List.mem_range'_1.mp hp
      have : ¬E.left ≤ 0 := by omega
      simp [skip, free1, h1, this]) (fun p h hh => by
      obtain ⟨ids, hi, rfl⟩ := List.mem_map.mp hh
      exact ⟨by rw [hna' (List.ne_nil_of_mem hi)]; exact hna ids hi, by simp [surface, advCols]⟩) (fun p u hu => (hnw p _ (hl p)).1 u hu) List.nodup_range'
  refine ⟨J, hJ, fun i hi1 hi2 n R q m G hG => ?_⟩
  refine hder (E.terms D soret dif adv G) c i (List.mem_range'_1.mpr ⟨hi1, hi2⟩) n q m ⟨fun hn => ?_, fun hk _ b ids hb' k hk' => ?_, fun hk _ a h ha k hk' => ?_, fun hk _ => ?_⟩
  · -- the temperature
    show HasDerivAt (fun x => E.termT D i (upd c q m x)) (if m = D then colSum (cols1 i) (E.valueT D c i) q else 0) (c q m)
    exact E.temp_deriv D c i (fun h hh => R.heat hn h hh) q m
  · -- Soret diffusion and diffusion
    obtain ⟨g1, g2, g3⟩ := R.spacing hk
    match b with
    | 0 =>
      have : ids = soret := by simpa [hS, setup1] using hb'.symm
      subst this
      have hn : ids.getD k 0 = n := by simp [List.getD, hk']
      have hne := R.soret hk (List.mem_of_getElem? hk')
      simp only [terms, values, if_true, hn]
      set pt := Soret.part E.eps (E.beta k) (E.hL i) (E.hR i) (E.dif i n) (E.temp i) (st c i n) ⟨0, 0, 0⟩ with hpt
      have e : ∀ x, Soret.rate (E.beta k) (E.hL i) (E.hR i) (E.dif i n) (E.temp i) (st (upd c q m x) i n) =
          (Soret.rate (E.beta k) (E.hL i) (E.hR i) (E.dif i n) (E.temp i) (st c i n) - (pt.mid * (st c i n).mid + pt.left * (st c i n).left + pt.right * (st c i n).right)) +
            (pt.mid * (st (upd c q m x) i n).mid + pt.left * (st (upd c q m x) i n).left + pt.right * (st (upd c q m x) i n).right) := fun x => by
        have := Soret.rate_increment_partial E.eps (E.beta k) (E.hL i) (E.hR i) (E.dif i n) (E.temp i) (st c i n) (st (upd c q m x) i n) ⟨0, 0, 0⟩ hne
        rw [← hpt] at this
        linarith
      simp only [e]
      exact lin_deriv _ pt.mid pt.left pt.right c i n q m
    | 1 =>
      have : ids = dif := by simpa [hS, setup1] using hb'.symm
      subst this
      have hn : ids.getD k 0 = n := by simp [List.getD, hk']
      simp only [terms, values, if_false, hn, one_ne_zero]
      set pt := part1 (E.hL i) (E.hR i) (E.dif i n) (E.dmask i k) with hpt
      have e : ∀ x, conc1 (E.hL i) (E.hR i) (E.dif i n) (E.dmask i k) (st (upd c q m x) i n) =
          0 + (pt.mid * (st (upd c q m x) i n).mid + pt.left * (st (upd c q m x) i n).left + pt.right * (st (upd c q m x) i n).right) := fun x => by
        rw [conc1_eq _ _ g1 g2 g3, zero_add]
      simp only [e]
      exact lin_deriv _ pt.mid pt.left pt.right c i n q m
    | b + 2 => simp [hS, setup1] at hb'
  · -- advection
    have ha' : ∃ ids, adv[a]? = some ids ∧ h = surface ids := by
      simp only [hS, setup1, List.getElem?_map, Option.map_eq_some_iff] at ha
      obtain ⟨ids, h1, h2⟩ := ha
      exact ⟨ids, h1, h2.symm⟩
    obtain ⟨ids, ha1, rfl⟩ := ha'
    have hn : (adv.getD a []).getD k 0 = n := by
      have : ids[k]? = some n := hk'
      simp [List.getD, ha1, this]
    simp only [terms, values, hn, surface]
    simp only [Adv.surf_eq]
    refine (((upd_deriv c q m i n).const_mul _).add ((upd_deriv c q m ((i : ℤ) + 1) n).const_mul _)).congr_deriv ?_
    by_cases hm : m = n
    · simp [hm]
    · simp [hm, Ne.symm hm]
  · -- the network
    show HasDerivAt (fun x => netOf (G i (upd c q m x (i : ℤ))) n) (if (i : ℤ) = q then netOf ((l i).map fun u => ((FillMap.pairs D (FillMap.diagonal B.crs D)).getD u.1 (0, 0), u.2)) (n, m) else 0) (c q m)
    rw [(hnw i _ (hl i)).2]
    exact network_local (M i) c i (R.smooth hk) (depth i) (spacing i) n (R.quiet hk) q m (G i) (hG i)

end Line

namespace Line

/-- At the surface of the heat equation the matrix is not the Jacobian: with a heat flux, the number on the diagonal is not the derivative of the temperature's rate. -/
theorem line_surface_wrong (E : Line ℝ) (h : Heat.Ctx ℝ) (hh : E.heat = some h) (D xs xm i : ℕ) (h0 : 1 ≤ E.left ∨ 1 ≤ xs) (hi1 : xs ≤ i) (hi2 : i < xs + xm) (ht : tempTimes E.nX E.robin (free1 E.nX E.left E.right E.gb) i ≠ 0) (hs : h.surf = i) (hd : h.dim ≤ 1)
    (hL : hxLeft E.tgrid i ≠ 0) (hR : hxRight E.nX E.tgrid i ≠ 0) (hf : h.flux ≠ 0) (c : ℤ → ℕ → ℝ) (h300 : c i D = 300) :
    ∃ J, rhsJacobian (setup1 D xs xm [] [] [] []) (E.values D [] [] [] (fun _ => []) c) 3 E.skip stop (fresh (setup1 D xs xm [] [] [] [])) = some (fresh (setup1 D xs xm [] [] [] []), J) ∧
      ¬HasDerivAt (fun x => F (setup1 D xs xm [] [] [] []) (E.terms D [] [] [] fun _ _ => []) E.skip stop (upd c i D x) i D) (J ((i, D), ((i : ℤ), D))) (c i D) := by
  obtain ⟨J, hJ, hsum⟩ := matrix_sum_partial (setup1 D xs xm [] [] [] []) (E.values D [] [] [] (fun _ => []) c) 3 E.skip stop (fun _ => rfl) (fun p hp hstop => by
      have h1 : p = 0 := by simpa [stop] using hstop
      have h2 := List.mem_range'_1.mp hp
      have : ¬E.left ≤ 0 := by omega
      simp [skip, free1, h1, this]) (fun p a ha => by simp [setup1] at ha) (fun p u hu => by simp [values] at hu)
  refine ⟨J, hJ, fun hder => ?_⟩
  have hp : i ∈ (setup1 D xs xm [] [] [] []).points := List.mem_range'_1.mpr ⟨hi1, hi2⟩
  have hpc : pointC (setup1 D xs xm [] [] [] []) (E.values D [] [] [] (fun _ => []) c) E.skip stop i = [] := by simp [pointC, setup1, blockC, nwC, values]
  have hnd : (setup1 D xs xm [] [] [] []).points.Nodup := List.nodup_range'
  rw [hsum, netOf_append, net_rows _ (tempC_row _ _) _ hnd i hp, net_rows _ (pointC_row _ _ _ _) _ hnd i hp, hpc, netOf_nil, add_zero, tempC, net_cols] at hder
  simp only [setup1, if_true, colSum_cols1] at hder
  have n1 : ¬((i : ℤ) - 1 = i) := by omega
  have n2 : ¬((i : ℤ) + 1 = i) := by omega
  simp only [n1, n2, if_false, if_true, add_zero, values, valueT, hh] at hder
  set t : ℝ := (tempTimes E.nX E.robin (free1 E.nX E.left E.right E.gb) i : ℝ) with htt
  have ht' : t ≠ 0 := by rw [htt]; exact_mod_cast ht
  have e : ∀ x, stT (upd c i D x) i D = Function.update (stT c i D) 0 x := fun x => by funext k; by_cases a : k = 0 <;> simp [stT, upd, a]
  have hF : ∀ x, F (setup1 D xs xm [] [] [] []) (E.terms D [] [] [] fun _ _ => []) E.skip stop (upd c i D x) i D =
      t * Heat.along (E.ctx h i) (E.ctx h i).surf (stT c i D) 0 x + netOf (if E.skip i || stop i then [] else E.src i) D := fun x => by
    have : (E.ctx h i).surf = i := hs
    simp only [F, applyUpdates_eq, zero_add, additions, netOf_cons, Heat.along, ← e, this]
    congr 1
    · simp [setup1, terms, termT, hh, htt]
    · split_ifs <;> simp [setup1, terms]
  have hder' := (hder.sub_const (netOf (if E.skip i || stop i then [] else E.src i) D)).const_mul t⁻¹
  have hc0 : stT c i D 0 = c i D := by simp [stT]
  refine Heat.surface_wrong (E.ctx h i) (stT c i D) hd hL hR (by rw [hc0, h300]) hf ?_
  rw [hc0]
  have ef : Heat.along (E.ctx h i) (E.ctx h i).surf (stT c i D) 0 = fun x => t⁻¹ * (F (setup1 D xs xm [] [] [] []) (E.terms D [] [] [] fun _ _ => []) E.skip stop (upd c i D x) i D - netOf (if E.skip i || stop i then [] else E.src i) D) := by
    funext x
    rw [hF, add_sub_cancel_right, inv_mul_cancel_left₀ ht']
  rw [ef]
  refine hder'.congr_deriv ?_
  have : (E.ctx h i).surf = i := hs
  rw [inv_mul_cancel_left₀ ht', this]

/-- Four points, a diffusing cluster, and no surface at the left: unit spacings and coefficients. -/
def exLine : Line ℚ := ⟨4, 0, 1, [], false, fun i => i, fun i => i, 1 / 1000000, 1, fun _ => ⟨1, 1, 1⟩, fun _ _ => ⟨1, 1, 1⟩, fun _ => 0, fun _ _ => ⟨1, 1, 1⟩, fun _ _ _ => (1, 1), fun _ _ => 0, fun _ => 0, none, fun _ => []⟩

/-- Without a surface at the left the matrix is not the Jacobian: the first row of the right-hand side is constant, and its entry on the diagonal of the matrix is not zero, as it gets the number of the second row, whose own entry gets that of the third. -/
theorem line_reflecting_wrong :
    (∀ c, F (setup1 1 0 4 [] [0] [] []) (exLine.terms 1 [] [0] [] fun _ _ => []) exLine.skip stop c 0 0 = 0) ∧
      ∃ a J, rhsJacobian (setup1 1 0 4 [] [0] [] []) (exLine.values 1 [] [0] [] (fun _ => []) fun _ _ => 1) 3 exLine.skip stop (fresh (setup1 1 0 4 [] [0] [] [])) = some (a, J) ∧ J ((0, 0), ((0 : ℤ), 0)) = -2 ∧
        J ((0, 0), ((1 : ℤ), 0)) = 1 := by
  refine ⟨fun c => by simp [F, additions, setup1, stop, applyUpdates_eq, netOf_cons, netOf_nil], ?_⟩
  have h : ((rhsJacobian (setup1 1 0 4 [] [0] [] []) (exLine.values 1 [] [0] [] (fun _ => []) fun _ _ => 1) 3 exLine.skip stop (fresh (setup1 1 0 4 [] [0] [] []))).map fun r => (r.2 ((0, 0), ((0 : ℤ), 0)), r.2 ((0, 0), ((1 : ℤ), 0)))) = some (-2, 1) := by
    decide +kernel
  obtain ⟨⟨a, J⟩, hr, e⟩ := Option.map_eq_some_iff.mp h
  simp only [Prod.mk.injEq] at e
  exact ⟨a, J, hr, e⟩

end Line


namespace Line

open Pattern Conn Dispatch

theorem fe_regular (N : Net Unit [()]) (R : Rates ℝ) (mob : ℕ → Bool) (t : TmData ℝ) (c : ℕ → ℝ) (n : ℕ) : Smooth (⟨feRxns N (N.momentIds true) R mob, false, t⟩ : Network 2 ℝ) c ∧ Quiet (⟨feRxns N (N.momentIds true) R mob, false, t⟩ : Network 2 ℝ) n :=
  ⟨net_smooth N _ R _ _ _ (fun _ _ _ hq _ => (fe_shape hq).2) _ rfl _, net_quiet N _ R _ _ _ _ rfl _⟩

theorem fe_rates (N : Net Unit [()]) (R R' : Rates ℝ) (mob : ℕ → Bool) (t : TmData ℝ) :
    (⟨feRxns N (N.momentIds true) R mob, false, t⟩ : Network 2 ℝ).rxns.map Rxn.connectivity = (⟨feRxns N (N.momentIds true) R' mob, false, t⟩ : Network 2 ℝ).rxns.map Rxn.connectivity := net_rates N _ R R' _ _ _

/-- **C99** Iron in one dimension, with diffusion, the advection towards the surface and a given temperature: all rows and columns, for every layout of the network, all rates at every point, all concentrations and every order of the additions. -/
theorem line_fe (N : Net Unit [()]) (hN : Laid N) (R₀ : Rates ℝ) (R : ℕ → Rates ℝ) (mob : ℕ → Bool) (t : TmData ℝ) (B : Build (N.dofs true) (requests (feRxns N (N.momentIds true) R₀ mob))) (E : Line ℝ) (hheat : E.heat = none)
    (hsp : ∀ i, E.skip i = false → E.hL i ≠ 0 ∧ E.hR i ≠ 0 ∧ E.hL i + E.hR i ≠ 0) (depth spacing : ℕ → ℝ) (xs xm : ℕ) (h0 : 1 ≤ E.left ∨ 1 ≤ xs) (dif adv : List ℕ) (c : ℤ → ℕ → ℝ) :
    ∃ ps : ℕ → List (List (ℕ × ℝ)), (∀ i, ((⟨feRxns N (N.momentIds true) (R i) mob, false, t⟩ : Network 2 ℝ).partialThreads (c i) (depth i) (spacing i)).mapM (place B.crs) = some (ps i)) ∧ ∀ l : ℕ → List (ℕ × ℝ), (∀ i, Interleaves (ps i) (l i)) →
      ∃ J, rhsJacobian (setup1 (N.dofs true) xs xm [] dif [surface adv] (FillMap.pairs (N.dofs true) (FillMap.diagonal B.crs (N.dofs true)))) (E.values (N.dofs true) [] dif [adv] l c) 3 E.skip stop
          (fresh (setup1 (N.dofs true) xs xm [] dif [surface adv] (FillMap.pairs (N.dofs true) (FillMap.diagonal B.crs (N.dofs true))))) =
            some (fresh (setup1 (N.dofs true) xs xm [] dif [surface adv] (FillMap.pairs (N.dofs true) (FillMap.diagonal B.crs (N.dofs true)))), J) ∧
        ∀ i, xs ≤ i → i < xs + xm → ∀ n (q : ℤ) (m : ℕ) (G : ℕ → (ℕ → ℝ) → List (ℕ × ℝ)),
          (∀ i c', Interleaves ((⟨feRxns N (N.momentIds true) (R i) mob, false, t⟩ : Network 2 ℝ).fluxThreads c' (depth i) (spacing i)) (G i c')) →
          HasDerivAt (fun x => F (setup1 (N.dofs true) xs xm [] dif [surface adv] (FillMap.pairs (N.dofs true) (FillMap.diagonal B.crs (N.dofs true)))) (E.terms (N.dofs true) [] dif [adv] G) E.skip stop (upd c q m x) i n) (J ((i, n), (q, m))) (c q m) := by
  obtain ⟨ps, h1, h2⟩ := line_jacobian_partial E ⟨feRxns N (N.momentIds true) R₀ mob, false, t⟩ (fe_within N hN R₀ mob) B (fun i => ⟨feRxns N (N.momentIds true) (R i) mob, false, t⟩) (fun i => fe_rates N (R i) R₀ mob t) depth spacing xs xm h0 [] dif [adv]
    adv.length (by simp) c
  refine ⟨ps, h1, fun l hl => ?_⟩
  obtain ⟨J, hJ, h3⟩ := h2 l hl
  exact ⟨J, hJ, fun i hi1 hi2 n q m G hG => h3 i hi1 hi2 n ⟨fun _ h hh => by simp [hheat] at hh, hsp i, fun _ hn => by simp at hn,
    fun _ => (fe_regular N (R i) mob t _ n).1, fun _ => (fe_regular N (R i) mob t (c i) n).2⟩ q m G hG⟩

/-- Six points of unit spacing between two free surfaces. -/
noncomputable def exUnit : Line ℝ := ⟨6, 1, 1, [], false, fun i => i, fun i => i, 1 / 1000000, 1, fun _ => ⟨900, 900, 900⟩, fun _ n => ⟨n, n, n⟩, fun _ => 0, fun _ _ => ⟨1, 1, 1⟩, fun _ _ _ => (1, 1), fun _ _ => 1, fun _ => 0, none, fun _ => []⟩

theorem exUnit_spacing (i : ℕ) : exUnit.hL i ≠ 0 ∧ exUnit.hR i ≠ 0 ∧ exUnit.hL i + exUnit.hR i ≠ 0 := by
  have a : exUnit.hL i = 1 := by
    simp only [hL, hxLeft, exUnit]
    split_ifs with h1
    · simp
    · obtain ⟨k, rfl⟩ : ∃ k, i = k + 1 := ⟨i - 1, by omega⟩
      simp; ring
  have b : exUnit.hR i = 1 := by
    simp only [hR, hxRight, exUnit]
    split_ifs <;> push_cast <;> ring_nf <;> simp
  rw [a, b]
  norm_num

/-- The iron network `grNet` on the points 1 to 4, with its first cluster diffusing and drifting: executions of the build exist, and the theorem applies. -/
example (R₀ : Rates ℝ) (R : ℕ → Rates ℝ) (t : TmData ℝ) (c : ℤ → ℕ → ℝ) : ∃ B : Build (grNet.dofs true) (requests (feRxns grNet (grNet.momentIds true) R₀ fun _ => true)), ∃ ps : ℕ → List (List (ℕ × ℝ)),
    ∀ l : ℕ → List (ℕ × ℝ), (∀ i, Interleaves (ps i) (l i)) → ∃ J : Entry ℕ ℤ → ℝ, ∀ (G : ℕ → (ℕ → ℝ) → List (ℕ × ℝ)), (∀ i c', Interleaves ((⟨feRxns grNet (grNet.momentIds true) (R i) fun _ => true, false, t⟩ : Network 2 ℝ).fluxThreads c' 1 1) (G i c')) → ∀ n q m,
      HasDerivAt (fun x => F (setup1 (grNet.dofs true) 1 4 [] [0] [surface [0]] (FillMap.pairs (grNet.dofs true) (FillMap.diagonal B.crs (grNet.dofs true)))) (exUnit.terms (grNet.dofs true) [] [0] [[0]] G) exUnit.skip stop (upd c q m x) 2 n)
        (J ((2, n), (q, m))) (c q m) := by
  have hl : Laid grNet := ⟨grNet_ready.lay, grNet_ready.singleI, grNet_ready.singleV⟩
  obtain ⟨B⟩ := build_exists (grNet.dofs true) (requests (feRxns grNet (grNet.momentIds true) R₀ fun _ => true)) (within_rows (fe_within grNet hl R₀ _))
  obtain ⟨ps, -, h2⟩ := line_fe grNet hl R₀ R (fun _ => true) t B exUnit rfl (fun i _ => exUnit_spacing i) (fun _ => 1) (fun _ => 1) 1 4 (Or.inl le_rfl) [0] [0] c
  refine ⟨B, ps, fun l hl => ?_⟩
  obtain ⟨J, -, h3⟩ := h2 l hl
  exact ⟨J, fun G hG n q m => h3 2 (by omega) (by omega) n q m G hG⟩

/-- The point 2 is not passed over. -/
example : exUnit.skip 2 = false ∧ exUnit.skip 0 = true ∧ exUnit.skip 5 = true := by simp [skip, free1, exUnit]

/-- Two points of a line with a diffusing cluster and a reaction: the numbers of both rows, and the array zero again. -/
example : (rhsJacobian (setup1 2 1 2 [] [0] [] [(0, 0), (0, 1)]) ({ exLine with left := 1 }.values 2 [] [0] [] (fun i => [(1, 7), (0, -3), (1, i)]) fun _ _ => 1) 3 { exLine with left := 1 }.skip stop
      (fresh (setup1 2 1 2 [] [0] [] [(0, 0), (0, 1)]))).map
    (fun r => (r.1.all (· = 0), r.2 ((1, 0), ((1 : ℤ), 0)), r.2 ((1, 0), ((2 : ℤ), 0)), r.2 ((2, 0), ((2 : ℤ), 1)), r.2 ((2, 0), ((1 : ℤ), 0)), r.2 ((2, 1), ((1 : ℤ), 0)))) = some (true, -5, 1, 9, 1, 0) := by decide +kernel

/-- A heated surface: the hypotheses of `line_surface_wrong`. -/
example : ∃ J, rhsJacobian (setup1 3 0 6 [] [] [] []) ({ exUnit with heat := some ⟨1, 0, 5, fun i => i, 0, 1, 1, 1, 1, fun _ => 1⟩ }.values 3 [] [] [] (fun _ => []) fun _ _ => 300) 3 exUnit.skip stop (fresh (setup1 3 0 6 [] [] [] [])) =
      some (fresh (setup1 3 0 6 [] [] [] []), J) ∧
    ¬HasDerivAt (fun x => F (setup1 3 0 6 [] [] [] []) ({ exUnit with heat := some ⟨1, 0, 5, fun i => i, 0, 1, 1, 1, 1, fun _ => 1⟩ }.terms 3 [] [] [] fun _ _ => []) exUnit.skip stop (upd (fun _ _ => 300) 0 3 x) 0 3) (J ((0, 3), ((0 : ℤ), 3))) 300 :=
  line_surface_wrong { exUnit with heat := some ⟨1, 0, 5, fun i => i, 0, 1, 1, 1, 1, fun _ => 1⟩ } _ rfl 3 0 6 0 (Or.inl le_rfl) le_rfl (by omega) (by simp [tempTimes]) rfl le_rfl (exUnit_spacing 0).1 (exUnit_spacing 0).2.1 one_ne_zero
    (fun _ _ => 300) rfl

/-- The place used for the advection towards the surface is the middle between the two entries of the grid around the point, measured from the surface. -/
theorem pos_middle (E : Line K) [IsStrictOrderedRing K] (i : ℕ) : E.pos i - (E.grid i - E.grid 1) = (E.grid (i + 1) - E.grid 1) - E.pos i := by
  unfold pos
  ring

/-- Without a heat equation the temperature has neither a rate nor numbers in the matrix. -/
theorem no_heat (E : Line K) [IsStrictOrderedRing K] (h : E.heat = none) (dof i k : ℕ) (c : ℤ → ℕ → K) : E.termT dof i c = 0 ∧ E.valueT dof c i k = 0 := by
  unfold termT valueT
  rw [h]
  exact ⟨rfl, rfl⟩

end Line


/-! ### Two and three dimensions -/

namespace Space

open Line

open Pattern Conn

variable {d D : ℕ}

theorem lin_deriv {Q : Type} [DecidableEq Q] (v : ℕ → ℝ) (c : Q → ℕ → ℝ) (n : ℕ) (q : Q) (m : ℕ) (l : List (Q × ℕ)) :
    HasDerivAt (fun x => (l.map fun qk => v qk.2 * upd c q m x qk.1 n).sum) (if m = n then netOf (l.map fun qk => (qk.1, v qk.2)) q else 0) (c q m) := by
  induction l with
  | nil => simpa [netOf_nil] using hasDerivAt_const (c q m) (0 : ℝ)
  | cons a l ih =>
    simp only [List.map_cons, List.sum_cons, netOf_cons]
    refine (((upd_deriv c q m a.1 n).const_mul (v a.2)).add ih).congr_deriv ?_
    by_cases hm : m = n
    · by_cases ha : a.1 = q <;> simp [hm, ha]
    · simp [hm, Ne.symm hm]

/-- What a row needs where the transport is linear. -/
structure Row {P : Type} (skip : P → Bool) (M : Network d ℝ) (cs : ℕ → ℝ) (p : P) (n : ℕ) : Prop where
  smooth : skip p = false → Smooth M cs
  quiet : skip p = false → Quiet M n

/-- Where the transport is linear with the numbers as coefficients, the matrix is the Jacobian of the right-hand side. -/
theorem linear_jacobian {P Q : Type} [DecidableEq P] [DecidableEq Q] (M₀ : Network d ℝ) (hw : ∀ r ∈ M₀.rxns, r.Within D) (B : Build D (requests M₀.rxns)) (M : P → Network d ℝ)
    (hM : ∀ p, (M p).rxns.map Rxn.connectivity = M₀.rxns.map Rxn.connectivity) (depth spacing : P → ℝ) (S : Setup P Q) (hnw : S.nw = FillMap.pairs D (FillMap.diagonal B.crs D)) (hn : S.points.Nodup) (s : ℕ) (hs : ∀ p, (S.cols p).length = s)
    (hadv : ∀ p, ∀ h ∈ S.adv, h.ids.length = nAdvec S ∧ h.reg p = h.real p) (skip : P → Bool) (c : Q → ℕ → ℝ) :
    ∃ ps : P → List (List (ℕ × ℝ)), (∀ p, ((M p).partialThreads (c (S.self p)) (depth p) (spacing p)).mapM (place B.crs) = some (ps p)) ∧ ∀ V : Values P ℝ, (∀ p, Interleaves (ps p) (V.nw p)) →
      ∃ J, rhsJacobian S V s skip (fun _ => false) (fresh S) = some (fresh S, J) ∧
        ∀ T : Terms P Q ℝ, (∀ p c, T.temp p c = 0) → (∀ p k, V.temp p k = 0) →
          (∀ p, skip p = false → ∀ (b : ℕ) ids, S.blocks[b]? = some ids → ∀ (k n : ℕ), ids[k]? = some n → ∀ c, T.block b p k c = ((S.cols p).zipIdx.map fun qk => V.block b p k qk.2 * c qk.1 n).sum) →
          (∀ p, skip p = false → ∀ (a : ℕ) h, S.adv[a]? = some h → ∀ (k n : ℕ), h.ids[k]? = some n → ∀ c, T.adv a p k c = (V.adv a p k).1 * c (h.real p).1 n + (V.adv a p k).2 * c (h.real p).2 n) →
          (∀ p c', Interleaves ((M p).fluxThreads c' (depth p) (spacing p)) (T.nw p c')) →
          ∀ p ∈ S.points, ∀ n, Row skip (M p) (c (S.self p)) p n → ∀ q m, HasDerivAt (fun x => F S T skip (fun _ => false) (upd c q m x) p n) (J ((p, n), (q, m))) (c q m) := by
  choose ps hps hrow using fun p : P => network_rows M₀ hw B (M p) (hM p) (c (S.self p)) (depth p) (spacing p)
  refine ⟨ps, hps, fun V hV => ?_⟩
  obtain ⟨J, hJ, hder⟩ := matrix_jacobian_partial S V s skip (fun _ => false) hs (fun p _ h => by simp at h) hadv (fun p u hu => by rw [hnw]; exact (hrow p _ (hV p)).1 u hu) hn
  refine ⟨J, hJ, fun T ht hvt hb ha hG p hp n R q m => hder T c p hp n q m ⟨fun _ => ?_, fun hk _ b ids hb' k hk' => ?_, fun hk _ a h ha' k hk' => ?_, fun hk _ => ?_⟩⟩
  · simp only [ht]
    refine (hasDerivAt_const _ _).congr_deriv ?_
    have : ∀ l : List (Q × ℕ), netOf (l.map fun qk => (qk.1, V.temp p qk.2)) q = 0 := fun l => by
      induction l with
      | nil => simp [netOf_nil]
      | cons a l ih => rw [List.map_cons, netOf_cons, ih]; simp [hvt]
    simp [colSum, this]
  · simp only [hb p hk b ids hb' k n hk']
    exact lin_deriv (V.block b p k) c n q m _
  · simp only [ha p hk a h ha' k n hk']
    refine (((upd_deriv c q m (h.real p).1 n).const_mul _).add ((upd_deriv c q m (h.real p).2 n).const_mul _)).congr_deriv ?_
    by_cases hm : m = n
    · simp [hm]
    · simp [hm, Ne.symm hm]
  · rw [hnw, (hrow p _ (hV p)).2]
    exact network_local (M p) c (S.self p) (R.smooth hk) (depth p) (spacing p) n (R.quiet hk) q m (T.nw p) (hG p)

theorem points2_nodup (xs xm ys ym : ℕ) : ((List.range' ys ym).flatMap fun j => (List.range' xs xm).map fun i => (i, j)).Nodup := by
  rw [List.nodup_flatMap]
  refine ⟨fun j _ => List.Nodup.map (fun a b h => by simpa using h) List.nodup_range', ?_⟩
  refine List.Pairwise.imp ?_ (List.nodup_range' (s := ys) (n := ym))
  intro a b hab
  simp only [Function.onFun, List.disjoint_left, List.mem_map]
  rintro _ ⟨i, -, rfl⟩ ⟨i', -, h⟩
  exact hab (by simp at h; exact h.2.symm)

theorem points3_nodup (xs xm ys ym zs zm : ℕ) : ((List.range' zs zm).flatMap fun k => (List.range' ys ym).flatMap fun j => (List.range' xs xm).map fun i => (i, j, k)).Nodup := by
  rw [List.nodup_flatMap]
  refine ⟨fun k _ => ?_, ?_⟩
  · have := (points2_nodup xs xm ys ym).map (f := fun p : ℕ × ℕ => (p.1, p.2, k)) (fun a b h => by simpa [Prod.ext_iff] using h)
    simpa [List.map_flatMap, Function.comp_def] using this
  · refine List.Pairwise.imp ?_ (List.nodup_range' (s := zs) (n := zm))
    intro a b hab
    simp only [Function.onFun, List.disjoint_left, List.mem_flatMap, List.mem_map]
    rintro _ ⟨j, -, i, -, rfl⟩ ⟨j', -, i', -, h⟩
    exact hab (by simp at h; exact h.2.2.symm)

theorem adv_len {P Q : Type} (f : List ℕ → Handler P Q) (hf : ∀ ids, (f ids).ids = ids) (S : Setup P Q) (adv : Option (List ℕ)) (hS : S.adv = adv.toList.map f) (h : Handler P Q) (hh : h ∈ S.adv) : h.ids.length = nAdvec S := by
  cases adv with
  | none => simp [hS] at hh
  | some ids =>
    have : h = f ids := by simpa [hS] using hh
    simp [nAdvec, hS, this, hf]

variable (E : Space ℝ)

/-- **C99** The same in two dimensions, for the network, diffusion and the advection towards the surface, whatever the positions of the surface (`skip`). -/
theorem plane_jacobian_partial (M₀ : Network d ℝ) (hw : ∀ r ∈ M₀.rxns, r.Within D) (B : Build D (requests M₀.rxns)) (M : ℕ × ℕ → Network d ℝ) (hM : ∀ p, (M p).rxns.map Rxn.connectivity = M₀.rxns.map Rxn.connectivity)
    (depth spacing : ℕ × ℕ → ℝ) (xs xm ys ym : ℕ) (dif : List ℕ) (adv : Option (List ℕ)) (skip : ℕ × ℕ → Bool) (hsp : ∀ p, skip p = false → hxLeft E.grid p.1 ≠ 0 ∧ hxRight E.nX E.grid p.1 ≠ 0 ∧ hxLeft E.grid p.1 + hxRight E.nX E.grid p.1 ≠ 0)
    (c : ℤ × ℤ → ℕ → ℝ) :
    ∃ ps : ℕ × ℕ → List (List (ℕ × ℝ)), (∀ p, ((M p).partialThreads (c (p.1, p.2)) (depth p) (spacing p)).mapM (place B.crs) = some (ps p)) ∧ ∀ l : ℕ × ℕ → List (ℕ × ℝ), (∀ p, Interleaves (ps p) (l p)) →
      ∃ J, rhsJacobian (setup2 D xs xm ys ym dif adv (FillMap.pairs D (FillMap.diagonal B.crs D))) (E.values2 dif (adv.getD []) l) 5 skip (fun _ => false)
          (fresh (setup2 D xs xm ys ym dif adv (FillMap.pairs D (FillMap.diagonal B.crs D)))) =
            some (fresh (setup2 D xs xm ys ym dif adv (FillMap.pairs D (FillMap.diagonal B.crs D))), J) ∧
        ∀ i j, xs ≤ i → i < xs + xm → ys ≤ j → j < ys + ym → ∀ n, Row skip (M (i, j)) (c (i, j)) (i, j) n → ∀ (src : ℕ × ℕ → List (ℕ × ℝ)) (G : ℕ × ℕ → (ℕ → ℝ) → List (ℕ × ℝ)),
          (∀ p c', Interleaves ((M p).fluxThreads c' (depth p) (spacing p)) (G p c')) → ∀ (q : ℤ × ℤ) (m : ℕ),
          HasDerivAt (fun x => F (setup2 D xs xm ys ym dif adv (FillMap.pairs D (FillMap.diagonal B.crs D))) (E.terms2 dif (adv.getD []) src G) skip (fun _ => false) (upd c q m x) (i, j) n) (J (((i, j), n), (q, m))) (c q m) := by
  set S := setup2 D xs xm ys ym dif adv (FillMap.pairs D (FillMap.diagonal B.crs D)) with hS
  obtain ⟨ps, h1, h2⟩ := linear_jacobian M₀ hw B M hM depth spacing S rfl (points2_nodup xs xm ys ym) 5 (fun _ => rfl)
    (fun p h hh => ⟨adv_len _ (fun _ => rfl) S adv rfl h hh, by obtain ⟨ids, -, rfl⟩ := List.mem_map.mp hh; rfl⟩) skip c
  refine ⟨ps, h1, fun l hl => ?_⟩
  obtain ⟨J, hJ, h3⟩ := h2 (E.values2 dif (adv.getD []) l) hl
  refine ⟨J, hJ, fun i j hi1 hi2 hj1 hj2 n R src G hG q m => ?_⟩
  refine h3 (E.terms2 dif (adv.getD []) src G) (fun _ _ => rfl) (fun _ _ => rfl) (fun p hp b ids hb k n hk c => ?_) (fun p hp a h ha k n hk c => ?_) hG (i, j) ?_ n R q m
  · match b with
    | 0 =>
      have : ids = dif := by simpa [hS, setup2] using hb.symm
      subst this
      have hn : ids.getD k 0 = n := by simp [List.getD, hk]
      obtain ⟨g1, g2, g3⟩ := hsp p hp
      simp only [terms2, values2, hn]
      rw [conc2_eq _ _ _ g1 g2 g3]
      simp [hS, setup2, cols2, List.zipIdx_cons, nth]
      ring
    | b + 1 => simp [hS, setup2] at hb
  · cases adv with
    | none => simp [hS, setup2] at ha
    | some ids =>
      have h' : h ∈ S.adv := List.mem_of_getElem? ha
      have hi : h.ids = ids ∧ h.real p = (((p.1 : ℤ), (p.2 : ℤ)), ((p.1 : ℤ) + 1, (p.2 : ℤ))) := by
        obtain ⟨ids', hm, rfl⟩ := List.mem_map.mp h'
        simp at hm
        exact ⟨by rw [hm], rfl⟩
      have hn : ids.getD k 0 = n := by rw [hi.1] at hk; simp [List.getD, hk]
      rw [hi.2]
      simp only [terms2, values2, Option.getD_some, hn, advRate, advPart, Adv.surf_eq]
  · exact List.mem_flatMap.mpr ⟨j, List.mem_range'_1.mpr ⟨hj1, hj2⟩, List.mem_map.mpr ⟨i, List.mem_range'_1.mpr ⟨hi1, hi2⟩, rfl⟩⟩

/-- **C99** The same in three dimensions. -/
theorem box_jacobian_partial (M₀ : Network d ℝ) (hw : ∀ r ∈ M₀.rxns, r.Within D) (B : Build D (requests M₀.rxns)) (M : ℕ × ℕ × ℕ → Network d ℝ) (hM : ∀ p, (M p).rxns.map Rxn.connectivity = M₀.rxns.map Rxn.connectivity)
    (depth spacing : ℕ × ℕ × ℕ → ℝ) (xs xm ys ym zs zm : ℕ) (dif : List ℕ) (adv : Option (List ℕ)) (skip : ℕ × ℕ × ℕ → Bool) (hsp : ∀ p, skip p = false → hxLeft E.grid p.1 ≠ 0 ∧ hxRight E.nX E.grid p.1 ≠ 0 ∧ hxLeft E.grid p.1 + hxRight E.nX E.grid p.1 ≠ 0)
    (c : ℤ × ℤ × ℤ → ℕ → ℝ) :
    ∃ ps : ℕ × ℕ × ℕ → List (List (ℕ × ℝ)), (∀ p, ((M p).partialThreads (c (p.1, p.2.1, p.2.2)) (depth p) (spacing p)).mapM (place B.crs) = some (ps p)) ∧ ∀ l : ℕ × ℕ × ℕ → List (ℕ × ℝ), (∀ p, Interleaves (ps p) (l p)) →
      ∃ J, rhsJacobian (setup3 D xs xm ys ym zs zm dif adv (FillMap.pairs D (FillMap.diagonal B.crs D))) (E.values3 dif (adv.getD []) l) 7 skip (fun _ => false)
          (fresh (setup3 D xs xm ys ym zs zm dif adv (FillMap.pairs D (FillMap.diagonal B.crs D)))) =
            some (fresh (setup3 D xs xm ys ym zs zm dif adv (FillMap.pairs D (FillMap.diagonal B.crs D))), J) ∧
        ∀ i j k, xs ≤ i → i < xs + xm → ys ≤ j → j < ys + ym → zs ≤ k → k < zs + zm → ∀ n, Row skip (M (i, j, k)) (c (i, j, k)) (i, j, k) n → ∀ (src : ℕ × ℕ × ℕ → List (ℕ × ℝ)) (G : ℕ × ℕ × ℕ → (ℕ → ℝ) → List (ℕ × ℝ)),
          (∀ p c', Interleaves ((M p).fluxThreads c' (depth p) (spacing p)) (G p c')) → ∀ (q : ℤ × ℤ × ℤ) (m : ℕ),
          HasDerivAt (fun x => F (setup3 D xs xm ys ym zs zm dif adv (FillMap.pairs D (FillMap.diagonal B.crs D))) (E.terms3 dif (adv.getD []) src G) skip (fun _ => false) (upd c q m x) (i, j, k) n) (J (((i, j, k), n), (q, m))) (c q m) := by
  set S := setup3 D xs xm ys ym zs zm dif adv (FillMap.pairs D (FillMap.diagonal B.crs D)) with hS
  obtain ⟨ps, h1, h2⟩ := linear_jacobian M₀ hw B M hM depth spacing S rfl (points3_nodup xs xm ys ym zs zm) 7 (fun _ => rfl)
    (fun p h hh => ⟨adv_len _ (fun _ => rfl) S adv rfl h hh, by obtain ⟨ids, -, rfl⟩ := List.mem_map.mp hh; rfl⟩) skip c
  refine ⟨ps, h1, fun l hl => ?_⟩
  obtain ⟨J, hJ, h3⟩ := h2 (E.values3 dif (adv.getD []) l) hl
  refine ⟨J, hJ, fun i j z hi1 hi2 hj1 hj2 hz1 hz2 n R src G hG q m => ?_⟩
  refine h3 (E.terms3 dif (adv.getD []) src G) (fun _ _ => rfl) (fun _ _ => rfl) (fun p hp b ids hb k n hk c => ?_) (fun p hp a h ha k n hk c => ?_) hG (i, j, z) ?_ n R q m
  · match b with
    | 0 =>
      have : ids = dif := by simpa [hS, setup3] using hb.symm
      subst this
      have hn : ids.getD k 0 = n := by simp [List.getD, hk]
      obtain ⟨g1, g2, g3⟩ := hsp p hp
      simp only [terms3, values3, hn]
      rw [conc3_eq _ _ _ _ g1 g2 g3]
      simp [hS, setup3, cols3, List.zipIdx_cons, nth]
      ring
    | b + 1 => simp [hS, setup3] at hb
  · cases adv with
    | none => simp [hS, setup3] at ha
    | some ids =>
      have h' : h ∈ S.adv := List.mem_of_getElem? ha
      have hi : h.ids = ids ∧ h.real p = (((p.1 : ℤ), (p.2.1 : ℤ), (p.2.2 : ℤ)), ((p.1 : ℤ) + 1, (p.2.1 : ℤ), (p.2.2 : ℤ))) := by
        obtain ⟨ids', hm, rfl⟩ := List.mem_map.mp h'
        simp at hm
        exact ⟨by rw [hm], rfl⟩
      have hn : ids.getD k 0 = n := by rw [hi.1] at hk; simp [List.getD, hk]
      rw [hi.2]
      simp only [terms3, values3, Option.getD_some, hn, advRate, advPart, Adv.surf_eq]
  · exact List.mem_flatMap.mpr ⟨z, List.mem_range'_1.mpr ⟨hz1, hz2⟩, List.mem_flatMap.mpr ⟨j, List.mem_range'_1.mpr ⟨hj1, hj2⟩, List.mem_map.mpr ⟨i, List.mem_range'_1.mpr ⟨hi1, hi2⟩, rfl⟩⟩⟩

/-- Unit spacings and coefficients. -/
def exSpace (K : Type) [Field K] : Space K := ⟨6, fun i => i, 1, 1 / 4, 1, fun _ => ⟨900, 900, 900⟩, fun _ n => ⟨n + 1, n + 1, n + 1⟩, fun _ _ _ _ => ⟨⟨⟨1, 1, 1⟩, 1, 1⟩, 1, 1⟩, fun _ _ _ _ => (1, 1), fun _ => 1, fun _ _ => 0⟩

theorem exSpace_spacing (i : ℕ) : hxLeft (exSpace ℝ).grid i ≠ 0 ∧ hxRight (exSpace ℝ).nX (exSpace ℝ).grid i ≠ 0 ∧ hxLeft (exSpace ℝ).grid i + hxRight (exSpace ℝ).nX (exSpace ℝ).grid i ≠ 0 := exUnit_spacing i

open Dispatch in
/-- The iron network `grNet` in two and three dimensions, on points of which some are passed over. -/
example (R₀ : Rates ℝ) (R : ℕ × ℕ → Rates ℝ) (R' : ℕ × ℕ × ℕ → Rates ℝ) (t : TmData ℝ) (c : ℤ × ℤ → ℕ → ℝ) (c' : ℤ × ℤ × ℤ → ℕ → ℝ) : ∃ B : Build (grNet.dofs true) (requests (feRxns grNet (grNet.momentIds true) R₀ fun _ => true)),
    (∃ ps : ℕ × ℕ → List (List (ℕ × ℝ)), ∀ l : ℕ × ℕ → List (ℕ × ℝ), (∀ p, Interleaves (ps p) (l p)) → ∃ J : Entry (ℕ × ℕ) (ℤ × ℤ) → ℝ, ∀ (G : ℕ × ℕ → (ℕ → ℝ) → List (ℕ × ℝ)),
      (∀ p c', Interleaves ((⟨feRxns grNet (grNet.momentIds true) (R p) fun _ => true, false, t⟩ : Network 2 ℝ).fluxThreads c' 1 1) (G p c')) → ∀ n q m,
        HasDerivAt (fun x => F (setup2 (grNet.dofs true) 1 4 0 3 [0] (some [0]) (FillMap.pairs (grNet.dofs true) (FillMap.diagonal B.crs (grNet.dofs true)))) ((exSpace ℝ).terms2 [0] [0] (fun _ => []) G) (fun p => decide (p.1 < 1 + p.2)) (fun _ => false)
          (upd c q m x) (3, 1) n) (J (((3, 1), n), (q, m))) (c q m)) ∧
    ∃ ps : ℕ × ℕ × ℕ → List (List (ℕ × ℝ)), ∀ l : ℕ × ℕ × ℕ → List (ℕ × ℝ), (∀ p, Interleaves (ps p) (l p)) → ∃ J : Entry (ℕ × ℕ × ℕ) (ℤ × ℤ × ℤ) → ℝ, ∀ (G : ℕ × ℕ × ℕ → (ℕ → ℝ) → List (ℕ × ℝ)),
      (∀ p c', Interleaves ((⟨feRxns grNet (grNet.momentIds true) (R' p) fun _ => true, false, t⟩ : Network 2 ℝ).fluxThreads c' 1 1) (G p c')) → ∀ n q m,
        HasDerivAt (fun x => F (setup3 (grNet.dofs true) 1 4 0 3 0 3 [0] (some [0]) (FillMap.pairs (grNet.dofs true) (FillMap.diagonal B.crs (grNet.dofs true)))) ((exSpace ℝ).terms3 [0] [0] (fun _ => []) G) (fun p => decide (p.1 < 1 + p.2.1)) (fun _ => false)
          (upd c' q m x) (3, 1, 2) n) (J (((3, 1, 2), n), (q, m))) (c' q m) := by
  have hl : Laid grNet := ⟨grNet_ready.lay, grNet_ready.singleI, grNet_ready.singleV⟩
  obtain ⟨B⟩ := build_exists (grNet.dofs true) (requests (feRxns grNet (grNet.momentIds true) R₀ fun _ => true)) (within_rows (fe_within grNet hl R₀ _))
  have sm : ∀ (R : Rates ℝ) (c : ℕ → ℝ), Smooth (⟨feRxns grNet (grNet.momentIds true) R fun _ => true, false, t⟩ : Network 2 ℝ) c := fun R c => (fe_regular grNet R _ t c 0).1
  have qu : ∀ (R : Rates ℝ) (n : ℕ), Quiet (⟨feRxns grNet (grNet.momentIds true) R fun _ => true, false, t⟩ : Network 2 ℝ) n := fun R n => (fe_regular grNet R _ t (fun _ => 0) n).2
  refine ⟨B, ?_, ?_⟩
  · obtain ⟨ps, -, h2⟩ := plane_jacobian_partial (exSpace ℝ) ⟨feRxns grNet (grNet.momentIds true) R₀ fun _ => true, false, t⟩ (fe_within grNet hl R₀ (fun _ => true)) B (fun p => ⟨feRxns grNet (grNet.momentIds true) (R p) fun _ => true, false, t⟩)
      (fun p => fe_rates grNet (R p) R₀ _ t) (fun _ => 1) (fun _ => 1) 1 4 0 3 [0] (some [0]) (fun p => decide (p.1 < 1 + p.2)) (fun p _ => exSpace_spacing p.1) c
    refine ⟨ps, fun l hl => ?_⟩
    obtain ⟨J, -, h3⟩ := h2 l hl
    exact ⟨J, fun G hG n q m => h3 3 1 (by omega) (by omega) (by omega) (by omega) n ⟨fun _ => sm _ _, fun _ => qu _ _⟩ (fun _ => []) G hG q m⟩
  · obtain ⟨ps, -, h2⟩ := box_jacobian_partial (exSpace ℝ) ⟨feRxns grNet (grNet.momentIds true) R₀ fun _ => true, false, t⟩ (fe_within grNet hl R₀ (fun _ => true)) B (fun p => ⟨feRxns grNet (grNet.momentIds true) (R' p) fun _ => true, false, t⟩)
      (fun p => fe_rates grNet (R' p) R₀ _ t) (fun _ => 1) (fun _ => 1) 1 4 0 3 0 3 [0] (some [0]) (fun p => decide (p.1 < 1 + p.2.1)) (fun p _ => exSpace_spacing p.1) c'
    refine ⟨ps, fun l hl => ?_⟩
    obtain ⟨J, -, h3⟩ := h2 l hl
    exact ⟨J, fun G hG n q m => h3 3 1 2 (by omega) (by omega) (by omega) (by omega) (by omega) (by omega) n ⟨fun _ => sm _ _, fun _ => qu _ _⟩ (fun _ => []) G hG q m⟩

/-- Entries of a box: up and down in depth, across y and z, and none two cells away. -/
example : (rhsJacobian (setup3 1 1 2 0 2 0 2 [0] none [(0, 0)]) ((exSpace ℚ).values3 [0] [] fun _ => [(0, 5)]) 7 (fun _ => false) (fun _ => false) (fresh (setup3 1 1 2 0 2 0 2 [0] none [(0, 0)]))).map
    (fun r => (r.1.all (· = 0), r.2 (((1, 1, 0), 0), ((1, 1, 0), 0)), r.2 (((1, 1, 0), 0), ((2, 1, 0), 0)), r.2 (((1, 1, 0), 0), ((1, 0, 0), 0)), r.2 (((1, 1, 0), 0), ((1, 1, -1), 0)), r.2 (((1, 1, 0), 0), ((1, 1, 2), 0)))) =
      some (true, 1 / 2, 1, 1, 1 / 4, 0) := by decide +kernel

end Space

end Xolotl.Solver.Matrix
