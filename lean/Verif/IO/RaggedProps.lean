import Verif.IO.Ragged
import Mathlib.Data.List.Perm.Basic
import Mathlib.Tactic.NormNum

/-!
# Ragged datasets of the checkpoint file: properties (C34)
-/

namespace Xolotl.IO.Ragged

open Xolotl.Util

variable {α : Type*}

theorem writeSlab_get (d d' : Dset α) (off : ℕ) (vals : List α) (h : writeSlab d off vals = some d') :
    d'.length = d.length ∧ ∀ p, d'[p]? = if off ≤ p ∧ p < off + vals.length then (vals[p - off]?).map some else d[p]? := by
  unfold writeSlab at h
  split_ifs at h with hb
  rw [Option.some.injEq] at h
  subst h
  constructor
  · simp; omega
  · intro p
    have hlt : (d.take off).length = off := by rw [List.length_take]; omega
    split_ifs with hp
    · rw [List.append_assoc, List.getElem?_append_right (by omega), List.getElem?_append_left (by rw [List.length_map]; omega), hlt, List.getElem?_map]
    · by_cases h1 : p < off
      · rw [List.append_assoc, List.getElem?_append_left (by omega), List.getElem?_take_of_lt h1]
      · rw [List.getElem?_append_right (by simp; omega), List.getElem?_drop]
        congr 1
        simp; omega

theorem foldl_slabs (T : List α) (off : ℕ → ℕ) (vals : ℕ → List α) (order : List ℕ)
    (hT : ∀ r ∈ order, ∀ k, k < (vals r).length → T[off r + k]? = (vals r)[k]?) (hin : ∀ r ∈ order, off r + (vals r).length ≤ T.length)
    (d : Dset α) (hd : d.length = T.length) (done : List ℕ)
    (hdone : ∀ r ∈ done, ∀ k, k < (vals r).length → d[off r + k]? = (T[off r + k]?).map some) :
    ∃ d', order.foldlM (fun d r => writeSlab d (off r) (vals r)) d = some d' ∧ d'.length = T.length ∧
      ∀ r, r ∈ done ∨ r ∈ order → ∀ k, k < (vals r).length → d'[off r + k]? = (T[off r + k]?).map some := by
  induction order generalizing d done with
  | nil => exact ⟨d, rfl, hd, fun r hr => hdone r (by simpa using hr)⟩
  | cons r0 order ih =>
    have hex : ∃ d1, writeSlab d (off r0) (vals r0) = some d1 := by
      unfold writeSlab; rw [if_pos (by rw [hd]; exact hin r0 (by simp))]; exact ⟨_, rfl⟩
    obtain ⟨d1, h1⟩ := hex
    obtain ⟨hl, hg⟩ := writeSlab_get d d1 _ _ h1
    obtain ⟨d', h2, h3, h4⟩ := ih (fun r hr => hT r (by simp [hr])) (fun r hr => hin r (by simp [hr])) d1 (hl.trans hd) (r0 :: done) (by
      intro r hr k hk
      rw [hg]
      split_ifs with hp
      · rw [← hT r0 (by simp) (off r + k - off r0) (by omega)]
        congr 2; omega
      · rcases List.mem_cons.mp hr with rfl | hr
        · exact absurd ⟨by omega, by omega⟩ hp
        · exact hdone r hr k hk)
    refine ⟨d', ?_, h3, ?_⟩
    · rw [List.foldlM_cons, h1]; exact h2
    · intro r hr
      refine h4 r ?_
      rcases hr with h | h
      · simp [h]
      · rcases List.mem_cons.mp h with rfl | h <;> simp_all

theorem le_sum_of_mem {l : List ℕ} {x : ℕ} (h : x ∈ l) : x ≤ l.sum := by
  induction l with
  | nil => cases h
  | cons a l ih =>
    rw [List.sum_cons]
    rcases List.mem_cons.mp h with rfl | h
    · omega
    · have := ih h; omega

theorem mapM_some_of_map {β γ : Type*} (f : β → Option γ) (g : β → γ) (l : List β) (h : ∀ x ∈ l, f x = some (g x)) : l.mapM f = some (l.map g) := by
  induction l with
  | nil => rfl
  | cons a l ih => rw [List.mapM_cons, h a (by simp), ih fun x hx => h x (by simp [hx])]; rfl

theorem mapM_range_of_get {γ : Type*} (f : ℕ → Option γ) (l : List γ) (h : ∀ v (hv : v < l.length), f v = some l[v]) : (List.range l.length).mapM f = some l := by
  induction l generalizing f with
  | nil => rfl
  | cons a l ih =>
    rw [List.length_cons, List.range_succ_eq_map, List.mapM_cons, h 0 (by simp), List.mapM_map]
    have := ih (f ∘ Nat.succ) fun v hv => h (v + 1) (by simpa using hv)
    rw [this]; rfl

theorem readSlab_full (T : List α) (off n : ℕ) (h : off + n ≤ T.length) : readSlab (T.map some) off n = some ((T.drop off).take n) := by
  unfold readSlab
  rw [if_pos (by simpa using h), ← List.map_drop, ← List.map_take]
  generalize (T.drop off).take n = l
  induction l with
  | nil => rfl
  | cons a l ih => rw [List.map_cons, List.mapM_cons, ih]; rfl

theorem wrap_of_lt {n : ℕ} (h : n < 2 ^ 32) : wrap n = n := Nat.mod_eq_of_lt h

theorem sub32_of_le {a b : ℕ} (h : b ≤ a) (ha : a < 2 ^ 32) : sub32 a b = a - b := by
  unfold sub32
  rw [show a + 2 ^ 32 - b = (a - b) + 2 ^ 32 by omega, Nat.add_mod_right, Nat.mod_eq_of_lt (by omega)]

theorem numItems_eq (pts : List (List α)) (h : pts.flatten.length < 2 ^ 32) : numItems pts = pts.map List.length := by
  unfold numItems
  refine List.map_congr_left fun l hl => wrap_of_lt (lt_of_le_of_lt ?_ h)
  rw [List.length_flatten]
  exact le_sum_of_mem (List.mem_map_of_mem hl)

theorem starts_eq (pts : List (List α)) (s : ℕ) (h : s + pts.flatten.length < 2 ^ 32) :
    starts s (pts.map List.length) = (List.range pts.length).map fun k => s + Seg.start pts k := by
  induction pts generalizing s with
  | nil => rfl
  | cons l pts ih =>
    rw [List.flatten_cons, List.length_append] at h
    rw [List.map_cons, starts, wrap_of_lt (by omega), ih (s + l.length) (by omega), List.length_cons, List.range_succ_eq_map, List.map_cons, Seg.start_zero, List.map_map]
    congr 1
    refine List.map_congr_left fun k _ => ?_
    rw [Function.comp_apply, Nat.succ_eq_add_one, Seg.start_cons]; omega

theorem myNumItems_eq (pts : List (List α)) (hne : pts ≠ []) (h : pts.flatten.length < 2 ^ 32) : myNumItems pts = some pts.flatten.length := by
  obtain ⟨n, hn⟩ : ∃ n, pts.length = n + 1 := ⟨pts.length - 1, by have := List.length_pos_iff.mpr hne; omega⟩
  unfold myNumItems
  rw [numItems_eq pts h, starts_eq pts 0 (by omega), List.getLast?_map, List.getLast?_map, hn, List.getLast?_range]
  rw [List.getLast?_eq_getElem?, hn, Nat.add_sub_cancel, List.getElem?_eq_getElem (by omega)]
  simp only [Option.map_some, Nat.add_eq_zero_iff, one_ne_zero, and_false, if_false]
  have := Seg.start_succ pts (i := n) (by omega)
  have h2 := Seg.start_length pts
  rw [hn] at h2
  simp only [Nat.zero_add]
  rw [← this, h2, wrap_of_lt h]

theorem start_flatten (parts : List (List (List α))) {r k : ℕ} (hr : r < parts.length) (hk : k ≤ parts[r].length) :
    Seg.start parts.flatten (Seg.start parts r + k) = Seg.start (parts.map List.flatten) r + Seg.start parts[r] k := by
  induction parts generalizing r with
  | nil => cases hr
  | cons pts parts ih =>
    cases r with
    | zero =>
      simp only [List.getElem_cons_zero] at hk ⊢
      rw [Seg.start_zero, Seg.start_zero, Nat.zero_add, Nat.zero_add]
      unfold Seg.start
      rw [List.flatten_cons, List.take_append_of_le_length hk]
    | succ r =>
      simp only [List.getElem_cons_succ] at hk ⊢
      rw [List.map_cons, Seg.start_cons, Seg.start_cons, Nat.add_assoc, Nat.add_assoc, ← ih (by simpa using hr) hk]
      unfold Seg.start
      rw [List.flatten_cons, List.take_append, List.take_of_length_le (by omega), Nat.add_sub_cancel_left, List.map_append, List.sum_append]
      simp [List.length_flatten]

theorem flatten_flatten (parts : List (List (List α))) : (parts.map List.flatten).flatten = parts.flatten.flatten := by
  induction parts with
  | nil => rfl
  | cons p ps ih => simp [ih]

/-- The index dataset of grid points `pts`. -/
def target (pts : List (List α)) : List ℕ := (List.range (pts.length + 1)).map (Seg.start pts)

theorem foldlM_pair (parts : List (List (List α))) (counts : List ℕ) (hc : counts.length = parts.length) (order : List ℕ) (ho : ∀ r ∈ order, r < parts.length)
    (ix ix' : Dset ℕ) (dt dt' : Dset α)
    (h1 : order.foldlM (fun d r => writeSlab d (Seg.start parts r) (indexPart parts counts r (parts.getD r []))) ix = some ix')
    (h2 : order.foldlM (fun d r => writeSlab d (exscan counts r) ((parts.getD r []).flatten.take (counts.getD r 0))) dt = some dt') :
    order.foldlM (writeRank parts counts) ⟨ix, dt⟩ = some ⟨ix', dt'⟩ := by
  induction order generalizing ix dt with
  | nil =>
    cases h1; cases h2; rfl
  | cons r order ih =>
    have hr := ho r (by simp)
    rw [List.foldlM_cons] at h1 h2 ⊢
    obtain ⟨ix1, a1, b1⟩ := Option.bind_eq_some_iff.mp h1
    obtain ⟨dt1, a2, b2⟩ := Option.bind_eq_some_iff.mp h2
    have hw : writeRank parts counts ⟨ix, dt⟩ r = some ⟨ix1, dt1⟩ := by
      have e1 : parts.getD r [] = parts[r] := by rw [List.getD_eq_getElem?_getD, List.getElem?_eq_getElem hr]; rfl
      have e2 : counts.getD r 0 = counts[r] := by rw [List.getD_eq_getElem?_getD, List.getElem?_eq_getElem (by omega)]; rfl
      rw [e1] at a1 a2
      rw [e2] at a2
      unfold writeRank
      rw [List.getElem?_eq_getElem hr, List.getElem?_eq_getElem (by omega : r < counts.length)]
      dsimp only
      rw [a1, Option.bind_some, a2]; rfl
    rw [hw]
    exact ih (fun x hx => ho x (by simp [hx])) ix1 dt1 b1 b2

/-- The file after all ranks have written, in any order: the starts of all grid points and the flattened lists, completely written. -/
theorem write_eq (parts : List (List (List α))) (order : List ℕ) (hne : parts ≠ []) (hp : ∀ pts ∈ parts, pts ≠ [])
    (hn : parts.flatten.length + 1 < 2 ^ 32) (hi : parts.flatten.flatten.length < 2 ^ 32) (ho : order.Perm (List.range parts.length)) :
    write parts order = some ⟨(target parts.flatten).map some, parts.flatten.flatten.map some⟩ := by
  have hsub : ∀ pts ∈ parts, pts.flatten.length < 2 ^ 32 := by
    intro pts hpts
    refine lt_of_le_of_lt ?_ hi
    rw [← flatten_flatten, List.length_flatten (L := parts.map List.flatten)]
    exact le_sum_of_mem (by rw [List.map_map]; exact List.mem_map_of_mem (f := List.length ∘ List.flatten) hpts)
  have hcounts : parts.mapM myNumItems = some (parts.map fun pts => pts.flatten.length) :=
    mapM_some_of_map _ _ _ fun pts hpts => myNumItems_eq pts (hp pts hpts) (hsub pts hpts)
  have htot : totalNumItems parts = parts.flatten.flatten.length := by
    unfold totalNumItems
    have : (parts.map fun pts => wrap (numItems pts).sum) = (parts.map List.flatten).map List.length := by
      rw [List.map_map]
      refine List.map_congr_left fun pts hpts => ?_
      rw [numItems_eq pts (hsub pts hpts), ← List.length_flatten, wrap_of_lt (hsub pts hpts)]; rfl
    rw [this, ← List.length_flatten, flatten_flatten, wrap_of_lt hi]
  have hsize : indexSize parts = parts.flatten.length + 1 := by
    unfold indexSize
    rw [← List.length_flatten, wrap_of_lt (n := parts.flatten.length) (by omega), wrap_of_lt (by omega)]
  have hex : ∀ r, exscan (parts.map fun pts => pts.flatten.length) r = Seg.start (parts.map List.flatten) r := by
    intro r
    have e : ((parts.map fun pts => pts.flatten.length).take r).sum = Seg.start (parts.map List.flatten) r := by
      unfold Seg.start; rw [← List.map_take, ← List.map_take, List.map_map]; rfl
    have hle : Seg.start (parts.map List.flatten) r ≤ parts.flatten.flatten.length := by
      by_cases h : r ≤ parts.length
      · rw [← flatten_flatten, ← Seg.start_length, List.length_map]; exact Seg.start_mono _ h
      · rw [← flatten_flatten, ← Seg.start_length]
        unfold Seg.start
        rw [List.take_of_length_le (by simp; omega), List.take_of_length_le (by simp)]
    unfold exscan
    split_ifs with h
    · rw [h, Seg.start_zero]
    · rw [e, wrap_of_lt (by omega)]
  -- the index
  have hpart : ∀ r (hr : r < parts.length), indexPart parts (parts.map fun pts => pts.flatten.length) r parts[r] =
      ((List.range (parts[r].length + if r + 1 = parts.length then 1 else 0)).map fun k => Seg.start parts.flatten (Seg.start parts r + k)) := by
    intro r hr
    have hs := hsub _ (List.getElem_mem hr)
    have hstep := Seg.start_succ (parts.map List.flatten) (i := r) (by simpa using hr)
    have hle : Seg.start (parts.map List.flatten) (r + 1) ≤ parts.flatten.flatten.length := by
      rw [← flatten_flatten, ← Seg.start_length, List.length_map]; exact Seg.start_mono _ hr
    rw [List.getElem_map] at hstep
    unfold indexPart
    rw [numItems_eq _ hs, starts_eq _ 0 (by omega), hex, List.map_map, htot]
    have hmain : (List.range parts[r].length).map ((fun i => wrap (i + Seg.start (parts.map List.flatten) r)) ∘ fun k => 0 + Seg.start parts[r] k) =
        (List.range parts[r].length).map fun k => Seg.start parts.flatten (Seg.start parts r + k) := by
      refine List.map_congr_left fun k hk => ?_
      rw [List.mem_range] at hk
      rw [start_flatten parts hr hk.le, Function.comp_apply, Nat.zero_add]
      have : Seg.start parts[r] k ≤ parts[r].flatten.length := by rw [← Seg.start_length]; exact Seg.start_mono _ hk.le
      rw [wrap_of_lt (by omega), Nat.add_comm]
    rw [hmain]
    split_ifs with hlast
    · rw [List.range_succ, List.map_append]
      congr 1
      rw [List.map_singleton, ← Seg.start_succ parts hr, hlast, Seg.start_length, Seg.start_length]
    · simp
  have hT : ∀ p, p < parts.flatten.length + 1 → (target parts.flatten)[p]? = some (Seg.start parts.flatten p) := by
    intro p hp; rw [target, List.getElem?_map, List.getElem?_range hp]; rfl
  have hTl : (target parts.flatten).length = parts.flatten.length + 1 := by simp [target]
  have hend : ∀ r (hr : r < parts.length), Seg.start parts r + parts[r].length + (if r + 1 = parts.length then 1 else 0) ≤ parts.flatten.length + 1 := by
    intro r hr
    rw [← Seg.start_succ parts hr, ← Seg.start_length]
    have := Seg.start_mono parts (show r + 1 ≤ parts.length from hr)
    split_ifs <;> omega
  have hmemo : ∀ r, r ∈ order ↔ r < parts.length := fun r => by rw [ho.mem_iff, List.mem_range]
  have e1 : ∀ r (hr : r < parts.length), parts.getD r [] = parts[r] := by
    intro r hr; rw [List.getD_eq_getElem?_getD, List.getElem?_eq_getElem hr]; rfl
  have e2 : ∀ r (hr : r < parts.length), (parts.getD r []).flatten.take ((parts.map fun pts => pts.flatten.length).getD r 0) = parts[r].flatten := by
    intro r hr
    rw [e1 r hr, List.getD_eq_getElem?_getD, List.getElem?_map, List.getElem?_eq_getElem hr, Option.map_some, Option.getD_some, List.take_length]
  obtain ⟨ix', i1, i2, i3⟩ := foldl_slabs (target parts.flatten) (fun r => Seg.start parts r)
    (fun r => indexPart parts (parts.map fun pts => pts.flatten.length) r (parts.getD r [])) order (by
      intro r hr k hk
      rw [hmemo] at hr
      rw [e1 r hr, hpart r hr] at hk ⊢
      simp only [List.length_map, List.length_range] at hk
      rw [hT _ (by have := hend r hr; omega), List.getElem?_map, List.getElem?_range hk]; rfl) (by
      intro r hr
      rw [hmemo] at hr
      rw [e1 r hr, hpart r hr, hTl]
      have := hend r hr
      simp only [List.length_map, List.length_range]; omega) (List.replicate (indexSize parts) none) (by rw [List.length_replicate, hsize, hTl]) [] (by simp)
  obtain ⟨dt', d1, d2, d3⟩ := foldl_slabs parts.flatten.flatten (fun r => exscan (parts.map fun pts => pts.flatten.length) r)
    (fun r => (parts.getD r []).flatten.take ((parts.map fun pts => pts.flatten.length).getD r 0)) order (by
      intro r hr k hk
      rw [hmemo] at hr
      rw [e2 r hr] at hk ⊢
      rw [hex, ← flatten_flatten]
      have := Seg.get (parts.map List.flatten) (i := r) (k := k) (by simpa using hr) (by simpa using hk)
      rw [this, List.getElem?_eq_getElem hk]; simp) (by
      intro r hr
      rw [hmemo] at hr
      rw [e2 r hr, hex]
      have hstep := Seg.start_succ (parts.map List.flatten) (i := r) (by simpa using hr)
      rw [List.getElem_map] at hstep
      rw [← hstep, ← flatten_flatten, ← Seg.start_length, List.length_map]; exact Seg.start_mono _ hr)
    (List.replicate (totalNumItems parts) none) (by rw [List.length_replicate, htot]) [] (by simp)
  have hfin := foldlM_pair parts _ (by simp) order (fun r hr => (hmemo r).mp hr) _ ix' _ dt' i1 d1
  have hix : ix' = (target parts.flatten).map some := by
    apply List.ext_getElem?
    intro p
    by_cases hp2 : p < parts.flatten.length + 1
    · have hcov : ∃ r k, ∃ hr : r < parts.length, k < parts[r].length + (if r + 1 = parts.length then 1 else 0) ∧ p = Seg.start parts r + k := by
        by_cases h : p < parts.flatten.length
        · obtain ⟨r, k, hr, hk, e⟩ := Seg.cover parts h
          exact ⟨r, k, hr, by omega, e⟩
        · have hpos := List.length_pos_iff.mpr hne
          refine ⟨parts.length - 1, parts[parts.length - 1].length, by omega, by rw [if_pos (by omega)]; omega, ?_⟩
          rw [← Seg.start_succ parts (by omega), Nat.sub_add_cancel hpos, Seg.start_length]; omega
      obtain ⟨r, k, hr, hk, rfl⟩ := hcov
      rw [i3 r (Or.inr ((hmemo r).mpr hr)) k (by rw [e1 r hr, hpart r hr]; simpa using hk), List.getElem?_map]
    · rw [List.getElem?_eq_none (by omega), List.getElem?_eq_none (by rw [List.length_map]; omega)]
  have hdt : dt' = parts.flatten.flatten.map some := by
    apply List.ext_getElem?
    intro p
    by_cases hp2 : p < parts.flatten.flatten.length
    · rw [← flatten_flatten] at hp2
      obtain ⟨r, k, hr, hk, rfl⟩ := Seg.cover _ hp2
      have hr' : r < parts.length := by simpa using hr
      have := d3 r (Or.inr ((hmemo r).mpr hr')) k (by rw [e2 r hr']; simpa using hk)
      rw [hex] at this
      rw [this, List.getElem?_map]
    · rw [List.getElem?_eq_none (by omega), List.getElem?_eq_none (by rw [List.length_map]; omega)]
  unfold write create
  rw [hcounts, Option.bind_some, hfin, hix, hdt]

/-- Reading any contiguous range of grid points of a completely written file. -/
theorem read_eq (pts : List (List α)) (b n : ℕ) (hb : b + n ≤ pts.length) (hi : pts.flatten.length < 2 ^ 32) :
    read ⟨(target pts).map some, pts.flatten.map some⟩ b n = some ((pts.drop b).take n) := by
  have hmono := Seg.start_mono pts
  have hle : ∀ i, i ≤ pts.length → Seg.start pts i ≤ pts.flatten.length := fun i h => by rw [← Seg.start_length]; exact hmono h
  have hidx : ((target pts).drop b).take (n + 1) = (List.range (n + 1)).map fun k => Seg.start pts (b + k) := by
    apply List.ext_getElem
    · simp [target]; omega
    · intro k h1 h2; simp [target]
  unfold read
  rw [readSlab_full _ _ _ (by simp [target]; omega), Option.bind_some, hidx]
  have hhead : ((List.range (n + 1)).map fun k => Seg.start pts (b + k)).head? = some (Seg.start pts b) := by
    rw [List.range_succ_eq_map]; simp
  have hlast : ((List.range (n + 1)).map fun k => Seg.start pts (b + k)).getLast? = some (Seg.start pts (b + n)) := by
    rw [List.range_succ]; simp
  have h0 := hle (b + n) hb
  have h1 := hmono (show b ≤ b + n by omega)
  rw [hhead, Option.bind_some, hlast, Option.bind_some, sub32_of_le h1 (by omega), readSlab_full _ _ _ (by omega), Option.bind_some]
  unfold unflatten
  dsimp only
  have hres : (pts.drop b).take n = (List.range n).map fun p => pts.getD (b + p) [] := by
    apply List.ext_getElem
    · simp; omega
    · intro k a1 a2
      simp only [List.length_map, List.length_range] at a2
      rw [List.getElem_take, List.getElem_drop, List.getElem_map, List.getElem_range, List.getD_eq_getElem?_getD, List.getElem?_eq_getElem (by omega)]; rfl
  rw [hres, List.length_map, List.length_range, Nat.add_sub_cancel]
  refine mapM_some_of_map _ _ _ fun p hp => ?_
  rw [List.mem_range] at hp
  have hloc : ∀ k, k < n + 1 → (((List.range (n + 1)).map fun k => Seg.start pts (b + k)).map fun v => sub32 v (Seg.start pts b))[k]? = some (Seg.start pts (b + k) - Seg.start pts b) := by
    intro k hk
    rw [List.map_map, List.getElem?_map, List.getElem?_range hk, Option.map_some, Function.comp_apply]
    rw [sub32_of_le (hmono (by omega)) (by have := hle (b + k) (by omega); omega)]
  rw [hloc p (by omega), hloc (p + 1) (by omega), Option.bind_some, Option.bind_some]
  have hbp : b + p < pts.length := by omega
  have hs := Seg.start_succ pts hbp
  have m1 := hmono (show b ≤ b + p by omega)
  have m2 := hmono (show b + p + 1 ≤ b + n by omega)
  rw [← Nat.add_assoc, sub32_of_le (by omega) (by omega)]
  have hlen : Seg.start pts (b + p + 1) - Seg.start pts b - (Seg.start pts (b + p) - Seg.start pts b) = pts[b + p].length := by omega
  have hgd : pts.getD (b + p) [] = pts[b + p] := by rw [List.getD_eq_getElem?_getD, List.getElem?_eq_getElem hbp]; rfl
  rw [hlen, hgd]
  refine mapM_range_of_get _ _ fun v hv => ?_
  rw [List.getElem?_take_of_lt (by omega), List.getElem?_drop, show Seg.start pts b + (Seg.start pts (b + p) - Seg.start pts b + v) = Seg.start pts (b + p) + v by omega,
    Seg.get pts hbp hv]

/-- The round trip: whatever the distribution over the writing ranks and the order of their writes, any range of grid points is read back exactly. -/
theorem round_trip (parts : List (List (List α))) (order : List ℕ) (hne : parts ≠ []) (hp : ∀ pts ∈ parts, pts ≠ [])
    (hn : parts.flatten.length + 1 < 2 ^ 32) (hi : parts.flatten.flatten.length < 2 ^ 32) (ho : order.Perm (List.range parts.length)) :
    ∃ f, write parts order = some f ∧ ∀ b n, b + n ≤ parts.flatten.length → read f b n = some ((parts.flatten.drop b).take n) :=
  ⟨_, write_eq parts order hne hp hn hi ho, fun b n h => read_eq _ b n h hi⟩

/-- Reading with any other distribution over ranks: the ranks' slabs in order give all lists. -/
theorem round_trip_ranks (parts reads : List (List (List α))) (order : List ℕ) (hne : parts ≠ []) (hp : ∀ pts ∈ parts, pts ≠ [])
    (hn : parts.flatten.length + 1 < 2 ^ 32) (hi : parts.flatten.flatten.length < 2 ^ 32) (ho : order.Perm (List.range parts.length))
    (hr : reads.flatten = parts.flatten) :
    ∃ f, write parts order = some f ∧ ∀ r (h : r < reads.length), read f (Seg.start reads r) reads[r].length = some reads[r] := by
  obtain ⟨f, hf, hread⟩ := round_trip parts order hne hp hn hi ho
  refine ⟨f, hf, fun r h => ?_⟩
  have hend : Seg.start reads r + reads[r].length ≤ reads.flatten.length := by
    rw [← Seg.start_succ reads h, ← Seg.start_length]; exact Seg.start_mono _ h
  rw [hread _ _ (by rw [← hr]; exact hend), ← hr]
  congr 1
  apply List.ext_getElem?
  intro k
  by_cases hk : k < reads[r].length
  · rw [List.getElem?_take_of_lt hk, List.getElem?_drop, Seg.get reads h hk, List.getElem?_eq_getElem hk]
  · rw [List.getElem?_eq_none (by rw [List.length_take]; omega), List.getElem?_eq_none (by omega)]

/-- A range reaching past the last grid point is not read. -/
theorem read_past (pts : List (List α)) (b n : ℕ) (h : pts.length < b + n) : read ⟨(target pts).map some, pts.flatten.map some⟩ b n = none := by
  unfold read readSlab
  rw [if_neg (by simp [target]; omega)]; rfl

theorem mapM_none {β γ : Type*} (f : β → Option γ) (l : List β) (x : β) (hx : x ∈ l) (h : f x = none) : l.mapM f = none := by
  induction l with
  | nil => cases hx
  | cons a l ih =>
    rw [List.mapM_cons]
    rcases List.mem_cons.mp hx with rfl | hx
    · rw [h]; rfl
    · rw [ih hx]; cases f a <;> rfl

/-- A rank without grid points makes the write undefined: `back()` is called on an empty vector. -/
theorem empty_rank_undefined (parts : List (List (List α))) (order : List ℕ) (h : [] ∈ parts) : write parts order = none := by
  unfold write
  rw [mapM_none _ _ _ h rfl]; rfl

/-- With 2^32 values the counts wrap around: everything is lost without an error. -/
theorem too_large_lost (a : α) : ∃ f, write [[List.replicate (2 ^ 32) a]] [0] = some f ∧ read f 0 1 = some [[]] := by
  have hni : numItems [List.replicate (2 ^ 32) a] = [0] := by
    unfold numItems wrap; rw [List.map_singleton, List.length_replicate, Nat.mod_self]
  have hm : ([[List.replicate (2 ^ 32) a]] : List (List (List α))).mapM myNumItems = some [0] := by
    rw [List.mapM_cons, List.mapM_nil]
    have : myNumItems [List.replicate (2 ^ 32) a] = some 0 := by unfold myNumItems; rw [hni]; rfl
    rw [this]; rfl
  have ht : totalNumItems [[List.replicate (2 ^ 32) a]] = 0 := by
    unfold totalNumItems; rw [List.map_singleton, hni]; rfl
  refine ⟨⟨[some 0, some 0], []⟩, ?_, rfl⟩
  unfold write
  rw [hm, Option.bind_some, List.foldlM_cons]
  have hw : writeRank [[List.replicate (2 ^ 32) a]] [0] (create [[List.replicate (2 ^ 32) a]]) 0 = some ⟨[some 0, some 0], []⟩ := by
    unfold writeRank create
    simp only [List.getElem?_cons_zero]
    have hip : indexPart [[List.replicate (2 ^ 32) a]] [0] 0 [List.replicate (2 ^ 32) a] = [0, 0] := by
      unfold indexPart; rw [hni, ht]; rfl
    rw [hip, ht, List.take_zero]
    rfl
  rw [hw]; rfl

example : write [[[1, 2], []], [[3]], [[], [4, 5, 6]]] [2, 0, 1] = some ⟨[0, 2, 2, 3, 3, 6].map some, [1, 2, 3, 4, 5, 6].map some⟩ := by decide +kernel
example : read ⟨[0, 2, 2, 3, 3, 6].map some, [1, 2, 3, 4, 5, 6].map some⟩ 1 4 = some [[], [3], [], [4, 5, 6]] := by decide +kernel
example : ∃ f, write [[[1, 2], []], [[3]], [[], [4, 5, 6]]] [2, 0, 1] = some f ∧ ∀ b n, b + n ≤ 5 → read f b n = some (([[1, 2], [], [3], [], [4, 5, 6]].drop b).take n) :=
  round_trip [[[1, 2], []], [[3]], [[], [4, 5, 6]]] [2, 0, 1] (by simp) (by simp) (by decide) (by decide) (by decide)

end Xolotl.IO.Ragged
