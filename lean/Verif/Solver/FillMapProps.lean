import Verif.Solver.FillMap
import Verif.Solver.CooProps
import Verif.Network.ConnectivityProps
import Verif.Util.Segments
import Mathlib.Algebra.BigOperators.Group.Finset.Basic
import Mathlib.Algebra.BigOperators.Group.Finset.Piecewise

/-!
# Fill patterns given to the solver: properties (C37)
-/

namespace Xolotl.Solver.FillMap

open Xolotl.Util

/-- The columns of a row, none if the row is not in the map. -/
def row (m : Map) (i : ℕ) : List ℕ := (find m i).getD []

/-- All rows. -/
def rows (dof : ℕ) (m : Map) : List (List ℕ) := (List.range dof).map (row m)

theorem find_cons (x : ℕ × List ℕ) (m : Map) (i : ℕ) : find (x :: m) i = if x.1 = i then some x.2 else find m i := by
  unfold find
  rw [List.find?_cons]
  by_cases h : x.1 = i
  · simp [h]
  · have hb : (x.1 == i) = false := by simpa using h
    rw [hb, if_neg h]

theorem find_none (m : Map) (i : ℕ) (h : i ∉ m.map Prod.fst) : find m i = none := by
  induction m with
  | nil => rfl
  | cons x m ih =>
    rw [List.map_cons, List.mem_cons] at h
    push Not at h
    rw [find_cons, if_neg (fun e => h.1 e.symm), ih h.2]

/-- Counting over the items and over the rows agree. -/
theorem nNonZeros_eq (dof : ℕ) (m : Map) (hn : (m.map Prod.fst).Nodup) (hd : ∀ x ∈ m, x.1 < dof) : nNonZeros m = (rows dof m).flatten.length := by
  have hsum : (rows dof m).flatten.length = ∑ i ∈ Finset.range dof, (row m i).length := by
    unfold rows
    rw [List.length_flatten, List.map_map, Finset.sum_range, Fin.sum_univ_def]
    simp [Function.comp_def, ← List.map_coe_finRange_eq_range]
  rw [hsum]
  clear hsum
  induction m with
  | nil => simp [nNonZeros, row, find]
  | cons x m ih =>
    rw [List.map_cons, List.nodup_cons] at hn
    have hrow : ∀ i, (row (x :: m) i).length = (if x.1 = i then x.2.length else 0) + (row m i).length := by
      intro i
      unfold row
      rw [find_cons]
      split_ifs with h
      · rw [find_none m i (h ▸ hn.1)]; simp
      · simp
    simp only [hrow]
    rw [Finset.sum_add_distrib, Finset.sum_ite_eq, if_pos (Finset.mem_range.mpr (hd x (by simp))), ← ih hn.2 (fun y hy => hd y (by simp [hy]))]
    simp [nNonZeros]

theorem putRow_eq (l A B C : List ℕ) (k : ℕ) (hk : k = A.length) (hB : B.length = l.length) : putRow (A ++ B ++ C) k l = some (A ++ l ++ C, k + l.length) := by
  induction l generalizing A B k with
  | nil =>
    rw [List.length_nil, List.length_eq_zero_iff] at hB
    subst hB; rfl
  | cons c l ih =>
    cases B with
    | nil => cases hB
    | cons b B =>
      have hput : put (A ++ b :: B ++ C) k c = some ((A ++ [c]) ++ B ++ C) := by
        unfold put
        rw [if_pos (by simp; omega)]
        subst hk
        simp
      rw [putRow, hput, Option.bind_some, ih (A ++ [c]) B (k + 1) (by simp [hk]) (by simpa using hB)]
      simp; omega

theorem putRows_eq (m : Map) (dof : ℕ) : ∀ n i (Z W : List ℕ), i + n = dof → Z.length = n + 1 → W.length = (((rows dof m).drop i).flatten).length →
    putRows m n i ((List.range i).map (fun j => dof + 1 + Seg.start (rows dof m) j) ++ Z ++ (((rows dof m).take i).flatten ++ W)) (dof + 1 + Seg.start (rows dof m) i) =
      some ((List.range dof).map (fun j => dof + 1 + Seg.start (rows dof m) j) ++ [Z.getLast?.getD 0] ++ (rows dof m).flatten, dof + 1 + (rows dof m).flatten.length) := by
  intro n
  induction n with
  | zero =>
    intro i Z W hi hZ hW
    have hi : i = dof := by omega
    subst hi
    have hl : (rows i m).length = i := by simp [rows]
    have hd : (rows i m).drop i = [] := List.drop_of_length_le (by omega)
    rw [hd] at hW
    have : W = [] := List.length_eq_zero_iff.mp (by simpa using hW)
    subst this
    have hs : Seg.start (rows i m) i = (rows i m).flatten.length := by
      conv_lhs => rw [← hl]
      rw [hl]; have := Seg.start_length (rows i m); rwa [hl] at this
    have ht : (rows i m).take i = rows i m := List.take_of_length_le (by omega)
    obtain ⟨z, rfl⟩ : ∃ z, Z = [z] := List.length_eq_one_iff.mp (by omega)
    rw [putRows, ht, hs]; simp
  | succ n ih =>
    intro i Z W hi hZ hW
    have hlen : (rows dof m).length = dof := by simp [rows]
    have hil : i < (rows dof m).length := by omega
    have hget : (rows dof m)[i] = row m i := by simp [rows]
    have hdrop : (rows dof m).drop i = row m i :: (rows dof m).drop (i + 1) := by rw [List.drop_eq_getElem_cons hil, hget]
    have htake : ((rows dof m).take (i + 1)).flatten = ((rows dof m).take i).flatten ++ row m i := by
      rw [List.take_add_one, List.getElem?_eq_getElem hil, hget]; simp
    have hstart := Seg.start_succ (rows dof m) hil
    rw [hget] at hstart
    rw [hdrop, List.flatten_cons, List.length_append] at hW
    cases Z with
    | nil => cases hZ
    | cons z Z =>
      have hput : put ((List.range i).map (fun j => dof + 1 + Seg.start (rows dof m) j) ++ z :: Z ++ (((rows dof m).take i).flatten ++ W)) i (dof + 1 + Seg.start (rows dof m) i)
          = some ((List.range (i + 1)).map (fun j => dof + 1 + Seg.start (rows dof m) j) ++ Z ++ (((rows dof m).take i).flatten ++ W)) := by
        unfold put
        rw [if_pos (by simp)]
        rw [List.range_succ, List.map_append]
        simp
      have hZ' : Z.length = n + 1 := by simpa using hZ
      have hlast : (z :: Z).getLast?.getD 0 = Z.getLast?.getD 0 := by
        cases Z with
        | nil => cases hZ'
        | cons y Y => simp [List.getLast?_cons]
      have hpre : ((List.range (i + 1)).map (fun j => dof + 1 + Seg.start (rows dof m) j) ++ Z ++ ((rows dof m).take i).flatten).length = dof + 1 + Seg.start (rows dof m) i := by
        rw [List.length_append, List.length_append, List.length_flatten]; simp [Seg.start, hZ']; omega
      rw [putRows, hput, Option.bind_some, hlast]
      have hrow : row m i = (find m i).getD [] := rfl
      cases hf : find m i with
      | none =>
        rw [hf] at hrow
        simp only [Option.getD_none] at hrow
        rw [hrow] at htake hstart hW
        have := ih (i + 1) Z W (by omega) hZ' (by simpa using hW)
        rw [htake, hstart] at this
        simpa using this
      | some l =>
        rw [hf] at hrow
        simp only [Option.getD_some] at hrow
        rw [hrow] at htake hstart hW
        have hWl : W = W.take l.length ++ W.drop l.length := (List.take_append_drop _ _).symm
        have hWt : (W.take l.length).length = l.length := by rw [List.length_take]; omega
        have hr := putRow_eq l ((List.range (i + 1)).map (fun j => dof + 1 + Seg.start (rows dof m) j) ++ Z ++ ((rows dof m).take i).flatten) (W.take l.length) (W.drop l.length) _ hpre.symm hWt
        have e : (List.range (i + 1)).map (fun j => dof + 1 + Seg.start (rows dof m) j) ++ Z ++ (((rows dof m).take i).flatten ++ W) =
            (List.range (i + 1)).map (fun j => dof + 1 + Seg.start (rows dof m) j) ++ Z ++ ((rows dof m).take i).flatten ++ W.take l.length ++ W.drop l.length := by
          conv_lhs => rw [hWl]
          simp only [List.append_assoc]
        dsimp only
        rw [e, hr, Option.bind_some]
        dsimp only
        have := ih (i + 1) Z (W.drop l.length) (by omega) hZ' (by rw [List.length_drop]; omega)
        rw [htake, hstart] at this
        rw [← this]
        congr 1
        · simp only [List.append_assoc]
        · omega

/-- The compressed representation: the start of every row, the end, then all columns in row order; nothing is written outside the vector. -/
theorem toPetsc_eq (dof : ℕ) (m : Map) (hn : (m.map Prod.fst).Nodup) (hd : ∀ x ∈ m, x.1 < dof) :
    toPetsc dof m = some ((List.range dof).map (fun i => dof + 1 + Seg.start (rows dof m) i) ++ [dof + 1 + (rows dof m).flatten.length] ++ (rows dof m).flatten) := by
  have hnn := nNonZeros_eq dof m hn hd
  have h := putRows_eq m dof dof 0 (List.replicate (dof + 1) 0) (List.replicate (nNonZeros m) 0) (by omega) (by simp) (by simp [hnn])
  have e : (List.range 0).map (fun j => dof + 1 + Seg.start (rows dof m) j) ++ List.replicate (dof + 1) 0 ++ (((rows dof m).take 0).flatten ++ List.replicate (nNonZeros m) 0) =
      List.replicate (nNonZeros m + dof + 1) 0 := by
    rw [List.range_zero, List.map_nil, List.nil_append, List.take_zero, List.flatten_nil, List.nil_append, List.replicate_append_replicate]; congr 1; omega
  rw [e, Seg.start_zero] at h
  unfold toPetsc
  rw [Nat.add_zero] at h
  rw [h, Option.bind_some]
  dsimp only
  unfold put
  rw [if_pos (by simp), hnn]
  congr 1
  simp; omega

/-- Row `i` is found between the start of row `i` and the start of row `i + 1` (or the end). -/
theorem toPetsc_row (dof : ℕ) (m : Map) (hn : (m.map Prod.fst).Nodup) (hd : ∀ x ∈ m, x.1 < dof) :
    ∃ ret, toPetsc dof m = some ret ∧ ret.length = nNonZeros m + dof + 1 ∧
      ∀ i, i < dof → ∃ a b, ret[i]? = some a ∧ ret[i + 1]? = some b ∧ b = a + (row m i).length ∧ ∀ k, k < (row m i).length → ret[a + k]? = (row m i)[k]? := by
  refine ⟨_, toPetsc_eq dof m hn hd, by simp [nNonZeros_eq dof m hn hd]; omega, ?_⟩
  intro i hi
  have hil : i < (rows dof m).length := by simpa [rows] using hi
  have hget : (rows dof m)[i] = row m i := by simp [rows]
  have hs := Seg.start_succ (rows dof m) hil
  rw [hget] at hs
  refine ⟨dof + 1 + Seg.start (rows dof m) i, dof + 1 + Seg.start (rows dof m) (i + 1), ?_, ?_, by omega, ?_⟩
  · rw [List.append_assoc, List.getElem?_append_left (by simpa using hi)]; simp [hi]
  · by_cases h : i + 1 < dof
    · rw [List.append_assoc, List.getElem?_append_left (by simpa using h)]; simp [h]
    · have : i + 1 = dof := by omega
      rw [List.append_assoc, List.getElem?_append_right (by simp; omega)]
      have hl : (rows dof m).length = dof := by simp [rows]
      have := Seg.start_length (rows dof m)
      rw [hl] at this
      simp [*]
  · intro k hk
    rw [List.getElem?_append_right (by simp; omega)]
    have := Seg.get (rows dof m) hil (k := k) (by rw [hget]; exact hk)
    simp only [List.length_append, List.length_map, List.length_range, List.length_singleton]
    rw [show dof + 1 + Seg.start (rows dof m) i + k - (dof + 1) = Seg.start (rows dof m) i + k by omega, this]
    simp [rows, hk]

theorem foldl_push {α β : Type*} (f : α → β) (l : List α) (init : List β) : l.foldl (fun r j => r ++ [f j]) init = init ++ l.map f := by
  induction l generalizing init with
  | nil => simp
  | cons a l ih => rw [List.foldl_cons, ih]; simp

/-- The pair list is the concatenation of the rows. -/
theorem pairs_eq (dof : ℕ) (m : Map) : pairs dof m = (List.range dof).flatMap fun i => (row m i).map fun j => (i, j) := by
  have : ∀ (l : List ℕ) (init : List (ℕ × ℕ)), l.foldl (fun ret i => match find m i with | none => ret | some l => l.foldl (fun ret j => ret ++ [(i, j)]) ret) init =
      init ++ l.flatMap fun i => (row m i).map fun j => (i, j) := by
    intro l
    induction l with
    | nil => simp
    | cons i l ih =>
      intro init
      rw [List.foldl_cons, ih, List.flatMap_cons, ← List.append_assoc]
      congr 1
      unfold row
      cases hf : find m i with
      | none => simp
      | some c => dsimp only; rw [foldl_push, Option.getD_some]
  exact (this _ []).trans (List.nil_append _)

/-- The pair list is in row order. -/
theorem pairs_sorted (dof : ℕ) (m : Map) : (pairs dof m).Pairwise fun x y => x.1 ≤ y.1 := by
  rw [pairs_eq, List.pairwise_flatMap]
  constructor
  · intro i _
    rw [List.pairwise_map]
    exact List.pairwise_of_forall fun _ _ => le_rfl
  · refine List.pairwise_lt_range.imp ?_
    intro a b hab x hx y hy
    obtain ⟨_, _, rfl⟩ := List.mem_map.mp hx
    obtain ⟨_, _, rfl⟩ := List.mem_map.mp hy
    exact hab.le

/-- The pairs of a row are exactly the columns of that row, in order. -/
theorem pairs_row (dof : ℕ) (m : Map) (r : ℕ) : ((pairs dof m).filter fun x => x.1 == r).map Prod.snd = if r < dof then row m r else [] := by
  rw [pairs_eq]
  induction dof with
  | zero => simp
  | succ n ih =>
    rw [List.range_succ, List.flatMap_append, List.filter_append, List.map_append, ih]
    by_cases h : n = r
    · subst h
      simp [List.filter_map, Function.comp_def]
    · simp only [List.flatMap_cons, List.flatMap_nil, List.append_nil]
      have : ((row m n).map fun j => (n, j)).filter (fun x => x.1 == r) = [] := by
        rw [List.filter_eq_nil_iff]
        intro x hx
        obtain ⟨_, _, rfl⟩ := List.mem_map.mp hx
        simpa using h
      rw [this]
      by_cases h2 : r < n
      · rw [if_pos h2, if_pos (by omega)]; simp
      · rw [if_neg h2, if_neg (by omega)]; simp

/-- The two coordinate lists are the two halves of the pair list. -/
theorem coords_eq (dof : ℕ) (m : Map) : coords dof m = ((pairs dof m).map Prod.fst, (pairs dof m).map Prod.snd) := by
  have inner : ∀ (i : ℕ) (l : List ℕ) (p : List (ℕ × ℕ)), l.foldl (fun ret j => (ret.1 ++ [i], ret.2 ++ [j])) (p.map Prod.fst, p.map Prod.snd) =
      ((l.foldl (fun ret j => ret ++ [(i, j)]) p).map Prod.fst, (l.foldl (fun ret j => ret ++ [(i, j)]) p).map Prod.snd) := by
    intro i l
    induction l with
    | nil => intro p; rfl
    | cons c l ih =>
      intro p
      rw [List.foldl_cons, List.foldl_cons]
      have := ih (p ++ [(i, c)])
      simpa using this
  have outer : ∀ (l : List ℕ) (p : List (ℕ × ℕ)), l.foldl (fun ret i => match find m i with | none => ret | some l => l.foldl (fun ret j => (ret.1 ++ [i], ret.2 ++ [j])) ret) (p.map Prod.fst, p.map Prod.snd) =
      ((l.foldl (fun ret i => match find m i with | none => ret | some l => l.foldl (fun ret j => ret ++ [(i, j)]) ret) p).map Prod.fst,
       (l.foldl (fun ret i => match find m i with | none => ret | some l => l.foldl (fun ret j => ret ++ [(i, j)]) ret) p).map Prod.snd) := by
    intro l
    induction l with
    | nil => intro p; rfl
    | cons i l ih =>
      intro p
      rw [List.foldl_cons, List.foldl_cons]
      cases hf : find m i with
      | none => exact ih p
      | some c => dsimp only; rw [inner, ih]
  exact outer _ []

theorem find_diagonal (C : Network.Conn.Crs) (dof i : ℕ) (h : i < dof) :
    find (diagonal C dof) i = some ((List.range' (C.rowMap i) (C.rowMap (i + 1) - C.rowMap i)).filterMap C.entries) := by
  unfold find diagonal
  rw [List.find?_map]
  have : (List.range dof).find? ((fun x : ℕ × List ℕ => x.1 == i) ∘ fun i => (i, (List.range' (C.rowMap i) (C.rowMap (i + 1) - C.rowMap i)).filterMap C.entries)) = some i := by
    rw [List.find?_eq_some_iff_append]
    refine ⟨by simp, List.range i, List.range' (i + 1) (dof - i - 1), ?_, ?_⟩
    · rw [List.range_eq_range', List.range_eq_range', ← List.range'_succ]
      rw [show dof = i + (dof - i - 1 + 1) by omega, ← List.range'_append_1]
      simp
    · intro a ha
      rw [List.mem_range] at ha
      simp; omega
  rw [this]; rfl

/-- The fill map read from the compressed connectivity has the connectivity's rows. -/
theorem diagonal_row (rs : List (List ℕ)) (i : ℕ) (h : i < rs.length) : row (diagonal (Network.Conn.crsOf rs) rs.length) i = rs[i] := by
  unfold row
  rw [find_diagonal _ _ _ h, Option.getD_some]
  have hs := Network.Conn.crsOf_rowMap_succ rs h
  rw [hs, Nat.add_sub_cancel_left, List.range'_eq_map_range, List.filterMap_map]
  apply List.ext_getElem?
  intro k
  have : (List.range rs[i].length).filterMap ((Network.Conn.crsOf rs).entries ∘ fun x => (Network.Conn.crsOf rs).rowMap i + x) = rs[i] := by
    have e : (List.range rs[i].length).filterMap ((Network.Conn.crsOf rs).entries ∘ fun x => (Network.Conn.crsOf rs).rowMap i + x) =
        (List.range rs[i].length).filterMap fun x => rs[i][x]? := by
      refine List.filterMap_congr fun x hx => ?_
      rw [List.mem_range] at hx
      rw [Function.comp_apply, Network.Conn.crsOf_entries rs h hx, List.getElem?_eq_getElem hx]
    rw [e]
    generalize rs[i] = l
    induction l with
    | nil => rfl
    | cons a l ih =>
      rw [List.length_cons, List.range_succ_eq_map, List.filterMap_cons]
      simp only [List.getElem?_cons_zero, List.filterMap_map]
      congr 1
  rw [this]

/-- The position at which the network writes the derivative of row `r` for column `c` is the position of that pair in the list handed to the solver. -/
theorem pairs_position (rs : List (List ℕ)) (r c p : ℕ) (h : r < rs.length) (hp : (Network.Conn.crsOf rs).getPosition r c = some p) :
    (pairs rs.length (diagonal (Network.Conn.crsOf rs) rs.length))[p]? = some (r, c) := by
  by_cases hc : c ∈ rs[r]
  · obtain ⟨p', h1, h2, h3, h4⟩ := (Network.Conn.getPosition_spec rs h c).1 hc
    rw [hp, Option.some.injEq] at h1
    subst h1
    have hpairs : pairs rs.length (diagonal (Network.Conn.crsOf rs) rs.length) = (rs.zipIdx.map fun x => x.1.map fun j => (x.2, j)).flatten := by
      rw [pairs_eq, List.flatMap_def]
      congr 1
      apply List.ext_getElem
      · simp
      · intro i ha hb
        have hi : i < rs.length := by simpa using ha
        simp [diagonal_row rs i hi]
    obtain ⟨k, rfl⟩ : ∃ k, p = (Network.Conn.crsOf rs).rowMap r + k := ⟨p - (Network.Conn.crsOf rs).rowMap r, by omega⟩
    have hs := Network.Conn.crsOf_rowMap_succ rs h
    have hk : k < rs[r].length := by omega
    rw [Network.Conn.crsOf_entries rs h hk, Option.some.injEq] at h4
    have hst : (Network.Conn.crsOf rs).rowMap r = Seg.start (rs.zipIdx.map fun x => x.1.map fun j => (x.2, j)) r := by
      unfold Network.Conn.crsOf Seg.start
      simp only
      rw [← List.map_take, List.map_map]
      congr 1
      apply List.ext_getElem
      · simp
      · intro i ha hb; simp
    rw [hpairs, hst, Seg.get (rs.zipIdx.map fun x => x.1.map fun j => (x.2, j)) (i := r) (k := k) (by simpa using h) (by simpa using hk)]
    simp [h4]
  · rw [(Network.Conn.getPosition_spec rs h c).2 hc] at hp; cases hp

/-- Together with the layout of the Jacobian: the index of that derivative within the network's window is announced with the right row and column. -/
theorem nw_slot {P Q : Type} (S : Coo.Setup P Q) (q : P) (rs : List (List ℕ)) (hnw : S.nw = pairs rs.length (diagonal (Network.Conn.crsOf rs) rs.length))
    (r c p : ℕ) (h : r < rs.length) (hp : (Network.Conn.crsOf rs).getPosition r c = some p) : (Coo.nwSlots S q)[p]? = some (some ((q, r), (S.self q, c))) := by
  unfold Coo.nwSlots
  rw [List.getElem?_map, hnw, pairs_position rs r c p h hp]; rfl

example : toPetsc 4 [(2, [0, 2]), (0, [0, 3]), (3, [1])] = some [5, 7, 7, 9, 10, 0, 3, 0, 2, 1] := by decide +kernel
example : pairs 4 [(2, [0, 2]), (0, [0, 3]), (3, [1])] = [(0, 0), (0, 3), (2, 0), (2, 2), (3, 1)] := by decide +kernel
/-- A row beyond the last one is counted but not listed, and the end of the vector is wrong. -/
theorem extra_row : toPetsc 1 [(0, [0]), (1, [0])] = some [2, 4, 0, 0] := by decide +kernel

end Xolotl.Solver.FillMap
