import Verif.Solver.TextFiles
import Verif.Flux.ProfileProps
import Verif.Solver.WrittenProps

set_option linter.unusedSectionVars false

/-!
# Properties of the text files of the monitors (C94)
-/

namespace Xolotl.Solver.TextFiles

open Xolotl.Flux

variable {K : Type*} [Field K] [LinearOrder K] [IsStrictOrderedRing K]

/-! ## Helium retention -/

/-- What the value under a label should be. -/
def meaning (v : Values K) : Label → Option K
  | .time => some v.time
  | .fluence => v.fluence[0]?
  | .part i => v.fluence[i + 1]?
  | .content s => v.content[s]?
  | .bulk s => v.bulk[s]?
  | .surface s => v.surface[s]?
  | .burst i => some (v.burst i)

theorem mapM_append {A B : Type*} (f : A → Option B) (l m : List A) :
    (l ++ m).mapM f = (l.mapM f).bind fun a => (m.mapM f).map (a ++ ·) := by
  rw [List.mapM_append]; cases l.mapM f <;> simp [Option.map_eq_bind]

theorem mapM_map {A B C : Type*} (g : A → B) (f : B → Option C) (l : List A) : (l.map g).mapM f = l.mapM fun a => f (g a) := by
  rw [List.mapM_map]; rfl

theorem firstOf_some (n : ℕ) (l : List K) (h : n ≤ l.length) : firstOf n l = some (l.take n) := by
  unfold firstOf
  induction n with
  | zero => simp
  | succ n ih =>
    have e : l[n]? = some l[n] := List.getElem?_eq_getElem (by omega)
    rw [List.range_succ, mapM_append, ih (by omega), List.take_add_one, e]
    simp [e]

theorem firstOf_none (n : ℕ) (l : List K) (h : l.length < n) : firstOf n l = none := by
  unfold firstOf
  induction n with
  | zero => simp at h
  | succ n ih =>
    rw [List.range_succ, mapM_append]
    by_cases c : l.length < n
    · rw [ih c]; rfl
    · have e : l[n]? = none := List.getElem?_eq_none (by omega)
      cases (List.range n).mapM (l[·]?) <;> simp [e]

/-- All the fluences are the total and the parts. -/
theorem parts_all (n : ℕ) (l : List K) (h : l.length = n + 1) :
    [Label.fluence].mapM (meaning (K := K) ⟨0, l, [], [], [], fun _ => 0⟩) = some (l.take 1) ∧
    (List.range n).mapM (fun i => l[i + 1]?) = some (l.drop 1) := by
  cases l with
  | nil => simp at h
  | cons a l =>
    refine ⟨by simp [meaning], ?_⟩
    have := firstOf_some n l (by simp at h; omega)
    unfold firstOf at this
    simp only [List.length_cons, Nat.add_right_cancel_iff] at h
    simpa [← h] using this

/-- **C94, helium retention.** If the vectors have an entry for every species and the fluence an entry for the total and for every reduction factor, a row has under every label of the header the value that the label names, and nothing else. -/
theorem he_row (p : Shape) (v : Values K) (hf : v.fluence.length = p.factors + 1) (hc : p.species ≤ v.content.length)
    (hb : p.right = 1 → p.species ≤ v.bulk.length) (hs : p.left = 1 → p.species ≤ v.surface.length) :
    heRow p v = (heHeader p).mapM (meaning v) ∧ ((heHeader p).mapM (meaning v)).isSome := by
  have h0 : v.fluence[0]? = some (v.fluence[0]'(by omega)) := List.getElem?_eq_getElem (by omega)
  have e1 : (if p.dim = 1 then (List.range p.factors).map Label.part else []).mapM (meaning v) =
      some (if p.dim = 1 then v.fluence.drop 1 else []) := by
    split
    · rw [mapM_map]; exact (parts_all p.factors v.fluence hf).2
    · rfl
  have e2 : ((List.range p.species).map Label.content).mapM (meaning v) = some (v.content.take p.species) := by
    rw [mapM_map]; exact firstOf_some _ _ hc
  have e3 : (if p.right = 1 then (List.range p.species).map Label.bulk else []).mapM (meaning v) =
      some (if p.right = 1 then v.bulk.take p.species else []) := by
    split
    next h => rw [mapM_map]; exact firstOf_some _ _ (hb h)
    next => rfl
  have e4 : (if p.left = 1 then (List.range p.species).map Label.surface else []).mapM (meaning v) =
      some (if p.left = 1 then v.surface.take p.species else []) := by
    split
    next h => rw [mapM_map]; exact firstOf_some _ _ (hs h)
    next => rfl
  have hd : (heHeader p).mapM (meaning v) = some ([v.time, v.fluence[0]'(by omega)] ++ (if p.dim = 1 then v.fluence.drop 1 else []) ++
      v.content.take p.species ++ (if p.right = 1 then v.bulk.take p.species else []) ++
      (if p.left = 1 then v.surface.take p.species else []) ++ [v.burst 0, v.burst 1, v.burst 2]) := by
    unfold heHeader
    rw [mapM_append, mapM_append, mapM_append, mapM_append, mapM_append, e1, e2, e3, e4]
    simp [meaning, h0]
  refine ⟨?_, by rw [hd]; rfl⟩
  rw [hd]
  have f1 : fluences p.dim v.fluence = some (v.fluence[0]'(by omega) :: if p.dim = 1 then v.fluence.drop 1 else []) := by
    unfold fluences
    split
    · rw [Option.some_inj]; exact (List.cons_getElem_drop_succ (n := 0) (l := v.fluence)).symm ▸ by simp
    · rw [firstOf_some _ _ (by omega), List.take_one, List.head?_eq_getElem?, h0]; rfl
  have f3 : firstOf (if p.right = 1 then p.species else 0) v.bulk = some (if p.right = 1 then v.bulk.take p.species else []) := by
    split
    next h => exact firstOf_some _ _ (hb h)
    next => rfl
  have f4 : firstOf (if p.left = 1 then p.species else 0) v.surface = some (if p.left = 1 then v.surface.take p.species else []) := by
    split
    next h => exact firstOf_some _ _ (hs h)
    next => rfl
  unfold heRow
  simp only [f1, f3, f4, firstOf_some _ _ hc, Option.bind_eq_bind, Option.bind_some, Option.pure_def]
  simp

example : heRow (K := ℚ) ⟨1, 2, 1, 1, 2⟩ ⟨9, [6, 2, 4], [10, 11], [20, 21], [30, 31], fun i => i.val⟩ =
    some [9, 6, 2, 4, 10, 11, 20, 21, 30, 31, 0, 1, 2] := by decide +kernel

example : heHeader ⟨1, 2, 1, 0, 1⟩ =
    [.time, .fluence, .part 0, .content 0, .content 1, .surface 0, .surface 1, .burst 0, .burst 1, .burst 2] := by decide

/-- No label is written twice. -/
theorem he_labels (p : Shape) : (heHeader p).Nodup := by
  have inj1 : Function.Injective Label.part := fun a b h => by injection h
  have inj2 : Function.Injective Label.content := fun a b h => by injection h
  have inj3 : Function.Injective Label.bulk := fun a b h => by injection h
  have inj4 : Function.Injective Label.surface := fun a b h => by injection h
  have n1 : ((List.range p.factors).map Label.part).Nodup := List.nodup_range.map inj1
  have n2 : ((List.range p.species).map Label.content).Nodup := List.nodup_range.map inj2
  have n3 : ((List.range p.species).map Label.bulk).Nodup := List.nodup_range.map inj3
  have n4 : ((List.range p.species).map Label.surface).Nodup := List.nodup_range.map inj4
  unfold heHeader
  split_ifs <;> simp [List.nodup_append, n1, n2, n3, n4] <;> grind

/-- **C94, helium retention, a whole program.** From the vector a flux handler starts with, after any changes of the amplitude and at least one step, the row agrees with the header, and the value under `fluence_i` is the total times the reduction factor. -/
theorem he_program (p : Shape) (factors : List K) (hp : p.factors = factors.length) (a : K) (ops : List (FluOp K)) (hinc : doses a ops ≠ [])
    (v : Values K) (hc : p.species ≤ v.content.length) (hb : p.right = 1 → p.species ≤ v.bulk.length) (hs : p.left = 1 → p.species ≤ v.surface.length) :
    ∃ st, fluRun factors ⟨[0], a⟩ ops = some st ∧
      heRow p { v with fluence := st.fluence } = (heHeader p).mapM (meaning { v with fluence := st.fluence }) ∧
      (heRow p { v with fluence := st.fluence }).isSome ∧
      meaning { v with fluence := st.fluence } .fluence = some (doses a ops).sum ∧
      ∀ i (h : i < factors.length), meaning { v with fluence := st.fluence } (.part i) = some ((doses a ops).sum * factors[i]) := by
  obtain ⟨st, e, l, t, f⟩ := fluence_total factors a ops hinc
  obtain ⟨h1, h2⟩ := he_row p { v with fluence := st.fluence } (by rw [hp]; exact l) hc hb hs
  refine ⟨st, e, h1, by rw [h1]; exact h2, ?_, fun i hi => ?_⟩
  · rw [← t]; simp [meaning, List.getD_eq_getElem?_getD, List.getElem?_eq_getElem (show 0 < st.fluence.length by omega)]
  · rw [← f i hi]; simp [meaning, List.getD_eq_getElem?_getD, List.getElem?_eq_getElem (show i + 1 < st.fluence.length by omega)]

example : doses (2 : ℚ) [.inc 0, .amp 3, .inc 5] ≠ [] := by simp [doses]

/-- **C94, helium retention, converse in one dimension.** A row has as many columns as the header only if the fluence has an entry for the total and one for every reduction factor. -/
theorem he_width (p : Shape) (h1 : p.dim = 1) (v : Values K) (r : List K) (h : heRow p v = some r) :
    r.length = (heHeader p).length ↔ v.fluence.length = p.factors + 1 := by
  have len : ∀ (n : ℕ) (l m : List K), firstOf n l = some m → m.length = n := by
    intro n l m e
    by_cases h : n ≤ l.length
    · rw [firstOf_some n l h, Option.some_inj] at e
      rw [← e, List.length_take, min_eq_left h]
    · rw [firstOf_none n l (by omega)] at e; simp at e
  unfold heRow at h
  simp only [fluences, h1, if_true, Option.bind_eq_bind, Option.pure_def, Option.bind_some] at h
  cases hc : firstOf p.species v.content with
  | none => simp [hc] at h
  | some c =>
    cases hb : firstOf (if p.right = 1 then p.species else 0) v.bulk with
    | none => simp [hc, hb] at h
    | some b =>
      cases hs : firstOf (if p.left = 1 then p.species else 0) v.surface with
      | none => simp [hc, hb, hs] at h
      | some s =>
        simp only [hc, hb, hs, Option.bind_some, Option.some_inj] at h
        subst h
        have l1 := len _ _ _ hc
        have l2 := len _ _ _ hb
        have l3 := len _ _ _ hs
        simp only [heHeader, h1, if_true, List.length_append, List.length_cons, List.length_nil, List.length_map, List.length_range, l1, l2, l3, apply_ite List.length]
        omega

/-- **C94 fails for the first row after a restart** from a file that was written with another number of reduction factors: the first step of a restarted program does not add to the fluence, so the row has the fluences of the file. -/
theorem restart_short : ∃ (p : Shape) (v : Values ℚ) (r : List ℚ), p.factors = 2 ∧ v.fluence = [5] ∧ heRow p v = some r ∧ r.length + 2 = (heHeader p).length :=
  ⟨⟨1, 1, 1, 0, 2⟩, ⟨0, [5], [1], [], [2], fun _ => 0⟩, [0, 5, 1, 2, 0, 0, 0], rfl, rfl, by decide +kernel, rfl⟩

/-! ## The flux over time -/

theorem name_go (lo lo' : List ℕ) (h : lo.length = lo'.length) (k : ℕ)
    (e : ((lo.zipIdx k).filter fun p => decide (p.1 > 0)).map (fun p => (p.2, p.1)) = ((lo'.zipIdx k).filter fun p => decide (p.1 > 0)).map fun p => (p.2, p.1)) :
    lo = lo' := by
  induction lo generalizing lo' k with
  | nil => cases lo' with
    | nil => rfl
    | cons b l' => simp at h
  | cons a l ih =>
    cases lo' with
    | nil => simp at h
    | cons b l' =>
      have hl : l.length = l'.length := by simpa using h
      have low : ∀ (m : List ℕ) (x : ℕ × ℕ), x ∈ ((m.zipIdx (k + 1)).filter fun p => decide (p.1 > 0)).map (fun p => (p.2, p.1)) → k < x.1 := by
        intro m x hx
        simp only [List.mem_map, List.mem_filter] at hx
        obtain ⟨y, ⟨hy, -⟩, rfl⟩ := hx
        have := List.le_snd_of_mem_zipIdx hy
        simpa using by omega
      simp only [List.zipIdx_cons, List.filter_cons] at e
      by_cases ha : a > 0 <;> by_cases hb : b > 0
      · simp only [ha, hb, decide_true, if_true, List.map_cons, List.cons.injEq, Prod.mk.injEq, true_and] at e
        rw [e.1, ih l' hl (k + 1) e.2]
      · simp only [ha, hb, decide_true, decide_false, if_true, if_false, List.map_cons, Bool.false_eq_true] at e
        have := low l' (k, a) (by rw [← e]; simp)
        simp at this
      · simp only [ha, hb, decide_true, decide_false, if_true, if_false, List.map_cons, Bool.false_eq_true] at e
        have := low l (k, b) (by rw [e]; simp)
        simp at this
      · simp only [ha, hb, decide_false, if_false, Bool.false_eq_true] at e
        rw [ih l' hl (k + 1) e, show a = 0 by omega, show b = 0 by omega]

/-- **C94, names.** Clusters whose regions begin at different compositions have different names. -/
theorem name_inj (lo lo' : List ℕ) (h : lo.length = lo'.length) (e : name lo = name lo') : lo = lo' := name_go lo lo' h 0 e

example : name [1, 0, 0, 2] = [(0, 1), (3, 2)] := by decide

theorem customLists_eq (lines : List (ℕ × K)) : customLists lines = (lines.map (·.1), lines.map (·.2)) := by
  have gen : ∀ (lines : List (ℕ × K)) (a : List ℕ) (b : List K),
      lines.foldl (fun a l => (a.1 ++ [l.1], a.2 ++ [l.2])) (a, b) = (a ++ lines.map (·.1), b ++ lines.map (·.2)) := by
    intro lines
    induction lines with
    | nil => intro a b; simp
    | cons l ls ih => intro a b; rw [List.foldl_cons, ih]; simp
  simpa [customLists] using gen lines [] []

/-- **C94, custom flux.** The row of instantFlux.txt has one value for every label, in the order of the lines of the parameter file, and it is the amplitude times the reduction factor of the line. -/
theorem instant_custom (bounds : ℕ → List ℕ) (lines : List (ℕ × K)) (amp : K) :
    instantHeader bounds (customLists lines).1 = lines.map (fun l => name (bounds l.1)) ∧
    instantCustom amp (customLists lines).1 (customLists lines).2 = some (lines.map fun l => amp * l.2) := by
  rw [customLists_eq]
  refine ⟨by simp [instantHeader], ?_⟩
  unfold instantCustom
  have := firstOf_some lines.length (lines.map fun l => amp * l.2) (by simp)
  rw [List.take_of_length_le (by simp)] at this
  rw [← this]
  unfold firstOf
  simp only [List.length_map]
  congr 1
  funext i
  simp [Option.map_map, Function.comp_def]

example : instantCustom (2 : ℚ) (customLists [(4, (3 : ℚ)), (1, 5)]).1 (customLists [(4, (3 : ℚ)), (1, 5)]).2 = some [6, 10] := by decide +kernel

/-- **C94, other fluxes.** The row has one value; it has as many as the header only if the flux has one index. -/
theorem instant_base (bounds : ℕ → List ℕ) (indices : List ℕ) (amp : K) :
    (instantBase amp).length = (instantHeader bounds indices).length ↔ ∃ i, indices = [i] := by
  simp only [instantBase, instantHeader, List.length_map, List.length_singleton]
  rw [eq_comm]; exact List.length_eq_one_iff

/-- **C94 fails for pulses:** two labels and one value. -/
theorem instant_pulsed (bounds : ℕ → List ℕ) (v i : ℕ) (amp : K) :
    (instantHeader bounds (pulsedIndices v i)).length = 2 ∧ (instantBase amp).length = 1 := ⟨rfl, rfl⟩

/-! ## Xenon retention in one to three dimensions -/

/-- What the value under a label should be, per area in two and three dimensions. -/
def xeMeaning (time area gb : K) (s : Sums K) : XeLabel → K
  | .time => time
  | .content => s.atoms / area
  | .radius => if 1 / 10 ^ 16 < s.number then s.radius / s.number else 0
  | .partialRadius => if 1 / 10 ^ 16 < s.large then s.largeRadius / s.large else 0
  | .partialConc => s.large
  | .partialSize => if 1 / 10 ^ 16 < s.large then s.largeSize / s.large else 0
  | .gb => gb / area

/-- **C94, xenon retention.** A row has under every label of the header its value. -/
theorem xe_row (dim : Fin 4) (time area gb : K) (s : Sums K) (ha : dim = 1 → area = 1) :
    xeRow dim time area gb s = (xeHeader dim).map (xeMeaning time area gb s) := by
  unfold xeRow xeHeader
  split
  next h => simp [xeMeaning, average, ha h]
  next h => simp [xeMeaning, average]

example : xeRow (2 : Fin 4) (7 : ℚ) 2 4 ⟨10, 5, 20, 0, 3, 4⟩ = [7, 5, 4, 0, 2] := by decide +kernel

/-! ## Xenon retention in zero dimensions -/

/-- The clusters of the lines that are in the network, in the order of the lines. -/
def present (find : Amounts → Option ℕ) (as : List Amounts) : List (Amounts × ℕ) := as.filterMap fun a => (find a).map (a, ·)

theorem order_go (bits : ℕ) (find : Amounts → Option ℕ) : ∀ (lines : List (List ℚ)) (o : Order) (as : List Amounts), lines.mapM (amounts bits) = some as →
    lines.foldlM (orderLine bits find) o = some ⟨o.ids ++ (present find as).map (·.2), o.labels ++ (present find as).map fun x => label x.1⟩
  | [], o, as, h => by
    simp only [List.mapM_nil, Option.pure_def, Option.some_inj] at h
    subst h; simp [present]
  | l :: ls, o, as, h => by
    rw [List.mapM_cons] at h
    simp only [Option.bind_eq_bind, Option.pure_def] at h
    cases ha : amounts bits l with
    | none => simp [ha] at h
    | some a =>
      cases hs : ls.mapM (amounts bits) with
      | none => simp [ha, hs] at h
      | some as' =>
        simp only [ha, hs, Option.bind_some, Option.some_inj] at h
        subst h
        rw [List.foldlM_cons]
        cases hf : find a with
        | none =>
          have : orderLine bits find o l = some o := by simp [orderLine, ha, hf]
          rw [this]; simp only [Option.bind_eq_bind, Option.bind_some]
          rw [order_go bits find ls o as' hs]; simp [present, hf]
        | some id =>
          have : orderLine bits find o l = some ⟨o.ids ++ [id], o.labels ++ [label a]⟩ := by simp [orderLine, ha, hf]
          rw [this]; simp only [Option.bind_eq_bind, Option.bind_some]
          rw [order_go bits find ls _ as' hs]; simp [present, hf]

theorem order_stop (bits : ℕ) (find : Amounts → Option ℕ) : ∀ (lines : List (List ℚ)) (o : Order), lines.mapM (amounts bits) = none →
    lines.foldlM (orderLine bits find) o = none
  | [], o, h => by simp at h
  | l :: ls, o, h => by
    rw [List.mapM_cons] at h
    simp only [Option.bind_eq_bind, Option.pure_def] at h
    rw [List.foldlM_cons]
    cases ha : amounts bits l with
    | none => simp [orderLine, ha]
    | some a =>
      have hs : ls.mapM (amounts bits) = none := by
        cases hs : ls.mapM (amounts bits) with
        | none => rfl
        | some as' => simp [ha, hs] at h
      have : ∃ o', orderLine bits find o l = some o' := by
        cases hf : find a <;> simp [orderLine, ha, hf]
      obtain ⟨o', e⟩ := this
      rw [e]; exact order_stop bits find ls o' hs

/-- **C94, zero dimensions.** If every line has three amounts, the labels and the columns of a row are those of the clusters of the file that are in the network, in the order of the file: the label names the amounts of the line and the value below it is the concentration of the cluster with those amounts. -/
theorem ne_row (bits : ℕ) (find : Amounts → Option ℕ) (lines : List (List ℚ)) (as : List Amounts) (h : lines.mapM (amounts bits) = some as)
    (time content ratio variance : K) (conc : ℕ → K) :
    ∃ o, order bits find lines = some o ∧
      o.labels = (present find as).map (fun x => label x.1) ∧
      neRow o time content conc ratio variance = [time, content] ++ (present find as).map (fun x => conc x.2) ++ [ratio, variance] := by
  refine ⟨_, order_go bits find lines ⟨[], []⟩ as h, by simp, ?_⟩
  simp [neRow]

/-- **C94, zero dimensions, number of columns.** Whatever the lines are, if the setup ends, a row has as many columns as the header has labels. -/
theorem ne_width (bits : ℕ) (find : Amounts → Option ℕ) (lines : List (List ℚ)) (o : Order) (h : order bits find lines = some o)
    (time content ratio variance : K) (conc : ℕ → K) : (neRow o time content conc ratio variance).length = 2 + o.labels.length + 2 := by
  cases hs : lines.mapM (amounts bits) with
  | none => rw [order, order_stop bits find lines _ hs] at h; simp at h
  | some as =>
    obtain ⟨o', e, e1, e2⟩ := ne_row bits find lines as hs time content ratio variance conc
    rw [h, Option.some_inj] at e
    subst e
    rw [e2, e1]; simp; omega

example : order 32 (fun a => if a = ⟨0, 1, 0⟩ then none else some a.xe) [[1, 0, 0, 9], [0, 1, 0], [3, 2, 0, 5]] = some ⟨[1, 3], [.Xe 1, .XeV 3 2]⟩ := by decide +kernel

/-- A line with fewer than three numbers or with an amount below zero is undefined behaviour. -/
theorem ne_undefined (find : Amounts → Option ℕ) : order 32 find [[1, 0, 0], [2, 1]] = none ∧ order 32 find [[-1, 0, 0]] = none := by
  constructor
  · exact order_stop 32 find _ _ (by decide +kernel)
  · exact order_stop 32 find _ _ (by decide +kernel)

/-- **C94, zero dimensions, labels.** Among clusters of which those with interstitials have nothing else, different clusters have different labels. -/
theorem label_inj (a b : Amounts) (ha : a.i > 0 → a.xe = 0 ∧ a.v = 0) (hb : b.i > 0 → b.xe = 0 ∧ b.v = 0) (h : label a = label b) : a = b := by
  obtain ⟨x, v, i⟩ := a
  obtain ⟨x', v', i'⟩ := b
  simp only [label] at h ha hb
  split_ifs at h <;> simp only [ClusterLabel.I.injEq, ClusterLabel.V.injEq, ClusterLabel.Xe.injEq, ClusterLabel.XeV.injEq] at h <;>
    simp only [Amounts.mk.injEq] <;> omega

/-- A cluster of xenon and interstitials has the label of the interstitials alone. -/
theorem label_interstitial (x v n : ℕ) (h : 0 < n) : label ⟨x, v, n⟩ = label ⟨0, 0, n⟩ := by simp [label, h]

/-! ## Alloys and zirconium -/

/-- The quantity of `Written` that a label names. -/
def columnOf (k : Kind × Bool) : Written.Column :=
  ⟨match k.1 with | .density => .total | .atom => .atom | .diameter => .radius, k.2, match k.1 with | .diameter => 2 | _ => 1⟩

/-- **C94, alloys and zirconium.** The labels of a species are, in order, those of the columns that are computed, and the header has as many labels after the time as the line has values. -/
theorem data_header :
    alloyLabels.map columnOf = Written.alloy.columns ∧ zrLabels.map columnOf = Written.zr.columns := ⟨rfl, rfl⟩

theorem dataHeader_length (labels : List (Kind × Bool)) (d : ℕ) : (dataHeader labels d).length = labels.length * d := by
  unfold dataHeader
  induction d with
  | zero => simp
  | succ d ih => rw [List.range_succ, List.flatMap_append, List.length_append, ih]; simp [Nat.mul_succ]

/-- Label number `labels.length * s + n` is label `n` of species `s`. -/
theorem data_label (labels : List (Kind × Bool)) (d s n : ℕ) (hs : s < d) (hn : n < labels.length) :
    (dataHeader labels d)[labels.length * s + n]? = some (s, labels[n]) := by
  have hlen := dataHeader_length labels
  induction d with
  | zero => omega
  | succ d ih =>
    have e : dataHeader labels (d + 1) = dataHeader labels d ++ labels.map (d, ·) := by
      unfold dataHeader; rw [List.range_succ, List.flatMap_append]; simp
    rw [e]
    by_cases c : s < d
    · rw [List.getElem?_append_left, ih c]
      rw [hlen]
      calc labels.length * s + n < labels.length * s + labels.length := by omega
        _ = labels.length * (s + 1) := by rw [Nat.mul_succ]
        _ ≤ labels.length * d := Nat.mul_le_mul_left _ (by omega)
    · obtain rfl : s = d := by omega
      rw [List.getElem?_append_right (by rw [hlen]; omega), hlen]
      simp [hn]

/-- The line of alloys and of zirconium has as many values as its header has labels after the time. -/
theorem data_width {d : ℕ} (minSizes : Fin d → ℕ) (grid : ℕ → K) (total : ℕ → Xolotl.Network.Totals.Quantity d → K) (first right nX : ℕ) (ranks : List (ℕ × ℕ)) :
    (Written.line Written.alloy minSizes grid total first right nX ranks).length = (dataHeader alloyLabels d).length ∧
    (Written.line Written.zr minSizes grid total first right nX ranks).length = (dataHeader zrLabels d).length := by
  constructor <;> simp [Written.line, dataHeader_length, Written.alloy, Written.zr, alloyLabels, zrLabels]

/-! ## The temperature profile -/

/-- **C94, temperature profile.** With the grid of the header, column `j` after the time is the temperature at the depth that the header has at place `j`. -/
theorem temp_row (nX left right : ℕ) (grid tg T : ℕ → K) (ranks : List (ℕ × ℕ)) (hr : Written.Consecutive 0 ranks nX) (time : K) :
    tempRow nX left right grid tg T ranks time =
      time :: (tempHeader nX left right grid).map fun x => TempTransfer.interpAt nX tg T (T (nX + 1)) x := by
  unfold tempRow tempHeader
  rw [Written.profile_right nX left right grid tg T ranks hr, List.map_map]
  exact congrArg _ (List.map_congr_left fun xi _ => by rw [Function.comp_apply, Written.depth_loc])

/-- **C94 fails for the temperature profile:** the header has no label for the time. -/
theorem temp_shift (nX left right : ℕ) (grid tg T : ℕ → K) (ranks : List (ℕ × ℕ)) (time : K) :
    (tempRow nX left right grid tg T ranks time).length = (tempHeader nX left right grid).length + 1 := by
  simp [tempRow, tempHeader, Written.profile]

/-- **C94 fails for the temperature profile when the surface moves:** the header stays that of the first grid, and a row of another grid has as many more columns as the grid has more points. -/
theorem temp_moved (nX nX' left right : ℕ) (h : left + right ≤ nX) (h' : left + right ≤ nX') (grid grid' tg T : ℕ → K) (ranks : List (ℕ × ℕ)) (time : K) :
    (tempRow nX' left right grid' tg T ranks time).length = (tempHeader nX left right grid).length + 1 ↔ nX' = nX := by
  simp [tempRow, tempHeader, Written.profile]; omega

/-- The number of points does change. -/
example : (Move.move ([0, 1, 2, 3, 4, 5] : List ℚ) 1).map List.length = some 7 := by decide +kernel

/-! ## The files during a program -/

theorem kept_go {L : Type*} (dim : Fin 4) (f : File) : ∀ (ps : List (Part L)) (loop : ℕ) (file : List L), (∀ k, loop ≤ k → empties dim f k = false) →
    afterLoops dim f loop file ps = file ++ ps.flatMap (·.rows)
  | [], loop, file, _ => by simp [afterLoops]
  | p :: ps, loop, file, h => by
    rw [afterLoops, kept_go dim f ps (loop + 1) _ fun k hk => h k (by omega)]
    simp [afterLoop, h loop le_rfl]

/-- **C94, rows are kept.** In one to three dimensions, all files but two have at the end of a program the header of the first loop and after it the rows of all loops in order, whatever they had before. -/
theorem rows_kept {L : Type*} (dim : Fin 4) (f : File) (hd : dim ≠ 0) (hf : f ≠ .bursting ∧ f ≠ .zirconium) (file : List L) (p : Part L) (ps : List (Part L)) :
    program dim f file (p :: ps) = p.header :: (p :: ps).flatMap (·.rows) := by
  have h0 : empties dim f 0 = true := by cases f <;> simp [empties]
  have hk : ∀ k, 1 ≤ k → empties dim f k = false := by
    intro k hk
    cases f <;> simp_all [empties] <;> omega
  rw [program, afterLoops, kept_go dim f ps 1 _ hk]
  simp [afterLoop, h0]

/-- **C94 fails for bursting.txt and AlphaZr.dat:** when the solver loops because the surface moved, the rows of all loops but the last are lost. -/
theorem rows_lost {L : Type*} (dim : Fin 4) (f : File) (hf : f = .bursting ∨ f = .zirconium) (file : List L) (ps : List (Part L)) (p : Part L) :
    program dim f file (ps ++ [p]) = p.header :: p.rows := by
  have gen : ∀ (ps : List (Part L)) (loop : ℕ) (file : List L), afterLoops dim f loop file (ps ++ [p]) = p.header :: p.rows := by
    intro ps
    induction ps with
    | nil => intro loop file; rcases hf with rfl | rfl <;> simp [afterLoops, afterLoop, empties]
    | cons q ps ih => intro loop file; rw [List.cons_append, afterLoops, ih]
  exact gen ps 0 file

example : program 1 .bursting ["old"] [⟨"#time depth", ["a", "b"]⟩, ⟨"#time depth", ["c"]⟩] = ["#time depth", "c"] := by decide
example : program 1 .retention ["old"] [⟨"#time", ["a", "b"]⟩, ⟨"#", ["c"]⟩] = ["#time", "a", "b", "c"] := by decide

/-- **C94 fails for a program that continues an earlier one:** what the earlier program wrote is not in the file any more, also when it starts from its checkpoint. -/
theorem restart_erases {L : Type*} (dim : Fin 4) (f : File) (file file' : List L) (p : Part L) (ps : List (Part L)) :
    program dim f file (p :: ps) = program dim f file' (p :: ps) := by
  have h0 : empties dim f 0 = true := by cases f <;> simp [empties]
  simp [program, afterLoops, afterLoop, h0]

/-- **C94, `outputData`.** After calls at times of which the first is zero and no other is, the file has the header and a row for each call. -/
theorem output_rows {L : Type*} (header : L) (file : List L) (row : L) (rows : List (K × L)) (h : ∀ r ∈ rows, r.1 ≠ 0) :
    rows.foldl (fun f r => outputData header f r.1 r.2) (outputData header file (0 : K) row) = header :: row :: rows.map (·.2) := by
  have gen : ∀ (rows : List (K × L)) (file : List L), (∀ r ∈ rows, r.1 ≠ 0) → rows.foldl (fun f r => outputData header f r.1 r.2) file = file ++ rows.map (·.2) := by
    intro rows
    induction rows with
    | nil => intro file _; simp
    | cons r rows ih =>
      intro file h
      rw [List.foldl_cons, ih _ fun x hx => h x (by simp [hx])]
      simp [outputData, h r (by simp)]
  rw [gen rows _ h]; simp [outputData]

example : ∀ r ∈ [((1 : ℚ), "a"), (2, "b")], r.1 ≠ 0 := by simp

/-! ## Bubbles in iron -/

/-- **C94, bubbles.** The file has a row for exactly the clusters whose region begins at a composition that is not of one species alone, with the smallest and the largest amounts of the region and the concentration. -/
theorem bubble_rows (net : List Box) (conc : ℕ → K) (r : Bubble K) :
    r ∈ bubbles net conc ↔ ∃ (k : ℕ) (h : k < net.length),
      ¬ ((net[k].loI ≠ 0 ∧ net[k].loHe = 0 ∧ net[k].loV = 0) ∨ (net[k].loV ≠ 0 ∧ net[k].loHe = 0 ∧ net[k].loI = 0) ∨ (net[k].loHe ≠ 0 ∧ net[k].loV = 0 ∧ net[k].loI = 0)) ∧
      r = ⟨net[k].loHe, net[k].hiHe - 1, net[k].loV, net[k].hiV - 1, conc k⟩ := by
  simp only [bubbles, List.mem_map, List.mem_filter]
  constructor
  · rintro ⟨⟨b, k⟩, ⟨hm, hb⟩, rfl⟩
    have hm' : net[k]? = some b := List.mem_zipIdx_iff_getElem?.1 hm
    obtain ⟨hk, hkb⟩ := List.getElem?_eq_some_iff.1 hm'
    refine ⟨k, hk, ?_, by rw [hkb]⟩
    rw [hkb]
    simp only [isBubble, Bool.not_eq_true', Bool.or_eq_false_iff, Bool.and_eq_false_iff, decide_eq_false_iff_not] at hb
    omega
  · rintro ⟨k, hk, hb, rfl⟩
    refine ⟨(net[k], k), ⟨List.mem_zipIdx_iff_getElem?.2 (List.getElem?_eq_getElem hk), ?_⟩, rfl⟩
    simp only [isBubble, Bool.not_eq_true', Bool.or_eq_false_iff, Bool.and_eq_false_iff, decide_eq_false_iff_not]
    omega

/-- The amounts of the region are those between the smallest and the largest one of the row. -/
theorem bubble_bounds (b : Box) (h : b.loHe < b.hiHe) (n : ℕ) : (b.loHe ≤ n ∧ n < b.hiHe) ↔ (b.loHe ≤ n ∧ n ≤ b.hiHe - 1) := by omega

/-- A cluster of sizes that begins at vacancies without helium is left out although most of it is bubbles. -/
theorem bubble_missed (conc : ℕ → K) : bubbles [⟨0, 10, 50, 60, 0⟩] conc = [] := rfl

example : bubbles [⟨1, 2, 0, 1, 0⟩, ⟨2, 4, 3, 5, 0⟩] (fun i => (i : ℚ)) = [⟨2, 3, 3, 4, 1⟩] := rfl

/-! ## Numbers of the file of averages -/

/-- The conversion is defined exactly for what fits after the fraction is dropped. -/
theorem toId_none (bits : ℕ) (x : ℚ) : toId bits x = none ↔ x ≤ -1 ∨ 2 ^ bits ≤ x := by
  unfold toId
  split_ifs with h
  · simp only [reduceCtorEq, false_iff]; push Not; exact h
  · simp only [true_iff]; by_contra hc; push Not at hc; exact h hc

/-- Where it is defined, it is the number without its fraction. -/
theorem toId_some (bits n : ℕ) (x : ℚ) (h0 : 0 ≤ x) : toId bits x = some n ↔ x < 2 ^ bits ∧ (n : ℚ) ≤ x ∧ x < n + 1 := by
  have hf : 0 ≤ x.floor := by rw [Rat.le_floor_iff]; simpa using h0
  have key : x.floor.toNat = n ↔ (n : ℚ) ≤ x ∧ x < n + 1 := by
    have e : x.floor.toNat = n ↔ x.floor = (n : ℤ) := by omega
    rw [e]
    have h1 : (n : ℤ) ≤ x.floor ↔ (n : ℚ) ≤ x := by rw [Rat.le_floor_iff]; simp
    have h2 : (n : ℤ) + 1 ≤ x.floor ↔ (n : ℚ) + 1 ≤ x := by rw [Rat.le_floor_iff]; simp
    rw [← h1, ← not_le, ← h2]
    omega
  unfold toId
  split_ifs with h
  · simp [key, h.2]
  · simp only [false_iff, not_and, reduceCtorEq]
    intro hx; exact absurd ⟨by linarith, hx⟩ h

example : toId 32 (7 / 2) = some 3 ∧ toId 2 4 = none ∧ toId 2 (-1 / 2) = some 0 := by decide +kernel

end Xolotl.Solver.TextFiles
