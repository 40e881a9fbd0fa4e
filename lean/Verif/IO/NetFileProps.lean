import Mathlib.Tactic.Ring
import Verif.IO.NetFile
import Verif.IO.StepsProps

/-!
# Properties of the network in the checkpoint file (C91)
-/

namespace Xolotl.IO.NetFile

variable {K : Type}

/-! ### Numbers and names -/

theorem toNat_toInt (n : ℕ) (h : n < 2 ^ 32) : toNat (toInt n) = n := by
  unfold toNat toInt
  split <;> omega

theorem toInt_inj (n m : ℕ) (hn : n < 2 ^ 32) (hm : m < 2 ^ 32) (h : toInt n = toInt m) : n = m := by
  rw [← toNat_toInt n hn, ← toNat_toInt m hm, h]

theorem groupName_inj (n m : ℕ) (hn : n < 2 ^ 32) (hm : m < 2 ^ 32) (h : groupName n = groupName m) : n = m := toInt_inj n m hn hm (Steps.render_inj _ _ h)

theorem pred_lt (n : ℕ) : pred n < 2 ^ 32 := Nat.mod_lt _ (by norm_num)

theorem pred_pos (n : ℕ) (h0 : 0 < n) (h : n ≤ 2 ^ 32) : pred n = n - 1 := by
  unfold pred
  omega

theorem pred_inj (n m : ℕ) (hn : n < 2 ^ 32) (hm : m < 2 ^ 32) (h : pred n = pred m) : n = m := by
  unfold pred at h
  omega

/-- Numbers that fit into their types. -/
def Fits (n : Network K) : Prop := n.clusters.length < 2 ^ 32 ∧ ∀ c ∈ n.clusters, ∀ i ∈ c.region, i.1 < 2 ^ 32 ∧ i.2 < 2 ^ 32

theorem bounds_lt (r : List (ℕ × ℕ)) (h : ∀ i ∈ r, i.1 < 2 ^ 32 ∧ i.2 < 2 ^ 32) : ∀ b ∈ bounds r, b < 2 ^ 32 := by
  intro b hb
  obtain ⟨i, hi, h1⟩ := List.mem_flatMap.1 hb
  rcases List.mem_cons.1 h1 with rfl | h1
  · exact (h i hi).1
  · rw [List.mem_singleton.1 h1]
    exact pred_lt _

theorem bounds_inj (r : List (ℕ × ℕ)) : ∀ s, (∀ i ∈ r, i.1 < 2 ^ 32 ∧ i.2 < 2 ^ 32) → (∀ i ∈ s, i.1 < 2 ^ 32 ∧ i.2 < 2 ^ 32) → bounds r = bounds s → r = s := by
  induction r with
  | nil =>
    intro s _ _ h
    cases s with
    | nil => rfl
    | cons b s => simp [bounds] at h
  | cons a r ih =>
    intro s hr hs h
    cases s with
    | nil => simp [bounds] at h
    | cons b s =>
      simp only [bounds, List.flatMap_cons, List.cons_append, List.nil_append, List.cons.injEq] at h
      obtain ⟨h1, h2, h3⟩ := h
      have := ih s (fun i hi => hr i (List.mem_cons_of_mem _ hi)) (fun i hi => hs i (List.mem_cons_of_mem _ hi)) h3
      have h4 := pred_inj _ _ (hr a List.mem_cons_self).2 (hs b List.mem_cons_self).2 h2
      rw [this, Prod.ext h1 h4]

theorem bounds_cons (a : ℕ × ℕ) (r : List (ℕ × ℕ)) : bounds (a :: r) = a.1 :: pred a.2 :: bounds r := by
  simp only [bounds, List.flatMap_cons, List.cons_append, List.nil_append]

theorem bounds_get (r : List (ℕ × ℕ)) : ∀ j, (bounds r)[2 * j]? = (r[j]?).map Prod.fst ∧ (bounds r)[2 * j + 1]? = (r[j]?).map fun i => pred i.2 := by
  induction r with
  | nil => exact fun j => ⟨List.getElem?_nil, List.getElem?_nil⟩
  | cons a r ih =>
    intro j
    rw [bounds_cons]
    cases j with
    | zero => exact ⟨rfl, rfl⟩
    | succ j =>
      have e : 2 * (j + 1) = 2 * j + 1 + 1 := by omega
      rw [e, List.getElem?_cons_succ, List.getElem?_cons_succ, List.getElem?_cons_succ, List.getElem?_cons_succ, List.getElem?_cons_succ]
      exact ih j

/-- The bounds stored are the least and the greatest amounts of the region: a composition belongs to it exactly if it lies between them. -/
theorem bounds_region (r : List (ℕ × ℕ)) (x : List ℕ) (hr : ∀ i ∈ r, i.1 < i.2 ∧ i.2 < 2 ^ 32) :
    (∀ (j a : ℕ) (i : ℕ × ℕ), x[j]? = some a → r[j]? = some i → i.1 ≤ a ∧ a < i.2) ↔
      ∀ j a l u : ℕ, x[j]? = some a → (bounds r)[2 * j]? = some l → (bounds r)[2 * j + 1]? = some u → l ≤ a ∧ a ≤ u := by
  have key : ∀ (j : ℕ) (i : ℕ × ℕ), r[j]? = some i → pred i.2 = i.2 - 1 := fun j i h => pred_pos _ (by have := hr i (List.mem_of_getElem? h); omega) (hr i (List.mem_of_getElem? h)).2.le
  constructor
  · intro H j a l u ha hl hu
    rw [(bounds_get r j).1, Option.map_eq_some_iff] at hl
    rw [(bounds_get r j).2, Option.map_eq_some_iff] at hu
    obtain ⟨i, hi, rfl⟩ := hl
    obtain ⟨i', hi', rfl⟩ := hu
    obtain rfl : i = i' := by rw [hi] at hi'; exact Option.some.inj hi'
    have := H j a i ha hi
    rw [key j i hi]
    omega
  · intro H j a i ha hi
    have := H j a i.1 (pred i.2) ha (by rw [(bounds_get r j).1, hi]; rfl) (by rw [(bounds_get r j).2, hi]; rfl)
    rw [key j i hi] at this
    have := hr i (List.mem_of_getElem? hi)
    omega

/-! ### Writing and reading -/

/-- The group of a cluster as stored. -/
def stored (c : Cluster K) : ClusterGroup K := ⟨(bounds c.region).map toInt, c.formation, c.migration, c.diffusion⟩

theorem loop_write (n : Network K) (h : n.clusters.length < 2 ^ 32) (m : ℕ) (hm : m ≤ n.clusters.length) :
    (List.range m).foldlM (clusterStep n (allBounds n)) ⟨n.labels, toInt n.clusters.length, []⟩ =
      some ⟨n.labels, toInt n.clusters.length, (n.clusters.take m).zipIdx.map fun e => (groupName e.2, stored e.1)⟩ := by
  induction m with
  | zero => rfl
  | succ m ih =>
    have hlt : m < n.clusters.length := hm
    rw [List.range_succ, List.foldlM_append, ih (by omega)]
    have hc : n.clusters[m]? = some n.clusters[m] := List.getElem?_eq_getElem hlt
    have hb : (allBounds n)[m]? = some (bounds n.clusters[m].region) := by simp [allBounds, hlt]
    have hany : (((n.clusters.take m).zipIdx.map fun e => (groupName e.2, stored e.1)).any fun e => e.1 == groupName m) = false := by
      rw [List.any_eq_false]
      intro e he
      obtain ⟨p, hp, rfl⟩ := List.mem_map.1 he
      have hp2 := List.snd_lt_of_mem_zipIdx hp
      simp only [List.length_take] at hp2
      have hp3 : p.2 < m := by omega
      simp only [beq_iff_eq]
      intro h1
      have := groupName_inj p.2 m (by omega) (by omega) h1
      omega
    simp only [bind, Option.bind, List.foldlM_cons, List.foldlM_nil, clusterStep, hc, hb, addCluster, hany]
    rw [List.take_succ_eq_append_getElem hlt, List.zipIdx_append]
    simp [stored, Nat.min_eq_left hlt.le, pure]

/-- Writing never fails, and stores the clusters one by one. -/
theorem write_eq (n : Network K) (h : n.clusters.length < 2 ^ 32) : write n = some ⟨n.labels, toInt n.clusters.length, n.clusters.zipIdx.map fun e => (groupName e.2, stored e.1)⟩ := by
  rw [write, toNat_toInt _ h, loop_write n h _ (le_refl _), List.take_length]

theorem find_written (l : List (Cluster K)) (i : ℕ) (hi : i < 2 ^ 32) : ∀ s, s + l.length ≤ 2 ^ 32 → s ≤ i →
    ((l.zipIdx s).map fun e => (groupName e.2, stored e.1)).find? (fun e => e.1 == groupName i) = (l[i - s]?).map fun c => (groupName i, stored c) := by
  induction l with
  | nil => simp
  | cons c l ih =>
    intro s hs hsi
    simp only [List.length_cons] at hs
    rw [List.zipIdx_cons, List.map_cons, List.find?_cons]
    by_cases h : s = i
    · subst h
      simp
    · have h1 : (groupName s == groupName i) = false := by
        rw [beq_eq_false_iff_ne]
        exact fun h2 => h (groupName_inj s i (by omega) hi h2)
      rw [h1, ih (s + 1) (by omega) (by omega)]
      have : i - s = (i - (s + 1)) + 1 := by omega
      rw [this, List.getElem?_cons_succ]

/-- What is read back is what the network said: the labels, the bounds and the energies of every cluster under its own index, nothing under others. -/
theorem read_written (n : Network K) (hf : Fits n) : ∃ g, write n = some g ∧ g.phaseSpace = n.labels ∧ (n.clusters.length < 2 ^ 31 → readSize g = n.clusters.length) ∧
    ∀ i < 2 ^ 32, readCluster g i = (n.clusters[i]?).map fun c => (bounds c.region, c.formation, c.migration, c.diffusion) := by
  refine ⟨_, write_eq n hf.1, rfl, fun h => by simp only [readSize, toInt, if_pos h], fun i hi => ?_⟩
  have h1 := find_written n.clusters i hi 0 (by have := hf.1; omega) (by omega)
  simp only [readCluster, h1, Nat.sub_zero, Option.map_map]
  cases hc : n.clusters[i]? with
  | none => rfl
  | some c =>
    have hb : ((bounds c.region).map toInt).map toNat = bounds c.region := by
      rw [List.map_map]
      conv_rhs => rw [← List.map_id (bounds c.region)]
      apply List.map_congr_left
      intro b hb
      exact toNat_toInt b (bounds_lt _ (hf.2 c (List.mem_of_getElem? hc)) b hb)
    simp [stored, hb]

/-- The group determines the network. -/
theorem write_determines (n m : Network K) (hn : Fits n) (hm : Fits m) (h : write n = write m) : n = m := by
  obtain ⟨g, h1, h2, -, h3⟩ := read_written n hn
  obtain ⟨g', h1', h2', -, h3'⟩ := read_written m hm
  obtain rfl : g = g' := by rw [h1, h1'] at h; exact Option.some.inj h
  have hl : n.labels = m.labels := h2.symm.trans h2'
  have hc : n.clusters = m.clusters := by
    apply List.ext_getElem?
    intro i
    by_cases hi : i < 2 ^ 32
    · have h4 : ((n.clusters[i]?).map fun c => (bounds c.region, c.formation, c.migration, c.diffusion)) = (m.clusters[i]?).map fun c => (bounds c.region, c.formation, c.migration, c.diffusion) :=
        (h3 i hi).symm.trans (h3' i hi)
      cases ha : n.clusters[i]? with
      | none => rw [ha] at h4; exact (Option.map_eq_none_iff.1 h4.symm).symm
      | some a =>
        cases hb : m.clusters[i]? with
        | none => rw [ha, hb] at h4; cases h4
        | some b =>
          rw [ha, hb] at h4
          simp only [Option.map_some, Option.some.injEq, Prod.mk.injEq] at h4
          obtain ⟨e1, e2, e3, e4⟩ := h4
          have := bounds_inj _ _ (hn.2 a (List.mem_of_getElem? ha)) (hm.2 b (List.mem_of_getElem? hb)) e1
          cases a; cases b
          simp_all
    · rw [List.getElem?_eq_none (by have := hn.1; omega), List.getElem?_eq_none (by have := hm.1; omega)]
  cases n; cases m
  simp_all

/-- From 2^31 clusters on the size is read as a negative number. -/
theorem size_negative (n : Network K) (h : 2 ^ 31 ≤ n.clusters.length) (h' : n.clusters.length < 2 ^ 32) : ∃ g, write n = some g ∧ readSize g < 0 := by
  refine ⟨_, write_eq n h', ?_⟩
  have : ¬n.clusters.length < 2 ^ 31 := by omega
  simp only [readSize, toInt, this, if_false]
  omega

/-! ### Files -/

theorem put_self (d : Disk K) (n : Name) (f : File K) : put d n f n = some f := by simp [put]

theorem put_ne (d : Disk K) (n m : Name) (f : File K) (h : m ≠ n) : put d n f m = d m := by simp [put, h]

theorem create_some (d : Disk K) (n : Name) (h : n ≠ []) : create d n = some (put d n ⟨some Steps.create, none⟩) := by simp [create, h]

theorem construct_ne (r : Run K) (d : Disk K) (m : Name) (h : m ≠ r.out) : construct r d m = d m := by
  unfold construct
  split
  · next c => simp [create_some d r.out c.1, put_ne _ _ _ _ h]
  · rfl

theorem construct_out (r : Run K) (d : Disk K) (h : r.out ≠ []) : construct r d r.out = some ((d r.out).getD ⟨some Steps.create, none⟩) := by
  unfold construct
  cases hd : d r.out with
  | none => simp [h, create_some, put_self]
  | some f => simp [hd]

theorem writeNetwork_ne (d : Disk K) (w : Network K) (t s m : Name) (h : m ≠ t) : (writeNetwork d w t s).disk m = d m := by
  unfold writeNetwork copyTo writeScratch
  repeat' split
  all_goals first
    | rfl
    | exact put_ne _ _ _ _ h

theorem start_ne (r : Run K) (l : ℕ) (d : Disk K) (m : Name) (h : m ≠ r.out) : (start r l d).disk m = d m := by
  rw [start, setup]
  split
  · cases hc : create (construct r d) r.out with
    | none => exact construct_ne r d m h
    | some d' =>
      simp only
      rw [writeNetwork_ne _ _ _ _ _ h]
      unfold create at hc
      split at hc
      · cases hc
      · cases hc
        rw [put_ne _ _ _ _ h, construct_ne r d m h]
  · exact construct_ne r d m h

theorem step_ne (r : Run K) (d : Disk K) (q : Steps.Req K) (m : Name) (h : m ≠ r.out) : (step r d q).disk m = d m := by
  unfold step
  repeat' split
  all_goals first
    | rfl
    | exact put_ne _ _ _ _ h

/-- What holds before and is kept by every part holds after a sequence. -/
theorem foldl_next {α : Type} (P : Disk K → Prop) (f : α → Disk K → Outcome K) (hf : ∀ a d, P d → P (f a d).disk) (l : List α) :
    ∀ o : Outcome K, P o.disk → P (l.foldl (fun o a => o.next (f a)) o).disk := by
  induction l with
  | nil => exact fun o h => h
  | cons a l ih =>
    intro o h
    rw [List.foldl_cons]
    apply ih
    unfold Outcome.next
    split
    · exact h
    · exact hf a _ h

/-- After an exception nothing more happens. -/
theorem foldl_thrown {α : Type} (f : α → Disk K → Outcome K) (l : List α) : ∀ o : Outcome K, o.thrown = true → l.foldl (fun o a => o.next (f a)) o = o := by
  induction l with
  | nil => exact fun o _ => rfl
  | cons a l ih =>
    intro o h
    rw [List.foldl_cons]
    have : o.next (f a) = o := by simp [Outcome.next, h]
    rw [this]
    exact ih o h

/-- The part of a loop for one checkpoint. -/
def stepPart (r : Run K) (q : Steps.Req K) (d : Disk K) : Outcome K := if r.status then step r d q else ⟨d, false⟩

theorem oneLoop_eq (r : Run K) (d : Disk K) (l : ℕ × List (Steps.Req K)) : oneLoop r d l = l.2.foldl (fun o q => o.next (stepPart r q)) (start r l.1 d) := rfl

theorem oneLoop_keeps (P : Disk K → Prop) (r : Run K) (h2 : ∀ d q, r.status = true → P d → P (step r d q).disk) (d : Disk K) (l : ℕ × List (Steps.Req K))
    (h : P (start r l.1 d).disk) : P (oneLoop r d l).disk := by
  rw [oneLoop_eq]
  refine foldl_next P _ (fun q d hd => ?_) _ _ h
  unfold stepPart
  split
  · next c => exact h2 d q c hd
  · exact hd

/-- A run changes no other file than its checkpoint file. -/
theorem run_others (r : Run K) (qs : List (List (Steps.Req K))) (d : Disk K) (m : Name) (h : m ≠ r.out) : (run r qs d).disk m = d m := by
  unfold run
  refine foldl_next (fun d' => d' m = d m) (fun (l : List (Steps.Req K) × ℕ) d => oneLoop r d (l.2, l.1)) (fun l d' hd => ?_) _ _ rfl
  refine oneLoop_keeps (fun d'' => d'' m = d m) r (fun d'' q _ hq => ?_) d' (l.2, l.1) ?_
  · rw [step_ne _ _ _ _ h, hq]
  · rw [start_ne _ _ _ _ h, hd]

/-- The network in a file. -/
def netOf (d : Disk K) (n : Name) : Option (NetworkGroup K) := (d n).bind File.net

/-- A checkpoint fails exactly if the file, its group of concentrations or the place for the step is missing; otherwise the group is the one with the step added, and a failure leaves the disk as it was. -/
theorem step_conc (r : Run K) (d : Disk K) (q : Steps.Req K) :
    ((step r d q).thrown = false ↔ ∃ f c e, d r.out = some f ∧ f.conc = some c ∧ Steps.add c q.ctrl q.loop q.ts q.t = some e) ∧
    (∀ f c e, d r.out = some f → f.conc = some c → Steps.add c q.ctrl q.loop q.ts q.t = some e → (step r d q).disk r.out = some ⟨some e.1, f.net⟩) ∧
    ((step r d q).thrown = true → (step r d q).disk = d) := by
  unfold step
  cases h : d r.out with
  | none => simp
  | some f =>
    cases hc : f.conc with
    | none =>
      simp [hc]
      rintro f' c a b rfl h1
      simp [hc] at h1
    | some c =>
      cases he : Steps.add c q.ctrl q.loop q.ts q.t with
      | none =>
        simp [hc, he]
        rintro f' c' a b rfl h1 h2
        rw [hc] at h1
        cases h1
        simp [he] at h2
      | some e =>
        simp only [hc, Option.bind_some, he, Option.map_some, put_self]
        refine ⟨⟨fun _ => ⟨f, c, e, rfl, hc, he⟩, fun _ => trivial⟩, ?_, by simp⟩
        rintro f' c' e' h1 h2 h3
        cases h1
        rw [hc] at h2
        cases h2
        rw [he] at h3
        cases h3
        rfl

/-- A restart is announced exactly if a file is named and exists. -/
theorem checkForRestart_iff (r : Run K) (d : Disk K) : checkForRestart r d = true ↔ r.restart ≠ [] ∧ ∃ f, d r.restart = some f := by
  simp [checkForRestart, Option.isSome_iff_exists]

theorem step_net (r : Run K) (d : Disk K) (q : Steps.Req K) : netOf (step r d q).disk r.out = netOf d r.out := by
  unfold step netOf
  cases h : d r.out with
  | none => simp [h]
  | some f =>
    simp only
    split
    · simp [h]
    · simp [put_self]

theorem later_net (r : Run K) (l : ℕ) (d : Disk K) (h : (d r.out).isSome) (hl : l ≠ 0) : start r l d = ⟨d, false⟩ := by
  have : construct r d = d := by
    unfold construct
    rw [if_neg]
    rintro ⟨_, c⟩
    simp [c] at h
  simp [start, setup, this, hl]

/-- What the first loop does with the network in the checkpoint file, and when it throws. -/
theorem first_net (r : Run K) (d : Disk K) (hw : r.network.clusters.length < 2 ^ 32) (ho : r.out ≠ []) (hs : r.status = true) (hne : r.out ≠ r.restart) :
    ((start r 0 d).thrown = true ↔ r.restart ≠ [] ∧ d r.restart = none) ∧ ((start r 0 d).disk r.out).isSome ∧
      netOf (start r 0 d).disk r.out = if r.restart = [] then write r.network else netOf d r.restart := by
  have hr : construct r d r.restart = d r.restart := construct_ne r d _ (fun h => hne h.symm)
  have hne' : r.restart ≠ r.out := fun h => hne h.symm
  simp only [start, setup, hs, hne, create_some _ _ ho, ne_eq, not_false_eq_true, decide_true, Bool.and_true, if_true]
  unfold writeNetwork
  by_cases he : r.restart = []
  · have := write_eq r.network hw
    simp [he, writeScratch, put_self, this, netOf]
  · simp only [ne_eq, he, not_false_eq_true, if_true, put_ne _ _ _ _ hne', hr, if_false, true_and]
    cases hd : d r.restart with
    | none => simp [netOf, put_self, hd]
    | some f =>
      cases hg : f.net with
      | none => simp [netOf, put_self, hd, hg]
      | some g => simp [netOf, put_self, hd, hg, copyTo]

/-- When the start of a run throws: with `-start_stop`, if the checkpoint file has no name, or if it is not the restart file and that does not exist.  A restart file that does not exist is no error otherwise. -/
theorem start_thrown (r : Run K) (d : Disk K) (hw : r.network.clusters.length < 2 ^ 32) :
    (start r 0 d).thrown = true ↔ r.status = true ∧ r.out ≠ r.restart ∧ (r.out = [] ∨ r.restart ≠ [] ∧ d r.restart = none) := by
  by_cases hs : r.status = true
  · by_cases hne : r.out = r.restart
    · simp [start, setup, hne]
    · by_cases ho : r.out = []
      · have : [] ≠ r.restart := ho ▸ hne
        simp [start, setup, hs, this, ho, create]
      · rw [(first_net r d hw ho hs hne).1]
        simp [hs, hne, ho]
  · simp [start, setup, hs]

theorem loops_net (r : Run K) (g : Option (NetworkGroup K)) (qs : List (List (Steps.Req K))) (s : ℕ) (hs : s ≠ 0) : ∀ o : Outcome K, (o.disk r.out).isSome → netOf o.disk r.out = g →
    ((((qs.zipIdx s).foldl (fun o l => o.next fun d => oneLoop r d (l.2, l.1)) o).disk r.out).isSome ∧
      netOf ((qs.zipIdx s).foldl (fun o l => o.next fun d => oneLoop r d (l.2, l.1)) o).disk r.out = g) := by
  induction qs generalizing s with
  | nil => exact fun o h1 h2 => ⟨h1, h2⟩
  | cons q qs ih =>
    intro o h1 h2
    rw [List.zipIdx_cons, List.foldl_cons]
    have key : (((o.next fun d => oneLoop r d (s, q)).disk r.out).isSome ∧ netOf (o.next fun d => oneLoop r d (s, q)).disk r.out = g) := by
      unfold Outcome.next
      split
      · exact ⟨h1, h2⟩
      · refine oneLoop_keeps (fun d => (d r.out).isSome ∧ netOf d r.out = g) r (fun d q _ hd => ⟨?_, (step_net r d q).trans hd.2⟩) _ _ ?_
        · unfold step
          repeat' split
          all_goals first
            | exact hd.1
            | simp [put_self]
        · rw [later_net r s o.disk h1 hs]
          exact ⟨h1, h2⟩
    exact ih (s + 1) (by omega) _ key.1 key.2

/-- One run: the network in its checkpoint file after the first loop, through every checkpoint and every later loop. -/
theorem run_net (r : Run K) (q : List (Steps.Req K)) (qs : List (List (Steps.Req K))) (d : Disk K) (g : Option (NetworkGroup K)) (h1 : ((start r 0 d).disk r.out).isSome)
    (h2 : netOf (start r 0 d).disk r.out = g) : (((run r (q :: qs) d).disk r.out).isSome ∧ netOf (run r (q :: qs) d).disk r.out = g) := by
  unfold run
  rw [List.zipIdx_cons, List.foldl_cons]
  have key : ((oneLoop r d (0, q)).disk r.out).isSome ∧ netOf (oneLoop r d (0, q)).disk r.out = g :=
    oneLoop_keeps (fun d => (d r.out).isSome ∧ netOf d r.out = g) r (fun d q _ hd => ⟨by
      unfold step
      repeat' split
      all_goals first
        | exact hd.1
        | simp [put_self], (step_net r d q).trans hd.2⟩) d (0, q) ⟨h1, h2⟩
  exact loops_net r g qs 1 (by omega) _ key.1 key.2

/-- A run with checkpoints that does not restart writes its own network, and a checkpoint file of the same name is overwritten. -/
theorem own_network (r : Run K) (q : List (Steps.Req K)) (qs : List (List (Steps.Req K))) (d : Disk K) (hw : r.network.clusters.length < 2 ^ 32) (ho : r.out ≠ []) (hs : r.status = true)
    (hr : r.restart = []) : netOf (run r (q :: qs) d).disk r.out = write r.network := by
  have hf := first_net r d hw ho hs (by rw [hr]; exact ho)
  rw [if_pos hr] at hf
  exact (run_net r q qs d _ hf.2.1 hf.2.2).2

/-- A restart into another file copies the network of the restart file, whatever its own network is; so does a restart into the same file, which is left as it is. -/
theorem restart_network (r : Run K) (q : List (Steps.Req K)) (qs : List (List (Steps.Req K))) (d : Disk K) (hw : r.network.clusters.length < 2 ^ 32) (ho : r.out ≠ []) (hs : r.status = true)
    (hr : r.restart ≠ []) : netOf (run r (q :: qs) d).disk r.out = netOf d r.restart := by
  by_cases hne : r.out = r.restart
  · have hst : start r 0 d = ⟨construct r d, false⟩ := by simp [start, setup, hne]
    have h2 := construct_out r d ho
    refine (run_net r q qs d _ (by rw [hst]; simp [h2]) ?_).2
    rw [hst, ← hne]
    simp only [netOf, h2]
    cases d r.out <;> rfl
  · have hf := first_net r d hw ho hs hne
    rw [if_neg hr] at hf
    exact (run_net r q qs d _ hf.2.1 hf.2.2).2

/-- Without checkpoints a file that exists is left alone, with all it has. -/
theorem untouched (r : Run K) (qs : List (List (Steps.Req K))) (d : Disk K) (hs : r.status = false) (h : (d r.out).isSome) : (run r qs d).disk r.out = d r.out := by
  unfold run
  refine foldl_next (fun d' => d' r.out = d r.out) (fun (l : List (Steps.Req K) × ℕ) d => oneLoop r d (l.2, l.1)) (fun l d' hd => ?_) _ _ rfl
  refine oneLoop_keeps (fun d'' => d'' r.out = d r.out) r (fun _ _ c => by simp [hs] at c) d' (l.2, l.1) ?_
  have hc : construct r d' = d' := by
    unfold construct
    rw [if_neg]
    rintro ⟨_, c⟩
    rw [← hd, c] at h
    simp at h
  simp [start, setup, hs, hc, hd]

/-! ### Chains of runs -/

/-- The file `n` was left by a chain of restarts that began with the network `w`; in between other runs may write to other files. -/
inductive Chain (w : Network K) : Disk K → Name → Prop
  | first (r : Run K) (q : List (Steps.Req K)) (qs : List (List (Steps.Req K))) (d : Disk K) : r.network = w → r.out ≠ [] → r.status = true → r.restart = [] → Chain w (run r (q :: qs) d).disk r.out
  | restart (r : Run K) (q : List (Steps.Req K)) (qs : List (List (Steps.Req K))) (d : Disk K) : Chain w d r.restart → r.network.clusters.length < 2 ^ 32 → r.out ≠ [] → r.status = true →
      r.restart ≠ [] → Chain w (run r (q :: qs) d).disk r.out
  | other (r : Run K) (qs : List (List (Steps.Req K))) (d : Disk K) (n : Name) : Chain w d n → n ≠ r.out → Chain w (run r qs d).disk n
  | idle (r : Run K) (qs : List (List (Steps.Req K))) (d : Disk K) (n : Name) : Chain w d n → r.status = false → Chain w (run r qs d).disk n

/-- After any chain of restarts the checkpoint file describes the network of the first run of the chain. -/
theorem chain_network (w : Network K) (hw : w.clusters.length < 2 ^ 32) (d : Disk K) (n : Name) (h : Chain w d n) : (d n).isSome ∧ netOf d n = write w := by
  induction h with
  | first r q qs d h1 h2 h3 h4 =>
    subst h1
    have hf := first_net r d hw h2 h3 (by rw [h4]; exact h2)
    rw [if_pos h4] at hf
    exact run_net r q qs d _ hf.2.1 hf.2.2
  | restart r q qs d h1 h2 h3 h4 h5 ih =>
    refine ⟨?_, (restart_network r q qs d h2 h3 h4 h5).trans ih.2⟩
    have : netOf (run r (q :: qs) d).disk r.out = write w := (restart_network r q qs d h2 h3 h4 h5).trans ih.2
    rw [write_eq w hw] at this
    cases hd : (run r (q :: qs) d).disk r.out with
    | none => simp [netOf, hd] at this
    | some f => rfl
  | other r qs d n _ h1 ih => simp only [netOf, run_others r qs d n h1]; exact ih
  | idle r qs d n _ h1 ih =>
    by_cases hn : n = r.out
    · subst hn
      simp only [netOf, untouched r qs d h1 ih.1]
      exact ih
    · simp only [netOf, run_others r qs d n hn]
      exact ih

/-- So the file describes the network of the last run exactly if that is the one of the first run. -/
theorem chain_own (w : Network K) (hw : Fits w) (d : Disk K) (r : Run K) (hr : Fits r.network) (h : Chain w d r.out) : netOf d r.out = write r.network ↔ r.network = w := by
  rw [(chain_network w hw.1 d r.out h).2]
  constructor
  · exact fun h1 => (write_determines w r.network hw hr h1).symm
  · rintro rfl
    rfl

/-- Full claim violated: a restart is not compared with the network of the restart file, and its own network is not written. -/
theorem stale_network : ∃ (d : Disk ℚ) (r : Run ℚ) (w : Network ℚ), Chain w d r.out ∧ (∃ d0 q, d = (run r [q] d0).disk ∧ (run r [q] d0).thrown = false) ∧ Fits r.network ∧ Fits w ∧ netOf d r.out ≠ write r.network := by
  let w : Network ℚ := ⟨[['V']], [⟨[(1, 2)], 0, 0, 0⟩]⟩
  let w' : Network ℚ := ⟨[['V']], [⟨[(1, 2)], 0, 0, 0⟩, ⟨[(2, 3)], 0, 0, 0⟩]⟩
  let a : Run ℚ := ⟨['a'], [], true, w⟩
  let b : Run ℚ := ⟨['b'], ['a'], true, w'⟩
  have fw : Fits w := ⟨by simp [w], by simp [w]⟩
  have fw' : Fits w' := ⟨by simp [w'], by simp [w']⟩
  have c1 : Chain w (run a [[]] fun _ => none).disk ['a'] := Chain.first a [] [] _ rfl (by simp [a]) rfl rfl
  have c2 : Chain w (run b [[]] (run a [[]] fun _ => none).disk).disk ['b'] := Chain.restart b [] [] _ c1 fw'.1 (by simp [b]) rfl (by simp [b])
  have c3 : (run a [[]] fun _ => none).disk ['a'] ≠ none := by
    have := (chain_network w fw.1 _ _ c1).1
    intro h
    rw [h] at this
    cases this
  have c4 : ¬(run b [[]] (run a [[]] fun _ => none).disk).thrown = true := by
    have : run b [[]] (run a [[]] fun _ => none).disk = start b 0 (run a [[]] fun _ => none).disk := rfl
    rw [this, start_thrown b _ fw'.1]
    rintro ⟨-, -, h | h⟩
    · cases h
    · exact c3 h.2
  refine ⟨_, b, w, c2, ⟨_, [], rfl, by simpa using c4⟩, fw', fw, ?_⟩
  rw [Ne, chain_own w fw _ b fw' c2]
  intro h
  have : (2 : ℕ) = 1 := congrArg (fun n : Network ℚ => n.clusters.length) h
  omega

/-- A restart file that does not exist: the old checkpoint file is emptied before the exception. -/
theorem missing_restart (r : Run K) (d : Disk K) (hs : r.status = true) (ho : r.out ≠ []) (hr : r.restart ≠ []) (hne : r.out ≠ r.restart) (hd : d r.restart = none) :
    (start r 0 d).thrown = true ∧ (start r 0 d).disk r.out = some ⟨some Steps.create, none⟩ := by
  have h1 : construct r d r.restart = none := by rw [construct_ne r d _ (fun h => hne h.symm), hd]
  simp [start, setup, hs, hne, create_some _ _ ho, writeNetwork, hr, put_ne _ _ _ _ (fun h => hne h.symm), h1, put_self]

/-- A run whose restart and checkpoint files have the same name, that of no file, starts from scratch, and its checkpoints never have a network, nor have those of any restart. -/
theorem never_network (r : Run K) (q : List (Steps.Req K)) (qs : List (List (Steps.Req K))) (d : Disk K) (hw : r.network.clusters.length < 2 ^ 32) (ho : r.out ≠ []) (hs : r.status = true)
    (hne : r.restart = r.out) (hd : d r.out = none) : checkForRestart r d = false ∧ (start r 0 d).thrown = false ∧ netOf (run r (q :: qs) d).disk r.out = none := by
  refine ⟨by simp [checkForRestart, hne, hd], by simp [start, setup, hne], ?_⟩
  rw [restart_network r q qs d hw ho hs (by rw [hne]; exact ho), hne, netOf, hd]
  rfl

/-! ### Examples -/

/-- Two clusters, one of them a group. -/
def exNet : Network ℚ := ⟨["He".toList, "V".toList], [⟨[(1, 2), (0, 1)], 6, 1, 3⟩, ⟨[(1, 5), (2, 4)], 10, 0, 0⟩]⟩

theorem exNet_fits : Fits exNet := by
  refine ⟨by simp [exNet], ?_⟩
  intro c hc i hi
  simp only [exNet, List.mem_cons, List.not_mem_nil, or_false] at hc
  rcases hc with rfl | rfl <;> simp only [List.mem_cons, List.not_mem_nil, or_false] at hi <;> rcases hi with rfl | rfl <;> simp

/-- The theorems hold of it: the second cluster is read back, a third is not found. -/
example : ∃ g, write exNet = some g ∧ readCluster g 1 = some ([1, 4, 2, 3], 10, 0, 0) ∧ readCluster g 2 = none ∧ readSize g = 2 := by
  obtain ⟨g, h1, -, h2, h3⟩ := read_written exNet exNet_fits
  refine ⟨g, h1, ?_, ?_, h2 (by simp [exNet])⟩
  · rw [h3 1 (by omega)]
    simp [exNet, bounds, pred]
  · rw [h3 2 (by omega)]
    simp [exNet]

/-- A region of a group. -/
example : ∀ i ∈ [((1 : ℕ), (5 : ℕ)), (2, 4)], i.1 < i.2 ∧ i.2 < 2 ^ 32 := by simp

/-- A restart of a run with one checkpoint, from its file into another. -/
example : let a : Run ℚ := ⟨['a'], [], true, exNet⟩
    let b : Run ℚ := ⟨['b'], ['a'], true, exNet⟩
    netOf (run b [[⟨0, 0, 0, ⟨2, 1, 1⟩⟩]] (run a [[⟨0, 0, 0, ⟨1, 0, 1⟩⟩]] fun _ => none).disk).disk ['b'] = write exNet := by
  intro a b
  exact (chain_network exNet exNet_fits.1 _ _ (Chain.restart b _ _ _ (Chain.first a _ _ _ rfl (by simp [a]) rfl rfl) exNet_fits.1 (by simp [b]) rfl (by simp [b]))).2

/-- A name of a restart file that does not exist. -/
example : (start (⟨['b'], ['a'], true, exNet⟩ : Run ℚ) 0 fun _ => none).thrown = true := (missing_restart _ _ rfl (by simp) (by simp) (by simp) rfl).1

end Xolotl.IO.NetFile
