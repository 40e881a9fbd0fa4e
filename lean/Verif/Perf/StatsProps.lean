import Verif.Perf.Stats
import Mathlib.Tactic.Ring
import Mathlib.Tactic.FieldSimp
import Mathlib.Tactic.NormNum
import Mathlib.Tactic.Linarith

/-!
# Properties of the statistics over all ranks
-/

namespace Xolotl.Perf.Stats

/-! ## Names -/

/-- Names one after the other, each with its terminator. -/
def joined (names : List Name) : List Char := names.flatMap (· ++ [nul])

theorem nBytes_eq (names : List Name) : nBytes names = (joined names).length := by
  have key : ∀ (ns : List Name) (k : ℕ), ns.foldl (fun n name => n + (name.length + 1)) k = k + (joined ns).length := by
    intro ns
    induction ns with
    | nil => intro k; rfl
    | cons n ns ih =>
      intro k
      rw [List.foldl_cons, ih]
      simp [joined, Nat.add_assoc]
      omega
  simpa [nBytes] using key names 0

theorem joined_cons (n : Name) (ns : List Name) : joined (n :: ns) = n ++ nul :: joined ns := by simp [joined]

/-- The buffer of a rank has its names one after the other, each with its terminator, and is exactly filled. -/
theorem marshal_eq (names : List Name) : marshal names = (joined names, nBytes names) := by
  have key : ∀ (ns : List Name) (pre : List Char), ns.foldl (fun (b : List Char × ℕ) name => (place b.1 b.2 name, b.2 + (name.length + 1)))
      (pre ++ List.replicate (joined ns).length nul, pre.length) = (pre ++ joined ns, pre.length + (joined ns).length) := by
    intro ns
    induction ns with
    | nil => intro pre; simp [joined]
    | cons n ns ih =>
      intro pre
      have hp : place (pre ++ List.replicate (joined (n :: ns)).length nul) pre.length n
          = (pre ++ (n ++ [nul])) ++ List.replicate (joined ns).length nul := by
        have hl : (joined (n :: ns)).length = n.length + (1 + (joined ns).length) := by rw [joined_cons]; simp; omega
        unfold place
        rw [hl, List.take_left', List.drop_append, List.drop_eq_nil_of_le (by omega), Nat.add_sub_cancel_left, List.drop_replicate,
          Nat.add_sub_cancel_left, Nat.add_comm 1, List.replicate_succ]
        · simp
        · rfl
      rw [List.foldl_cons, hp]
      have := ih (pre ++ (n ++ [nul]))
      have e : (pre ++ (n ++ [nul])).length = pre.length + (n.length + 1) := by simp
      rw [e] at this
      rw [this, joined_cons]
      simp [Nat.add_assoc, Nat.add_comm]
  have := key names []
  simp only [List.nil_append, List.length_nil, Nat.zero_add] at this
  unfold marshal
  rw [nBytes_eq, this]

/-- Root has the names of all ranks one after the other. -/
theorem gather_eq (ranks : List (List Name)) : gather ranks = joined ranks.flatten := by
  have hd : ∀ l : List ℕ, displs l = displs.go 0 l := by intro l; cases l <;> rfl
  have key : ∀ (rs : List (List Name)) (pre : List Char),
      ((displs.go pre.length (rs.map nBytes)).zip rs).foldl (fun buf p => place buf p.1 (marshal p.2).1)
        (pre ++ List.replicate (rs.map nBytes).sum nul) = pre ++ joined rs.flatten := by
    intro rs
    induction rs with
    | nil => intro pre; simp [joined, displs.go]
    | cons r rs ih =>
      intro pre
      have hp : place (pre ++ List.replicate ((r :: rs).map nBytes).sum nul) pre.length (marshal r).1
          = (pre ++ joined r) ++ List.replicate (rs.map nBytes).sum nul := by
        unfold place
        rw [marshal_eq, List.map_cons, List.sum_cons, nBytes_eq, List.take_left', List.drop_append, List.drop_eq_nil_of_le (by omega),
          Nat.add_sub_cancel_left, List.drop_replicate, Nat.add_sub_cancel_left]
        · simp
        · rfl
      rw [List.map_cons, displs.go, List.zip_cons_cons, List.foldl_cons]
      rw [← List.map_cons, hp]
      have := ih (pre ++ joined r)
      rw [List.length_append, ← nBytes_eq] at this
      rw [this]
      simp [joined]
  unfold gather
  dsimp only
  rw [hd]
  exact key ranks []

theorem takeWhile_name (n : Name) (h : nul ∉ n) (rest : List Char) : (n ++ nul :: rest).takeWhile (· != nul) = n := by
  induction n with
  | nil => simp
  | cons c n ih =>
    have hc : c ≠ nul := fun e => h (by simp [e])
    have hn : nul ∉ n := fun e => h (by simp [e])
    rw [List.cons_append, List.takeWhile_cons]
    simp [hc, ih hn]

/-- Reading back what was marshalled. -/
theorem parse_joined (names : List Name) (h : ∀ n ∈ names, nul ∉ n) : parse (joined names) = some names := by
  induction names with
  | nil => unfold parse; simp [joined]
  | cons n ns ih =>
    rw [joined_cons]
    unfold parse
    have ht := takeWhile_name n (h n (by simp)) (joined ns)
    rw [dif_neg (by simp)]
    simp only [ht]
    rw [if_pos (by simp)]
    have : (n ++ nul :: joined ns).drop (n.length + 1) = joined ns := by
      rw [List.drop_append, List.drop_eq_nil_of_le (by omega), Nat.add_sub_cancel_left]
      simp
    rw [this, ih fun m hm => h m (by simp [hm])]
    rfl

theorem mem_keys (names old : List Name) (n : Name) : n ∈ keys old names ↔ n ∈ old ∨ n ∈ names := by
  induction names generalizing old with
  | nil => simp [keys]
  | cons m ms ih =>
    unfold keys at ih ⊢
    rw [List.foldl_cons, ih]
    split
    · rename_i hm
      constructor
      · rintro (h | h)
        · exact .inl h
        · exact .inr (by simp [h])
      · rintro (h | h)
        · exact .inl h
        · rcases List.mem_cons.1 h with h | h
          · exact .inl (h ▸ hm)
          · exact .inr h
    · simp only [List.mem_append, List.mem_cons]
      tauto

theorem nodup_keys (names old : List Name) (h : old.Nodup) : (keys old names).Nodup := by
  induction names generalizing old with
  | nil => exact h
  | cons m ms ih =>
    unfold keys at ih ⊢
    rw [List.foldl_cons]
    refine ih _ ?_
    split
    · exact h
    · rename_i hm
      rw [List.nodup_append]
      refine ⟨h, by simp, fun a ha b hb e => ?_⟩
      rw [List.mem_singleton] at hb
      exact hm (hb ▸ e ▸ ha)

/-- **The reported names** are exactly the names known to some rank, each once. -/
theorem names_union (ranks : List (List Name)) (h : ∀ r ∈ ranks, ∀ n ∈ r, nul ∉ n) :
    ∃ ks, allNames ranks = some ks ∧ ks.Nodup ∧ ∀ n, n ∈ ks ↔ ∃ r ∈ ranks, n ∈ r := by
  refine ⟨keys [] ranks.flatten, ?_, nodup_keys _ _ List.nodup_nil, fun n => ?_⟩
  · unfold allNames
    rw [gather_eq, parse_joined]
    · rfl
    · intro n hn
      obtain ⟨r, hr, hn⟩ := List.mem_flatten.1 hn
      exact h r hr n hn
  · rw [mem_keys]
    simp [List.mem_flatten]

/-- Three ranks, one with nothing. -/
example : allNames [["b".toList, "ab".toList], [], ["".toList, "b".toList, "c".toList]]
    = some ["b".toList, "ab".toList, "".toList, "c".toList] := by
  unfold allNames
  rw [gather_eq, parse_joined]
  · decide
  · decide

/-! ## Statistics -/

theorem reduce_add (l : List ℝ) : reduce (· + ·) 0 l = l.sum := by
  cases l with
  | nil => rfl
  | cons x xs =>
    have key : ∀ (xs : List ℝ) (x : ℝ), xs.foldl (· + ·) x = x + xs.sum := by
      intro xs
      induction xs with
      | nil => intro x; simp
      | cons y ys ih => intro x; rw [List.foldl_cons, ih, List.sum_cons, add_assoc]
    exact key xs x

theorem reduce_addN (l : List ℕ) : reduce (· + ·) 0 l = l.sum := by
  cases l with
  | nil => rfl
  | cons x xs =>
    have key : ∀ (xs : List ℕ) (x : ℕ), xs.foldl (· + ·) x = x + xs.sum := by
      intro xs
      induction xs with
      | nil => intro x; simp
      | cons y ys ih => intro x; rw [List.foldl_cons, ih, List.sum_cons, add_assoc]
    exact key xs x

theorem reduce_min (l : List ℝ) (h : l ≠ []) : reduce Min.min 0 l ∈ l ∧ ∀ v ∈ l, reduce Min.min 0 l ≤ v := by
  cases l with
  | nil => exact absurd rfl h
  | cons x xs =>
    have key : ∀ (xs : List ℝ) (x : ℝ), xs.foldl Min.min x ∈ x :: xs ∧ ∀ v ∈ x :: xs, xs.foldl Min.min x ≤ v := by
      intro xs
      induction xs with
      | nil => intro x; simp
      | cons y ys ih =>
        intro x
        obtain ⟨h1, h2⟩ := ih (Min.min x y)
        rw [List.foldl_cons]
        have hle := h2 (Min.min x y) (by simp)
        constructor
        · rcases List.mem_cons.1 h1 with h1 | h1
          · rw [h1]
            rcases min_choice x y with e | e <;> rw [e] <;> simp
          · simp [h1]
        · intro v hv
          rcases List.mem_cons.1 hv with hv | hv
          · exact hv ▸ hle.trans (min_le_left _ _)
          · rcases List.mem_cons.1 hv with hv | hv
            · exact hv ▸ hle.trans (min_le_right _ _)
            · exact h2 v (by simp [hv])
    exact key xs x

theorem reduce_max (l : List ℝ) (h : l ≠ []) : reduce Max.max 0 l ∈ l ∧ ∀ v ∈ l, v ≤ reduce Max.max 0 l := by
  cases l with
  | nil => exact absurd rfl h
  | cons x xs =>
    have key : ∀ (xs : List ℝ) (x : ℝ), xs.foldl Max.max x ∈ x :: xs ∧ ∀ v ∈ x :: xs, v ≤ xs.foldl Max.max x := by
      intro xs
      induction xs with
      | nil => intro x; simp
      | cons y ys ih =>
        intro x
        obtain ⟨h1, h2⟩ := ih (Max.max x y)
        rw [List.foldl_cons]
        have hle := h2 (Max.max x y) (by simp)
        constructor
        · rcases List.mem_cons.1 h1 with h1 | h1
          · rw [h1]
            rcases max_choice x y with e | e <;> rw [e] <;> simp
          · simp [h1]
        · intro v hv
          rcases List.mem_cons.1 hv with hv | hv
          · rw [hv]; exact (le_max_left _ _).trans hle
          · rcases List.mem_cons.1 hv with hv | hv
            · rw [hv]; exact (le_max_right _ _).trans hle
            · exact h2 v (by simp [hv])
    exact key xs x

theorem sum_known (found : List (Option ℝ)) (f : ℝ → ℝ) (h0 : f 0 = 0) :
    ((found.map fun v => v.getD 0).map f).sum = ((found.filterMap id).map f).sum := by
  induction found with
  | nil => rfl
  | cons v vs ih =>
    cases v with
    | none => simpa [h0] using ih
    | some x => simpa using ih

theorem count_known (found : List (Option ℝ)) : (found.map fun v => if v.isSome then 1 else 0).sum = (found.filterMap id).length := by
  induction found with
  | nil => rfl
  | cons v vs ih =>
    cases v with
    | none => simpa using ih
    | some x => simp [ih, Nat.add_comm]

/-- The variance is the mean of the squares less the square of the mean. -/
theorem variance (vs : List ℝ) (h : vs ≠ []) (a : ℝ) (ha : a = vs.sum / vs.length) :
    (vs.map fun v => v * v).sum / vs.length - a * a = (vs.map fun v => (v - a) ^ 2).sum / vs.length := by
  have hl : (vs.length : ℝ) ≠ 0 := by
    have := List.length_pos_of_ne_nil h
    positivity
  have key : ∀ l : List ℝ, (l.map fun v => (v - a) ^ 2).sum = (l.map fun v => v * v).sum - 2 * a * l.sum + l.length * (a * a) := by
    intro l
    induction l with
    | nil => simp
    | cons x xs ih =>
      simp only [List.map_cons, List.sum_cons, ih, List.length_cons]
      push_cast
      ring
  have hs : vs.sum = a * vs.length := by rw [ha]; field_simp
  rw [key, hs]
  field_simp
  ring

/-- **The statistics of an object** are the number of ranks that know it and the minimum, maximum, mean and population standard deviation of their values, if these are not negative and not beyond `T::MaxValue`. -/
theorem statistics_spec (maxValue : ℝ) (found : List (Option ℝ)) (vs : List ℝ) (hvs : vs = found.filterMap id) (hne : vs ≠ [])
    (h0 : ∀ v ∈ vs, 0 ≤ v) (hm : ∀ v ∈ vs, v ≤ maxValue) :
    let s := statistics maxValue 0 found
    s.processCount = vs.length ∧ (s.min ∈ vs ∧ ∀ v ∈ vs, s.min ≤ v) ∧ (s.max ∈ vs ∧ ∀ v ∈ vs, v ≤ s.max) ∧
      s.average = vs.sum / vs.length ∧ 0 ≤ s.stdev ∧ s.stdev ^ 2 = (vs.map fun v => (v - s.average) ^ 2).sum / vs.length := by
  intro s
  have hfound : found ≠ [] := by
    rintro rfl
    exact hne hvs
  have hmem : ∀ v, v ∈ vs ↔ some v ∈ found := by
    intro v
    rw [hvs]
    simp [List.mem_filterMap]
  have hcount : s.processCount = vs.length := by
    show reduce (· + ·) 0 _ = _
    rw [reduce_addN, count_known, hvs]
  have havg : s.average = vs.sum / vs.length := by
    have : s.average = reduce (· + ·) 0 (found.map fun v => v.getD 0) / (s.processCount : ℝ) := rfl
    rw [this, reduce_add, hcount]
    have := sum_known found id rfl
    simp only [List.map_id] at this
    rw [this, hvs]
  obtain ⟨v0, hv0⟩ := List.exists_mem_of_ne_nil vs hne
  refine ⟨hcount, ?_, ?_, havg, Real.sqrt_nonneg _, ?_⟩
  · obtain ⟨h1, h2⟩ := reduce_min (found.map fun v => v.getD maxValue) (by simpa using hfound)
    have hle : ∀ v ∈ vs, s.min ≤ v := fun v hv => h2 v (List.mem_map.2 ⟨some v, (hmem v).1 hv, rfl⟩)
    refine ⟨?_, hle⟩
    obtain ⟨w, hw, e⟩ := List.mem_map.1 h1
    cases w with
    | some x =>
      have e : x = s.min := e
      rw [← e]
      exact (hmem x).2 hw
    | none =>
      have e : maxValue = s.min := e
      have h3 := hle v0 hv0
      have h4 := hm v0 hv0
      have : s.min = v0 := le_antisymm h3 (e ▸ h4)
      rw [this]
      exact hv0
  · obtain ⟨h1, h2⟩ := reduce_max (found.map fun v => v.getD 0) (by simpa using hfound)
    have hle : ∀ v ∈ vs, v ≤ s.max := fun v hv => h2 v (List.mem_map.2 ⟨some v, (hmem v).1 hv, rfl⟩)
    refine ⟨?_, hle⟩
    obtain ⟨w, hw, e⟩ := List.mem_map.1 h1
    cases w with
    | some x =>
      have e : x = s.max := e
      rw [← e]
      exact (hmem x).2 hw
    | none =>
      have e : (0 : ℝ) = s.max := e
      have h3 := hle v0 hv0
      have h4 := h0 v0 hv0
      have : s.max = v0 := le_antisymm (e ▸ h4) h3
      rw [this]
      exact hv0
  · have hst : s.stdev = Real.sqrt (reduce (· + ·) 0 ((found.map fun v => v.getD 0).map fun v => v * v) / (s.processCount : ℝ) -
        s.average * s.average) := rfl
    have hq : reduce (· + ·) 0 ((found.map fun v => v.getD 0).map fun v => v * v) = (vs.map fun v => v * v).sum := by
      rw [reduce_add, sum_known found (fun v => v * v) (by simp), hvs]
    rw [hst, hq, hcount, variance vs hne s.average havg, Real.sq_sqrt]
    refine div_nonneg (List.sum_nonneg ?_) (Nat.cast_nonneg _)
    intro x hx
    obtain ⟨v, -, rfl⟩ := List.mem_map.1 hx
    exact sq_nonneg _

/-- A rank knows an object exactly if it has its name. -/
theorem known_iff (o : Objs) (n : Name) : (objValue o n).isSome ↔ n ∈ myNames o := by
  unfold objValue myNames
  induction o with
  | nil => simp
  | cons p o ih =>
    obtain ⟨a, v⟩ := p
    rw [List.lookup_cons]
    by_cases e : n = a
    · subst e; simp
    · have : (n == a) = false := by simpa using e
      rw [this]
      simp only [ih, List.map_cons, List.mem_cons]
      tauto

/-- **Timers and event counters.**  Every reported object has the statistics of the values on exactly those ranks that know it, and there is at least one such rank. -/
theorem aggregate_spec (maxValue : ℝ) (ranks : List Objs) (hn : ∀ o ∈ ranks, ∀ n ∈ myNames o, nul ∉ n)
    (h0 : ∀ o ∈ ranks, ∀ p ∈ o, 0 ≤ p.2 ∧ p.2 ≤ maxValue) :
    ∃ out, aggregate maxValue 0 ranks = some out ∧ (out.map (·.1)).Nodup ∧ (∀ n, n ∈ out.map (·.1) ↔ ∃ o ∈ ranks, n ∈ myNames o) ∧
      ∀ p ∈ out, ∀ vs, vs = ranks.filterMap (objValue · p.1) → vs ≠ [] ∧
        p.2.processCount = vs.length ∧ (p.2.min ∈ vs ∧ ∀ v ∈ vs, p.2.min ≤ v) ∧ (p.2.max ∈ vs ∧ ∀ v ∈ vs, v ≤ p.2.max) ∧
        p.2.average = vs.sum / vs.length ∧ 0 ≤ p.2.stdev ∧ p.2.stdev ^ 2 = (vs.map fun v => (v - p.2.average) ^ 2).sum / vs.length := by
  obtain ⟨ks, hk, hnd, hmem⟩ := names_union (ranks.map myNames) (by
    intro r hr
    obtain ⟨o, ho, rfl⟩ := List.mem_map.1 hr
    exact hn o ho)
  have hmem' : ∀ n, n ∈ ks ↔ ∃ o ∈ ranks, n ∈ myNames o := by
    intro n
    rw [hmem]
    simp
  have hfst : (ks.map fun n => (n, statistics maxValue 0 (ranks.map (objValue · n)))).map (·.1) = ks := by
    rw [List.map_map]
    exact (List.map_congr_left fun _ _ => rfl).trans (List.map_id ks)
  refine ⟨ks.map fun n => (n, statistics maxValue 0 (ranks.map (objValue · n))), ?_, by rw [hfst]; exact hnd, by rw [hfst]; exact hmem', ?_⟩
  · unfold aggregate
    rw [hk]
    rfl
  · intro p hp vs hvs
    obtain ⟨n, hnk, rfl⟩ := List.mem_map.1 hp
    obtain ⟨o, ho, hno⟩ := (hmem' n).1 hnk
    have hin : ∀ v ∈ vs, ∃ o ∈ ranks, (n, v) ∈ o := by
      intro v hv
      rw [hvs] at hv
      obtain ⟨o, ho, e⟩ := List.mem_filterMap.1 hv
      refine ⟨o, ho, ?_⟩
      have key : ∀ l : Objs, l.lookup n = some v → (n, v) ∈ l := by
        intro l
        induction l with
        | nil => intro h; simp at h
        | cons q l ih =>
          obtain ⟨a, w⟩ := q
          rw [List.lookup_cons]
          by_cases e : n = a
          · subst e
            simp only [BEq.rfl]
            intro h
            simp [Option.some.inj h]
          · have : (n == a) = false := by simpa using e
            rw [this]
            intro h
            simp [ih h]
      exact key o e
    have hne : vs ≠ [] := by
      obtain ⟨v, hv⟩ := Option.isSome_iff_exists.1 ((known_iff o n).2 hno)
      have : v ∈ vs := by
        rw [hvs]
        exact List.mem_filterMap.2 ⟨o, ho, hv⟩
      exact List.ne_nil_of_mem this
    refine ⟨hne, ?_⟩
    refine statistics_spec maxValue (ranks.map (objValue · n)) vs ?_ hne ?_ ?_
    · rw [hvs, List.filterMap_map]
      rfl
    · intro v hv
      obtain ⟨o, ho, hp⟩ := hin v hv
      exact (h0 o ho _ hp).1
    · intro v hv
      obtain ⟨o, ho, hp⟩ := hin v hv
      exact (h0 o ho _ hp).2

/-- Three ranks with different timers meet the hypotheses. -/
example : ∃ ranks : List Objs, ranks = [[("a".toList, 1), ("b".toList, 2)], [], [("b".toList, 5)]] ∧
    (∀ o ∈ ranks, ∀ n ∈ myNames o, nul ∉ n) ∧ ∀ o ∈ ranks, ∀ p ∈ o, 0 ≤ p.2 ∧ p.2 ≤ (100 : ℝ) := by
  refine ⟨_, rfl, ?_, ?_⟩
  · intro o ho
    simp only [List.mem_cons, List.not_mem_nil, or_false] at ho
    rcases ho with rfl | rfl | rfl <;> simp [myNames, nul]
  · intro o ho
    simp only [List.mem_cons, List.not_mem_nil, or_false] at ho
    rcases ho with rfl | rfl | rfl <;> norm_num

/-- A timer with a negative value (the clock was set back) on the only rank that knows it: the reported maximum is 0, although the only value is negative. -/
theorem negative_max (maxValue : ℝ) : (statistics maxValue 0 [some (-15), none]).max = 0 := by
  norm_num [statistics, reduce]

/-! ## Hardware counters -/

/-- The full name of a counter splits into the name of the object and that of the counter, if the latter has no colon. -/
theorem splitLast_join (base ctr : Name) (h : ':' ∉ ctr) : splitLast (base ++ ':' :: ctr) = (base, ctr) := by
  have hr : (base ++ ':' :: ctr).reverse = ctr.reverse ++ ':' :: base.reverse := by simp
  have h' : ∀ c ∈ ctr.reverse, (c != ':') = true := by
    intro c hc
    rw [List.mem_reverse] at hc
    have : c ≠ ':' := fun e => h (e ▸ hc)
    simpa using this
  unfold splitLast
  rw [hr, List.dropWhile_append_of_pos h', List.takeWhile_append_of_pos h']
  simp

/-- Hardware counters whose specification is the same wherever the object is known: what each rank finds for a reported name is the value of that counter. -/
theorem hw_found (o : HwObjs) (base ctr : Name) (h : ':' ∉ ctr) (hs : ∀ spec, o.lookup base = some spec → (spec.lookup ctr).isSome) :
    hwValue o (base ++ ':' :: ctr) = (o.lookup base).bind (·.lookup ctr) := by
  unfold hwValue
  rw [splitLast_join base ctr h]
  cases hl : o.lookup base with
  | none => rfl
  | some spec =>
    obtain ⟨v, hv⟩ := Option.isSome_iff_exists.1 (hs spec hl)
    simp [hv]

/-- Then the statistics of the counter are those over the ranks that know it. -/
theorem hw_statistics (maxValue : ℝ) (ranks : List HwObjs) (base ctr : Name) (h : ':' ∉ ctr)
    (hs : ∀ o ∈ ranks, ∀ spec, o.lookup base = some spec → (spec.lookup ctr).isSome) :
    statistics maxValue 0 (ranks.map (hwValue · (base ++ ':' :: ctr))) = statistics maxValue 0 (ranks.map fun o => (o.lookup base).bind (·.lookup ctr)) := by
  congr 1
  exact List.map_congr_left fun o ho => hw_found o base ctr h (hs o ho)

/-- Two ranks whose object of the same name has different counters: the counter known to the first rank only is reported as known to both, with minimum 0 and half the mean. -/
theorem hw_overcount (maxValue : ℝ) :
    ∃ ranks : List HwObjs, ranks = [[("f".toList, [("c".toList, 4)])], [("f".toList, [("d".toList, 7)])]] ∧
      (let s := statistics maxValue 0 (ranks.map (hwValue · "f:c".toList)); s.processCount = 2 ∧ s.min = 0 ∧ s.average = 2) ∧
      (ranks.filter fun o => "f:c".toList ∈ hwNames o).length = 1 := by
  have e : "f:c".toList = "f".toList ++ ':' :: "c".toList := by decide
  refine ⟨_, rfl, ?_, ?_⟩
  · simp only [List.map_cons, List.map_nil, hwValue]
    rw [e, splitLast_join _ _ (by decide)]
    have hne : ("c".toList == "d".toList) = false := by decide
    norm_num [statistics, reduce, List.lookup_cons, hne]
  · have h1 : "f:c".toList ∈ hwNames [("f".toList, [("c".toList, (4 : ℝ))])] := by
      rw [e]; simp [hwNames]
    have h2 : "f:c".toList ∉ hwNames [("f".toList, [("d".toList, (7 : ℝ))])] := by
      simp [hwNames]
    simp only [List.filter_cons, List.filter_nil, h1, h2, decide_true, decide_false]
    simp

end Xolotl.Perf.Stats
