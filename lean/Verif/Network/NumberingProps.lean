import Verif.Network.Numbering
import Mathlib.Data.List.Sort
import Mathlib.Tactic.FinCases

/-!
# C13, C14: numberings are bijections
-/

namespace Xolotl.Network.Numbering

/-! ### C13 -/

/-- Independent description of the moment ids of one cluster: the grouped species are numbered consecutively. -/
def spec (n : ℕ) : ℕ → List Axis → ℕ → Option ℕ
  | _, [], _ => none
  | c, a :: as, s =>
    if a.grouped = true ∧ a.slot = s then some (n + c)
    else spec n (c + if a.grouped then 1 else 0) as s

/-- What the networks guarantee: species sharing a slot are neighbours, and at most one of them is grouped. -/
structure Ok (axes : List Axis) : Prop where
  sorted : axes.Pairwise fun a b => a.slot ≤ b.slot
  unique : axes.Pairwise fun a b => a.grouped = true → b.grouped = true → a.slot ≠ b.slot

theorem assign_eq (n c : ℕ) (hn : 0 < n) (axes : List Axis) (h : Ok axes) (m : ℕ → Option ℕ)
    (hm : ∀ a ∈ axes, m a.slot = none ∨ (m a.slot = some (n + c - 1) ∧
      (∀ b ∈ axes, b.slot = a.slot → b.grouped = false) ∧ ∀ b ∈ axes, a.slot ≤ b.slot)) (s : ℕ) :
    assign n c axes m s = (spec n c axes s).or (m s) := by
  induction axes generalizing c m with
  | nil => simp [assign, spec]
  | cons a as ih =>
    obtain ⟨s1, s2⟩ := List.pairwise_cons.mp h.sorted
    obtain ⟨u1, u2⟩ := List.pairwise_cons.mp h.unique
    have h' : Ok as := ⟨s2, u2⟩
    unfold assign spec
    cases hg : a.grouped with
    | false =>
      have hkeep : ∀ b ∈ as, m b.slot = none ∨ (m b.slot = some (n + c - 1) ∧
          (∀ b' ∈ as, b'.slot = b.slot → b'.grouped = false) ∧ ∀ b' ∈ as, b.slot ≤ b'.slot) := by
        intro b hb
        rcases hm b (by simp [hb]) with e | ⟨e1, e2, e3⟩
        · exact Or.inl e
        · exact Or.inr ⟨e1, fun b' hb' => e2 b' (by simp [hb']), fun b' hb' => e3 b' (by simp [hb'])⟩
      have hsame : assign n c as m s = (spec n c as s).or (m s) := ih c h' m hkeep
      by_cases he : m a.slot = some (n + c - 1)
      · simpa [he] using hsame
      · have hnone : m a.slot = none := by
          rcases hm a (by simp) with e | ⟨e, -⟩
          · exact e
          · exact absurd e he
        have hup : Function.update m a.slot none = m := by
          rw [← hnone]; exact Function.update_eq_self _ _
        simpa [he, hup] using hsame
    | true =>
      simp only [Bool.true_eq_false, if_false, if_true, true_and]
      rw [ih (c + 1) h']
      · by_cases hs : a.slot = s
        · subst hs
          have hno : spec n (c + 1) as a.slot = none := by
            have : ∀ (as : List Axis) (c : ℕ), (∀ b ∈ as, b.grouped = true → a.slot ≠ b.slot) →
                spec n c as a.slot = none := by
              intro as
              induction as with
              | nil => intros; rfl
              | cons b bs ihb =>
                intro c hb
                unfold spec
                rw [if_neg, ihb _ fun b' hb' => hb b' (by simp [hb'])]
                rintro ⟨e1, e2⟩
                exact hb b (by simp) e1 e2.symm
            exact this as _ fun b hb hb' => u1 b hb hg hb'
          simp [hno]
        · simp [hs, Function.update_of_ne (fun e => hs e.symm : s ≠ a.slot)]
      · intro b hb
        by_cases hs : b.slot = a.slot
        · right
          rw [hs]
          refine ⟨by simp, ?_, fun b' hb' => s1 b' hb'⟩
          intro b' hb' e
          by_contra hne
          exact u1 b' hb' hg (by simpa using hne) e.symm
        · left
          rw [Function.update_of_ne hs]
          rcases hm b (by simp [hb]) with e | ⟨-, -, e3⟩
          · exact e
          · exact absurd (le_antisymm (e3 a (by simp)) (s1 b hb)) hs

theorem spec_some (n c : ℕ) (axes : List Axis) (s v : ℕ) (h : spec n c axes s = some v) :
    n + c ≤ v ∧ v < n + c + momentCount axes := by
  induction axes generalizing c with
  | nil => simp [spec] at h
  | cons a as ih =>
    unfold spec at h
    simp only [momentCount, List.countP_cons]
    split at h
    · rename_i h1
      simp only [Option.some.injEq] at h
      simp only [h1.1, if_true]
      omega
    · have := ih _ h
      simp only [momentCount] at this
      cases hg : a.grouped <;> simp [hg] at this ⊢ <;> omega

theorem spec_isSome (n c : ℕ) (axes : List Axis) (s : ℕ) :
    (spec n c axes s).isSome ↔ ∃ a ∈ axes, a.grouped = true ∧ a.slot = s := by
  induction axes generalizing c with
  | nil => simp [spec]
  | cons a as ih =>
    unfold spec
    by_cases h : a.grouped = true ∧ a.slot = s
    · simp [h]
    · rw [if_neg h, ih]
      simp only [List.mem_cons, exists_eq_or_imp]
      constructor
      · exact Or.inr
      · rintro (h' | h')
        · exact absurd h' h
        · exact h'

theorem spec_inj (n c : ℕ) (axes : List Axis) (s t v : ℕ) (h : spec n c axes s = some v)
    (h' : spec n c axes t = some v) : s = t := by
  induction axes generalizing c with
  | nil => simp [spec] at h
  | cons a as ih =>
    unfold spec at h h'
    split at h <;> split at h'
    · rename_i h1 h2
      exact h1.2.symm.trans h2.2
    · rename_i h1 h2
      have := spec_some _ _ _ _ _ h'
      simp [h1.1] at this h
      omega
    · rename_i h1 h2
      have := spec_some _ _ _ _ _ h
      simp [h2.1] at this h'
      omega
    · exact ih _ h h'

theorem spec_surj (n c : ℕ) (axes : List Axis)
    (hu : axes.Pairwise fun a b => a.grouped = true → b.grouped = true → a.slot ≠ b.slot) (v : ℕ)
    (h1 : n + c ≤ v) (h2 : v < n + c + momentCount axes) : ∃ s, spec n c axes s = some v := by
  induction axes generalizing c with
  | nil => simp [momentCount] at h2; omega
  | cons a as ih =>
    obtain ⟨u1, u2⟩ := List.pairwise_cons.mp hu
    simp only [momentCount, List.countP_cons] at h2
    cases hg : a.grouped with
    | false =>
      simp only [hg, Bool.false_eq_true, if_false, add_zero] at h2
      obtain ⟨s, hs⟩ := ih c u2 h1 h2
      exact ⟨s, by unfold spec; simpa [hg] using hs⟩
    | true =>
      simp only [hg, if_true] at h2
      by_cases hv : v = n + c
      · exact ⟨a.slot, by unfold spec; simp [hg, hv]⟩
      · obtain ⟨s, hs⟩ := ih (c + 1) u2 (by omega) (by simp only [momentCount]; omega)
        refine ⟨s, ?_⟩
        unfold spec
        have hne : ¬ (a.grouped = true ∧ a.slot = s) := by
          rintro ⟨-, rfl⟩
          have := (spec_isSome n (c + 1) as a.slot).mp (by simp [hs])
          obtain ⟨b, hb, hb1, hb2⟩ := this
          exact u1 b hb hg hb1 hb2.symm
        rw [if_neg hne]
        simpa [hg] using hs

theorem offset_succ (cl : List (List Axis)) {i : ℕ} (h : i < cl.length) :
    offset cl (i + 1) = offset cl i + momentCount cl[i] := by
  simp only [offset, List.map_take]
  rw [List.sum_take_succ _ _ (by simpa using h), List.getElem_map]

theorem offset_mono (cl : List (List Axis)) : Monotone (offset cl) := by
  refine monotone_nat_of_le_succ fun i => ?_
  by_cases h : i < cl.length
  · rw [offset_succ cl h]; omega
  · simp only [offset]
    rw [List.take_of_length_le (by omega), List.take_of_length_le (by omega)]

theorem offset_length (cl : List (List Axis)) : cl.length + offset cl cl.length = numDofs cl := by
  simp [offset, numDofs]

theorem momentId_eq (cl : List (List Axis)) (hok : ∀ a ∈ cl, Ok a) {i : ℕ} (h : i < cl.length)
    (s : ℕ) : momentId cl i s = spec cl.length (offset cl i) cl[i] s := by
  simp only [momentId, List.getElem?_eq_getElem h]
  rw [assign_eq _ _ (by omega) _ (hok _ (List.getElem_mem h)) _ fun _ _ => Or.inl rfl]
  simp

/-- **C13** A moment id is assigned to a slot of a cluster exactly if a grouped species of the cluster uses that slot. -/
theorem momentId_isSome (cl : List (List Axis)) (hok : ∀ a ∈ cl, Ok a) {i : ℕ} (h : i < cl.length)
    (s : ℕ) : (momentId cl i s).isSome ↔ ∃ a ∈ cl[i], a.grouped = true ∧ a.slot = s := by
  rw [momentId_eq cl hok h, spec_isSome]

/-- **C13** Cluster ids `0, …, numClusters - 1` and moment ids together number the degrees of freedom `0, …, DOF - 1`: every moment id is at least
`numClusters` and less than `DOF`, no two moments share an id, and every number is used. -/
theorem dof_bijection (cl : List (List Axis)) (hok : ∀ a ∈ cl, Ok a) :
    (∀ i s v, momentId cl i s = some v → cl.length ≤ v ∧ v < numDofs cl) ∧
    (∀ i j s t v, momentId cl i s = some v → momentId cl j t = some v → i = j ∧ s = t) ∧
    (∀ v < numDofs cl, v < cl.length ∨ ∃ i s, momentId cl i s = some v) := by
  have hlt : ∀ i s v, momentId cl i s = some v → ∃ h : i < cl.length,
      spec cl.length (offset cl i) cl[i] s = some v := by
    intro i s v hv
    by_cases h : i < cl.length
    · exact ⟨h, by rwa [momentId_eq cl hok h] at hv⟩
    · simp [momentId, List.getElem?_eq_none (not_lt.mp h)] at hv
  have hrange : ∀ i s v, momentId cl i s = some v →
      cl.length + offset cl i ≤ v ∧ v < cl.length + offset cl (i + 1) := by
    intro i s v hv
    obtain ⟨h, hv⟩ := hlt i s v hv
    rw [offset_succ cl h]
    have := spec_some _ _ _ _ _ hv
    omega
  refine ⟨fun i s v hv => ?_, fun i j s t v hv hv' => ?_, fun v hv => ?_⟩
  · obtain ⟨h, -⟩ := hlt i s v hv
    have h1 := hrange i s v hv
    have h2 := offset_mono cl (show i + 1 ≤ cl.length from h)
    have h3 := offset_length cl
    omega
  · have h1 := hrange i s v hv
    have h2 := hrange j t v hv'
    have hij : i = j := by
      rcases lt_trichotomy i j with h | h | h
      · have := offset_mono cl (show i + 1 ≤ j from h); omega
      · exact h
      · have := offset_mono cl (show j + 1 ≤ i from h); omega
    subst hij
    obtain ⟨_, a⟩ := hlt i s v hv
    obtain ⟨_, b⟩ := hlt i t v hv'
    exact ⟨rfl, spec_inj _ _ _ _ _ _ a b⟩
  · by_cases hc : v < cl.length
    · exact Or.inl hc
    · right
      have key : ∀ k ≤ cl.length, v < cl.length + offset cl k →
          ∃ i s, momentId cl i s = some v := by
        intro k
        induction k with
        | zero => intro _ h; simp [offset] at h; omega
        | succ k ih =>
          intro hk h
          by_cases hlt' : v < cl.length + offset cl k
          · exact ih (by omega) hlt'
          · have hk' : k < cl.length := hk
            rw [offset_succ cl hk'] at h
            obtain ⟨s, hs⟩ := spec_surj cl.length (offset cl k) cl[k]
              (hok _ (List.getElem_mem hk')).unique v (by omega) (by omega)
            exact ⟨k, s, by rw [momentId_eq cl hok hk']; exact hs⟩
      refine key cl.length le_rfl ?_
      rw [offset_length]
      exact hv

/-- The `mapToMomentId` tables of all networks are nondecreasing, as `Ok.sorted` requires. -/
theorem slotTables_sorted : ∀ t ∈ slotTables, t.Pairwise (· ≤ ·) := by decide

/-- The tables agree with the traits: as many entries as the species the grouping ranges over, one moment slot for each species that is not an interstitial, and the interstitial shares the slot of the
last of them, the vacancy; in the alloy and zirconium networks there is one slot only. -/
theorem slotTables_shared : slotTables = ([(5, 4), (4, 3), (4, 3), (3, 2), (3, 2), (6, 1), (3, 1), (2, 2)] : List (ℕ × ℕ)).map
    (fun (n, m) => (List.range n).map fun s => min s (m - 1)) := by decide

/-- Without the uniqueness hypothesis (a region grouped along both V and I) one degree of freedom is never used and another slot is lost: DOF counts 2 moments
but only one id is assigned. -/
theorem dof_hole_two_grouped_one_slot :
    let cl : List (List Axis) := [[⟨false, 0⟩, ⟨true, 1⟩, ⟨true, 1⟩]]
    numDofs cl = 3 ∧ (∀ i s, momentId cl i s ≠ some 1) := by
  refine ⟨by decide, ?_⟩
  intro i s h
  match i with
  | 0 =>
    by_cases hs : s = 1
    · subst hs; revert h; decide
    · simp [momentId, assign, hs] at h
  | i + 1 => simp [momentId] at h

/-- Non-vacuity: helium-vacancy clusters of a PSI network: single, grouped along both, grouped interstitials. -/
example : let cl : List (List Axis) :=
      [[⟨false, 0⟩, ⟨false, 1⟩, ⟨false, 1⟩], [⟨true, 0⟩, ⟨true, 1⟩, ⟨false, 1⟩],
       [⟨false, 0⟩, ⟨false, 1⟩, ⟨true, 1⟩]]
    (∀ a ∈ cl, Ok a) ∧ numDofs cl = 6 ∧ momentId cl 1 0 = some 3 ∧ momentId cl 1 1 = some 4 ∧
      momentId cl 2 1 = some 5 := by
  refine ⟨?_, by decide, by decide, by decide, by decide⟩
  intro a ha
  simp at ha
  rcases ha with rfl | rfl | rfl <;> exact ⟨by decide, by decide⟩

/-! ### C14 -/

namespace Chain

/-- Begin indices are the prefix sums of the sizes. -/
def Good : ℕ → List Link → ℕ → Prop
  | b, [], cap => cap = b
  | b, l :: ls, cap => l.begin = b ∧ Good (b + l.num) ls cap

theorem good_ofSizes (b : ℕ) (ns : List ℕ) :
    Good b (ofSizes b ns).links (ofSizes b ns).cap ∧
      (ofSizes b ns).links.map Link.num = ns := by
  induction ns generalizing b with
  | nil => simp [ofSizes, Good]
  | cons n ns ih =>
    obtain ⟨h1, h2⟩ := ih (b + n)
    simp [ofSizes, Good, h1, h2]

theorem Good.next {b : ℕ} {ls : List Link} {cap : ℕ} (h : Good b ls cap) : nextBegin ls cap = b := by
  cases ls with
  | nil => exact h
  | cons l ls => exact h.1

/-- Element `j` of type `t` of a chain whose first element has number `b`. -/
def position (b : ℕ) (ls : List Link) (t j : ℕ) : ℕ := b + ((ls.take t).map Link.num).sum + j

theorem applyAux_spec {b : ℕ} {ls : List Link} {cap : ℕ} (h : Good b ls cap) (i t0 : ℕ)
    (hi : b ≤ i) (hlt : i < b + (ls.map Link.num).sum) :
    ∃ t j, applyAux cap i t0 ls = some (t0 + t, j) ∧ ∃ ht : t < ls.length, j < (ls[t]).num ∧
      position b ls t j = i := by
  induction ls generalizing b t0 with
  | nil => simp at hlt; omega
  | cons l ls ih =>
    have hn := h.2.next
    unfold applyAux
    rw [hn]
    by_cases hl : i < b + l.num
    · rw [if_pos hl, h.1]
      exact ⟨0, i - b, rfl, by simp, by simp; omega, by simp [position]; omega⟩
    · rw [if_neg hl]
      obtain ⟨t, j, e, ht, hj, hp⟩ := ih h.2 (t0 + 1) (by omega)
        (by simp only [List.map_cons, List.sum_cons] at hlt; omega)
      refine ⟨t + 1, j, by rw [e]; congr 2; omega, by simpa using ht, by simpa using hj, ?_⟩
      simp only [position, List.take_succ_cons, List.map_cons, List.sum_cons] at hp ⊢
      omega

theorem position_inj {b : ℕ} {ls : List Link} {t t' j j' : ℕ} (ht : t < ls.length)
    (ht' : t' < ls.length) (hj : j < (ls[t]).num) (hj' : j' < (ls[t']).num)
    (h : position b ls t j = position b ls t' j') : t = t' ∧ j = j' := by
  have hmono : ∀ {s s' : ℕ}, s < s' → ∀ hs : s < ls.length, ((ls.take s).map Link.num).sum + (ls[s]).num
      ≤ ((ls.take s').map Link.num).sum := by
    intro s s' hss hs
    have h1 : ((ls.take (s + 1)).map Link.num).sum =
        ((ls.take s).map Link.num).sum + (ls[s]).num := by
      simp only [List.map_take]
      rw [List.sum_take_succ _ _ (by simpa using hs), List.getElem_map]
    rw [← h1]
    have h2 : ls.take (s + 1) = (ls.take s').take (s + 1) := by
      rw [List.take_take, Nat.min_eq_left hss]
    rw [h2]
    conv_rhs => rw [← List.take_append_drop (s + 1) (ls.take s')]
    rw [List.map_append, List.sum_append]
    omega
  simp only [position] at h
  rcases lt_trichotomy t t' with hlt | rfl | hlt
  · have := hmono hlt ht; omega
  · exact ⟨rfl, by omega⟩
  · have := hmono hlt ht'; omega

/-- **C14** For a collection constructed from views, every index below the total designates exactly one element of exactly one type, every element is designated by
exactly one index, and indices from the total on designate nothing. -/
theorem collection_bijection (ns : List ℕ) :
    let c := ofSizes 0 ns
    c.total = ns.sum ∧
    (∀ i < ns.sum, ∃ t j, c.apply i = some (t, j) ∧ ∃ ht : t < ns.length, j < ns[t] ∧
      (ns.take t).sum + j = i) ∧
    (∀ t j, ∀ ht : t < ns.length, j < ns[t] → c.apply ((ns.take t).sum + j) = some (t, j)) ∧
    c.beginIndices = (List.range (ns.length + 1)).map fun t => (ns.take t).sum := by
  intro c
  obtain ⟨h1, h2⟩ := good_ofSizes 0 ns
  have hlen : c.links.length = ns.length := by rw [← h2, List.length_map]
  have hget : ∀ t, ∀ ht : t < c.links.length, (c.links[t]).num = ns[t]'(by omega) := by
    intro t ht
    have : (c.links.map Link.num)[t]'(by simpa using ht) = ns[t]'(by omega) := by
      simp only [c, h2]
    simpa using this
  have hpos : ∀ t j, position 0 c.links t j = (ns.take t).sum + j := by
    intro t j
    rw [position, List.map_take, h2]
    omega
  have hb : ∀ (ns : List ℕ) (b : ℕ), (ofSizes b ns).beginIndices =
      (List.range (ns.length + 1)).map fun t => b + (ns.take t).sum := by
    intro ns
    induction ns with
    | nil => intro b; simp [ofSizes, beginIndices]
    | cons n ns ih =>
      intro b
      have e : (ofSizes b (n :: ns)).beginIndices = b :: (ofSizes (b + n) ns).beginIndices := rfl
      rw [e, ih, List.length_cons, List.range_succ_eq_map (n := ns.length + 1), List.map_cons,
        List.map_map]
      simp only [List.take_zero, List.sum_nil, add_zero, List.cons.injEq, true_and]
      refine List.map_congr_left fun t _ => ?_
      simp [add_assoc]
  have hsome : ∀ i < ns.sum, ∃ t j, c.apply i = some (t, j) ∧ ∃ ht : t < ns.length, j < ns[t] ∧
      (ns.take t).sum + j = i := by
    intro i hi
    obtain ⟨t, j, e, ht, hj, hp⟩ := applyAux_spec h1 i 0 (by omega) (by rw [h2]; omega)
    rw [zero_add] at e
    have ht' : t < c.links.length := ht
    refine ⟨t, j, e, by omega, ?_, ?_⟩
    · rw [← hget t ht]; exact hj
    · rw [← hpos]; exact hp
  refine ⟨by simp only [total, c, h2], hsome, ?_, by simpa using hb ns 0⟩
  intro t j ht hj
  have hlt : (ns.take t).sum + j < ns.sum := by
    have h3 : (ns.take (t + 1)).sum = (ns.take t).sum + ns[t] :=
      List.sum_take_succ _ _ ht
    have h4 : ns.sum = (ns.take (t + 1)).sum + (ns.drop (t + 1)).sum := by
      rw [← List.sum_append, List.take_append_drop]
    omega
  obtain ⟨t', j', e, ht', hj', hp⟩ := hsome _ hlt
  rw [e]
  have hcl : t < c.links.length := by omega
  have hcl' : t' < c.links.length := by omega
  have := position_inj (b := 0) hcl hcl' (by rw [hget t hcl]; exact hj)
    (by rw [hget t' hcl']; exact hj') (by rw [hpos, hpos]; exact hp.symm)
  rw [this.1, this.2]

/-- A chain some of whose types have been resized: begin indices of the links are prefix sums, the capping index is whatever it was. -/
def GoodLinks : ℕ → List Link → Prop
  | _, [] => True
  | b, l :: ls => l.begin = b ∧ GoodLinks (b + l.num) ls

theorem goodLinks_updateIndices (b : ℕ) (ls : List Link) : GoodLinks b (updateIndices b ls) ∧
    (updateIndices b ls).map Link.num = ls.map Link.num := by
  induction ls generalizing b with
  | nil => simp [updateIndices, GoodLinks]
  | cons l ls ih => simp [updateIndices, GoodLinks, ih]

theorem goodLinks_setView {b : ℕ} {ls : List Link} (h : GoodLinks b ls) (t n : ℕ) :
    GoodLinks b (setView t n ls) ∧
      (setView t n ls).map Link.num = (ls.map Link.num).set t n := by
  induction t generalizing b ls with
  | zero =>
    cases ls with
    | nil => simp [setView, GoodLinks]
    | cons l ls =>
      have := goodLinks_updateIndices l.begin (⟨n, l.begin⟩ :: ls)
      rw [setView]
      refine ⟨h.1 ▸ this.1, by rw [this.2]; simp⟩
  | succ t ih =>
    cases ls with
    | nil => simp [setView, GoodLinks]
    | cons l ls =>
      obtain ⟨a, b⟩ := ih h.2
      exact ⟨⟨h.1, a⟩, by simp [setView, b]⟩

theorem applyAux_goodLinks {b : ℕ} {ls : List Link} {cap : ℕ} (h : GoodLinks b ls) (i t0 : ℕ)
    (hi : b ≤ i) (hlt : i < b + (ls.map Link.num).sum) (hcap : b + (ls.map Link.num).sum ≤ cap) :
    ∃ t j, applyAux cap i t0 ls = some (t0 + t, j) ∧ ∃ ht : t < ls.length, j < (ls[t]).num ∧
      position b ls t j = i := by
  induction ls generalizing b t0 with
  | nil => simp at hlt; omega
  | cons l ls ih =>
    unfold applyAux
    simp only [List.map_cons, List.sum_cons] at hlt hcap
    have hn : nextBegin ls cap = b + l.num ∨ (ls = [] ∧ b + l.num ≤ nextBegin ls cap) := by
      cases ls with
      | nil => right; exact ⟨rfl, by simpa [nextBegin] using hcap⟩
      | cons l' ls' => left; exact h.2.1
    by_cases hl : i < b + l.num
    · have : i < nextBegin ls cap := by omega
      rw [if_pos this, h.1]
      exact ⟨0, i - b, rfl, by simp, by simp; omega, by simp [position]; omega⟩
    · rcases hn with hn | ⟨rfl, -⟩
      · rw [hn, if_neg hl]
        obtain ⟨t, j, e, ht, hj, hp⟩ := ih h.2 (t0 + 1) (by omega) (by omega) (by omega)
        refine ⟨t + 1, j, by rw [e]; congr 2; omega, by simpa using ht, by simpa using hj, ?_⟩
        simp only [position, List.take_succ_cons, List.map_cons, List.sum_cons] at hp ⊢
        omega
      · simp at hlt; omega

/-- Any sequence of `setView`. -/
def sets (c : Chain) (ops : List (ℕ × ℕ)) : Chain := ops.foldl (fun c o => c.set o.1 o.2) c

/-- **C14 (resizing, partial)** After any sequence of `setView`, as long as the new total does not exceed the total at construction, every index below the
new total still designates exactly the element it should. Missing: totals that grew, see `resize_grow_loses`. -/
theorem resize_partial (ns : List ℕ) (ops : List (ℕ × ℕ)) :
    let c := (ofSizes 0 ns).sets ops
    let ms := ops.foldl (fun ms o => ms.set o.1 o.2) ns
    c.total = ms.sum ∧ (c.links.map Link.begin = (List.range ms.length).map fun t => (ms.take t).sum) ∧
    (ms.sum ≤ ns.sum → ∀ i < ms.sum, ∃ t j, c.apply i = some (t, j) ∧ ∃ ht : t < ms.length,
      j < ms[t] ∧ (ms.take t).sum + j = i) := by
  intro c ms
  have hinv : ∀ (ops : List (ℕ × ℕ)) (c : Chain) (ms : List ℕ), GoodLinks 0 c.links →
      c.links.map Link.num = ms → GoodLinks 0 (c.sets ops).links ∧
      (c.sets ops).links.map Link.num = ops.foldl (fun ms o => ms.set o.1 o.2) ms ∧
      (c.sets ops).cap = c.cap := by
    intro ops
    induction ops with
    | nil => intro c ms h1 h2; exact ⟨h1, h2, rfl⟩
    | cons o ops ih =>
      intro c ms h1 h2
      have := goodLinks_setView h1 o.1 o.2
      obtain ⟨a, b, d⟩ := ih (c.set o.1 o.2) (ms.set o.1 o.2) this.1 (by rw [← h2]; exact this.2)
      exact ⟨a, b, d⟩
  have hg : ∀ (b : ℕ) (ls : List Link) (cap : ℕ), Good b ls cap → GoodLinks b ls ∧
      cap = b + (ls.map Link.num).sum := by
    intro b ls
    induction ls generalizing b with
    | nil => intro cap h; exact ⟨trivial, by simpa [Good] using h⟩
    | cons l ls ih =>
      intro cap h
      obtain ⟨a, e⟩ := ih _ _ h.2
      exact ⟨⟨h.1, a⟩, by rw [e]; simp [add_assoc]⟩
  obtain ⟨g1, g2⟩ := good_ofSizes 0 ns
  obtain ⟨g3, g4⟩ := hg _ _ _ g1
  obtain ⟨i1, i2, i3⟩ := hinv ops (ofSizes 0 ns) ns g3 g2
  have hbeg : ∀ (ls : List Link) (b : ℕ), GoodLinks b ls → ls.map Link.begin =
      (List.range (ls.map Link.num).length).map fun t => b + ((ls.map Link.num).take t).sum := by
    intro ls
    induction ls with
    | nil => intros; simp
    | cons l ls ih =>
      intro b h
      rw [List.map_cons, ih _ h.2, List.map_cons, List.length_cons, List.range_succ_eq_map,
        List.map_cons, List.map_map, h.1]
      simp only [List.take_zero, List.sum_nil, add_zero, List.cons.injEq, true_and]
      refine List.map_congr_left fun t _ => ?_
      simp [add_assoc]
  refine ⟨by simp only [total, c, i2]; rfl, ?_, ?_⟩
  · have := hbeg c.links 0 i1
    simp only [c, i2, zero_add] at this
    exact this
  · intro hle i hi
    obtain ⟨t, j, e, ht, hj, hp⟩ := applyAux_goodLinks (cap := c.cap) i1 i 0 (by omega)
      (by rw [i2]; show i < 0 + ms.sum; omega)
      (by rw [i2]; simp only [c, i3, g4, g2, zero_add]; exact hle)
    have hlen : c.links.length = ms.length := by
      have := congrArg List.length i2
      simpa using this
    have ht' : t < c.links.length := ht
    refine ⟨t, j, by simpa [apply, c] using e, by omega, ?_, ?_⟩
    · have : ((c.links.map Link.num)[t]'(by simpa using ht)) = ms[t]'(by omega) := by
        simp only [c, i2, ms]
      rw [← this]
      simpa using hj
    · have h5 : (ms.take t).sum = ((c.links.take t).map Link.num).sum := by
        rw [List.map_take]
        simp only [c, i2, ms]
      rw [h5]
      simp only [position, zero_add] at hp
      exact hp

/-- **C14 (resizing, negation)** `updateIndices` does not update the capping link, so after growing a type the
last elements are never visited: of the 5 elements, element 3 (and 4) designate nothing, although the total is 5; and a collection that
was default constructed and then filled visits nothing. -/
theorem resize_grow_loses :
    let c := (ofSizes 0 [1, 2]).set 0 3
    c.total = 5 ∧ c.apply 3 = none ∧ c.apply 4 = none ∧ c.beginIndices = [0, 3, 3] ∧
    (let d := (default 2).set 1 4
     d.total = 4 ∧ ∀ i, d.apply i = none) := by
  refine ⟨by decide, by decide, by decide, by decide, by decide, fun i => ?_⟩
  simp [default, set, setView, updateIndices, apply, applyAux, nextBegin, List.replicate]

/-- Non-vacuity of `resize_partial`: shrink one type and grow another within the original total. -/
example : let c := (ofSizes 0 [3, 4, 2]).sets [(1, 1), (2, 5)]
    c.total = 9 ∧ c.apply 8 = some (2, 4) ∧ c.apply 3 = some (1, 0) := by decide

end Chain

end Xolotl.Network.Numbering
