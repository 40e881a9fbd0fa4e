import Verif.Network.Formation
import Verif.Network.NeFileProps
import Verif.Network.FuelProps

/-!
# Formation energies of the fuel network: properties

C107.
-/

namespace Xolotl.Network.Formation

open Xolotl.Network.NeFile Xolotl.Network.Rates

/-- The line can be read: seven numbers and then groups of four, and the cluster is in the network. -/
def Good (find : Comp → Option ℕ) (r : Row) : Prop := (7 ≤ r.nums.length ∧ 4 ∣ r.nums.length - 7) ∧ ∃ k, find r.comp = some k

/-- `l` is the first of the rows about cluster `k`. -/
def FirstOf (find : Comp → Option ℕ) (rows : List Row) (k : ℕ) (r : Row) : Prop :=
  ∃ pre post, rows = pre ++ r :: post ∧ find r.comp = some k ∧ ∀ p ∈ pre, find p.comp ≠ some k

theorem step_isSome (T : ℝ) (find : Comp → Option ℕ) (s : Seen) (r : Row) : (step T find s r).isSome ↔ Good find r := by
  unfold Good
  rw [← entry_defined T r.nums]
  unfold step
  cases entry T r.nums <;> cases find r.comp <;> simp

theorem readRows_append (T : ℝ) (find : Comp → Option ℕ) (f : ℕ → ℝ) (rows : List Row) (r : Row) :
    readRows T find f (rows ++ [r]) = (readRows T find f rows).bind (fun s => step T find s r) := by
  unfold readRows
  rw [List.foldlM_append]
  simp only [List.foldlM_cons, List.foldlM_nil, bind_pure]
  rfl

theorem readRows_isSome (T : ℝ) (find : Comp → Option ℕ) (f : ℕ → ℝ) (rows : List Row) : (readRows T find f rows).isSome ↔ ∀ r ∈ rows, Good find r := by
  induction rows using List.reverseRecOn with
  | nil => simp [readRows]
  | append_singleton rows r ih =>
    rw [readRows_append]
    cases h : readRows T find f rows with
    | none =>
      rw [h] at ih
      simp only [Option.bind_none, Option.isSome_none, Bool.false_eq_true, false_iff, List.mem_append, List.mem_singleton] at ih ⊢
      intro q
      exact ih (fun x hx => q x (Or.inl hx))
    | some s =>
      rw [h] at ih
      simp only [Option.bind_some, Option.isSome_some, true_iff, List.mem_append, List.mem_singleton] at ih ⊢
      rw [step_isSome]
      constructor
      · rintro q x (hx | rfl)
        · exact ih x hx
        · exact q
      · intro q; exact q r (Or.inr rfl)

/-- What the loop keeps of the lines: the energies in order, for every cluster the place of its first line, and the diffusion factor of its last. -/
theorem readRows_spec (T : ℝ) (find : Comp → Option ℕ) (f : ℕ → ℝ) (rows : List Row) (s : Seen) (h : readRows T find f rows = some s) :
    s.g.length = rows.length ∧
    (∀ k, s.pos k = none ↔ ∀ r ∈ rows, find r.comp ≠ some k) ∧
    (∀ k m, s.pos k = some m → ∃ pre r post e, rows = pre ++ r :: post ∧ pre.length = m ∧ find r.comp = some k ∧ (∀ p ∈ pre, find p.comp ≠ some k) ∧ entry T r.nums = some e ∧ s.g[m]? = some e.g) := by
  induction rows using List.reverseRecOn generalizing s with
  | nil =>
    simp only [readRows, List.foldlM_nil, pure, Option.some.injEq] at h
    subst h
    simp
  | append_singleton rows r ih =>
    rw [readRows_append] at h
    cases h0 : readRows T find f rows with
    | none => rw [h0] at h; simp at h
    | some t =>
      rw [h0, Option.bind_some] at h
      obtain ⟨i1, i2, i3⟩ := ih t h0
      unfold step at h
      cases he : entry T r.nums with
      | none => rw [he] at h; simp at h
      | some e =>
        cases hf : find r.comp with
        | none => rw [he, hf] at h; simp at h
        | some id =>
          rw [he, hf] at h
          simp only [Option.bind_eq_bind, Option.bind_some, pure, Option.some.injEq] at h
          subst h
          refine ⟨by simp [i1], ?_, ?_⟩
          · intro k
            simp only [List.mem_append, List.mem_singleton]
            by_cases c : k = id ∧ t.pos k = none
            · simp only [if_pos c, reduceCtorEq, false_iff]
              intro q
              exact q r (Or.inr rfl) (by rw [hf, c.1])
            · rw [if_neg c, i2]
              constructor
              · rintro q x (hx | rfl)
                · exact q x hx
                · rw [hf]; intro e; exact c ⟨(Option.some.inj e).symm, (i2 k).2 q⟩
              · intro q x hx; exact q x (Or.inl hx)
          · intro k m hm
            by_cases c : k = id ∧ t.pos k = none
            · simp only [if_pos c, Option.some.injEq] at hm
              refine ⟨rows, r, [], e, rfl, by omega, by rw [hf, c.1], (i2 k).1 c.2, he, ?_⟩
              subst hm
              simp
            · simp only [if_neg c] at hm
              obtain ⟨pre, x, post, e', a1, a2, a3, a4, a5, a6⟩ := i3 k m hm
              refine ⟨pre, x, post ++ [r], e', by rw [a1]; simp, a2, a3, a4, a5, ?_⟩
              have : m < t.g.length := by rw [i1, a1, ← a2]; simp
              rw [List.getElem?_append_left this]; exact a6

/-- **C107** An energy looked up is that of the lowest state in the *first* line about the cluster that holds the composition; there is none exactly when the network or the file is without it. -/
theorem energyOf_iff (T : ℝ) (find : Comp → Option ℕ) (f : ℕ → ℝ) (rows : List Row) (s : Seen) (h : readRows T find f rows = some s) (c : Comp) (x : ℝ) :
    energyOf find s c = some x ↔ ∃ k r e, find c = some k ∧ FirstOf find rows k r ∧ entry T r.nums = some e ∧ x = e.g := by
  obtain ⟨i1, i2, i3⟩ := readRows_spec T find f rows s h
  unfold energyOf
  cases hc : find c with
  | none => simp
  | some k =>
    simp only [Option.bind_eq_bind, Option.bind_some]
    cases hp : s.pos k with
    | none =>
      simp only [Option.bind_none, reduceCtorEq, false_iff]
      rintro ⟨k', r, e, hk, ⟨pre, post, a1, a2, _⟩, _⟩
      cases hk
      exact (i2 k).1 hp r (by rw [a1]; simp) a2
    | some m =>
      obtain ⟨pre, r, post, e, a1, a2, a3, a4, a5, a6⟩ := i3 k m hp
      simp only [Option.bind_some, a6, Option.some.injEq]
      constructor
      · rintro rfl
        exact ⟨k, r, e, rfl, ⟨pre, post, a1, a3, a4⟩, a5, rfl⟩
      · rintro ⟨k', r', e', hk, ⟨pre', post', b1, b2, b3⟩, b5, rfl⟩
        cases hk
        have : pre' = pre ∧ r' = r := by
          rw [a1] at b1
          rcases List.append_eq_append_iff.1 b1 with ⟨w, e1, e2⟩ | ⟨w, e1, e2⟩
          · cases w with
            | nil => simp at e1 e2; exact ⟨e1, e2.1.symm⟩
            | cons y w =>
              simp only [List.cons_append, List.cons.injEq] at e2
              exact absurd (by rw [← e2.1]; exact a3) (b3 y (by rw [e1]; simp))
          · cases w with
            | nil => simp at e1 e2; exact ⟨e1.symm, e2.1⟩
            | cons y w =>
              simp only [List.cons_append, List.cons.injEq] at e2
              exact absurd (by rw [← e2.1]; exact b2) (a4 y (by rw [e1]; simp))
        obtain ⟨_, rfl⟩ := this
        rw [a5] at b5
        rw [Option.some.inj b5]

theorem first_exists (find : Comp → Option ℕ) (k : ℕ) (rows : List Row) (h : ∃ r ∈ rows, find r.comp = some k) : ∃ r, FirstOf find rows k r := by
  induction rows with
  | nil => simp at h
  | cons a rows ih =>
    by_cases c : find a.comp = some k
    · exact ⟨a, [], rows, rfl, c, by simp⟩
    · obtain ⟨r, hr, hk⟩ := h
      rcases List.mem_cons.1 hr with rfl | hr
      · exact absurd hk c
      · obtain ⟨x, pre, post, e, q1, q2⟩ := ih ⟨r, hr, hk⟩
        refine ⟨x, a :: pre, post, by rw [e]; rfl, q1, ?_⟩
        intro p hp
        rcases List.mem_cons.1 hp with rfl | hp
        · exact c
        · exact q2 p hp

/-- **C107** The reading is defined exactly when every line can be read and is about a cluster of the network, and the clusters of the interstitial, of one vacancy, of two, and of the xenon atom are in the network and each has a line. -/
theorem formation_isSome (T : ℝ) (find : Comp → Option ℕ) (f : ℕ → ℝ) (rows : List Row) :
    (formation T find f rows).isSome ↔ (∀ r ∈ rows, Good find r) ∧
      ∀ c ∈ [((0, 0, 1) : Comp), (0, 1, 0), (0, 2, 0), (1, 0, 0)], ∃ k, find c = some k ∧ ∃ r ∈ rows, find r.comp = some k := by
  rw [← readRows_isSome T find f rows]
  cases h : readRows T find f rows with
  | none => simp [formation, h]
  | some s =>
    have key : ∀ c : Comp, (energyOf find s c).isSome ↔ ∃ k, find c = some k ∧ ∃ r ∈ rows, find r.comp = some k := by
      intro c
      rw [Option.isSome_iff_exists]
      constructor
      · rintro ⟨x, hx⟩
        obtain ⟨k, r, e, q1, ⟨pre, post, q2, q3, _⟩, _⟩ := (energyOf_iff T find f rows s h c x).1 hx
        exact ⟨k, q1, r, by rw [q2]; simp, q3⟩
      · rintro ⟨k, q1, r, hr, q2⟩
        obtain ⟨r', hf⟩ := first_exists find k rows ⟨r, hr, q2⟩
        have hf' := hf
        obtain ⟨pre, post, e1, _⟩ := hf'
        have g := (readRows_isSome T find f rows).1 (by rw [h]; rfl) r' (by rw [e1]; simp)
        obtain ⟨e, he⟩ := Option.isSome_iff_exists.1 ((entry_defined T r'.nums).2 g.1)
        exact ⟨e.g, (energyOf_iff T find f rows s h c e.g).2 ⟨k, r', e, q1, hf, he, rfl⟩⟩
    simp only [List.forall_mem_cons, Option.isSome_some, true_and, ← key]
    unfold formation
    rw [h]
    cases h1 : energyOf find s (0, 0, 1) <;> cases h2 : energyOf find s (0, 1, 0) <;> cases h3 : energyOf find s (0, 2, 0) <;> cases h4 : energyOf find s (1, 0, 0) <;>
      simp [h1, h2, h3, h4]

/-- The energy of composition `c`, said without the loop: the smallest `h - k T s` of the states in the first line of its cluster. -/
def IsEnergy (T : ℝ) (find : Comp → Option ℕ) (rows : List Row) (c : Comp) (x : ℝ) : Prop :=
  ∃ k r e, find c = some k ∧ FirstOf find rows k r ∧ entry T r.nums = some e ∧ (∀ l ∈ e.states, x ≤ l.g) ∧ ∃ l ∈ e.states, l.g = x

/-- **C107** Each of the four energies is that of its own species. -/
theorem formation_values (T : ℝ) (find : Comp → Option ℕ) (f : ℕ → ℝ) (rows : List Row) (E : Fuel.Energies ℝ) (h : formation T find f rows = some E) :
    IsEnergy T find rows (0, 0, 1) E.i ∧ IsEnergy T find rows (0, 1, 0) E.v ∧ IsEnergy T find rows (0, 2, 0) E.v2 ∧ IsEnergy T find rows (1, 0, 0) E.xe := by
  unfold formation at h
  cases h0 : readRows T find f rows with
  | none => rw [h0] at h; simp at h
  | some s =>
    have key : ∀ c x, energyOf find s c = some x → IsEnergy T find rows c x := by
      intro c x hx
      obtain ⟨k, r, e, q1, q2, q3, rfl⟩ := (energyOf_iff T find f rows s h0 c x).1 hx
      obtain ⟨l1, hl, l2⟩ := entry_lowest T r.nums e q3
      exact ⟨k, r, e, q1, q2, q3, l1, _, List.getElem_mem hl, l2⟩
    rw [h0] at h
    cases h1 : energyOf find s (0, 0, 1) <;> cases h2 : energyOf find s (0, 1, 0) <;> cases h3 : energyOf find s (0, 2, 0) <;> cases h4 : energyOf find s (1, 0, 0) <;>
      simp [h1, h2, h3, h4] at h
    subst h
    exact ⟨key _ _ h1, key _ _ h2, key _ _ h3, key _ _ h4⟩

/-- **C107** A line of seven numbers gives the energy `h - k T s`: as a function of the temperature a straight line with slope `-k s`. The energies are found once, at the temperature of the options: where the network is at `T'` they are wrong by `k (T' - T) s`. -/
theorem stale (T T' a b c h s d q : ℝ) (e e' : Entry) (he : entry T [a, b, c, h, s, d, q] = some e) (he' : entry T' [a, b, c, h, s, d, q] = some e') :
    e.g = h - kB * T * s ∧ e.g - e'.g = kB * (T' - T) * s := by
  simp only [entry, links, Option.bind_eq_bind, Option.bind_some, pure, Option.some.injEq, smallest, List.foldl_nil, link] at he he'
  subst he he'
  exact ⟨rfl, by ring⟩

/-- **C107** A further line about a cluster that had one changes its diffusion factor and none of the energies: the first line counts for the energies and the last for the diffusion. -/
theorem repeated (T : ℝ) (find : Comp → Option ℕ) (f : ℕ → ℝ) (rows : List Row) (r : Row) (s s' : Seen) (k : ℕ) (e : Entry)
    (h : readRows T find f rows = some s) (h' : readRows T find f (rows ++ [r]) = some s') (hk : find r.comp = some k) (he : entry T r.nums = some e) :
    s'.factor k = diffusivity T e ∧ (∀ j, j ≠ k → s'.factor j = s.factor j) ∧ ∀ c x, energyOf find s c = some x → energyOf find s' c = some x := by
  rw [readRows_append, h, Option.bind_some] at h'
  have h2 := h'
  unfold step at h2
  rw [he, hk] at h2
  simp only [Option.bind_eq_bind, Option.bind_some, pure, Option.some.injEq] at h2
  refine ⟨by rw [← h2]; simp, fun j hj => by rw [← h2]; simp [hj], ?_⟩
  intro c x hx
  obtain ⟨k', p, e', q1, ⟨pre, post, a1, a2, a3⟩, q3, q4⟩ := (energyOf_iff T find f rows s h c x).1 hx
  have hs : readRows T find f (rows ++ [r]) = some s' := by rw [readRows_append, h, Option.bind_some]; exact h'
  exact (energyOf_iff T find f _ s' hs c x).2 ⟨k', p, e', q1, ⟨pre, post ++ [r], by rw [a1]; simp, a2, a3⟩, q3, q4⟩

/-! ### What is not as the claim says -/

/-- **C107** A network without interstitials, or without two vacancies, cannot read any file: the lookup leaves the map. -/
theorem missing_species (T : ℝ) (find : Comp → Option ℕ) (f : ℕ → ℝ) (rows : List Row) (h : find (0, 0, 1) = none ∨ find (0, 1, 0) = none ∨ find (0, 2, 0) = none ∨ find (1, 0, 0) = none) :
    formation T find f rows = none := by
  rw [← Option.not_isSome_iff_eq_none, formation_isSome]
  rintro ⟨_, q⟩
  rcases h with h | h | h | h
  · obtain ⟨k, hk, _⟩ := q (0, 0, 1) (by simp); rw [h] at hk; simp at hk
  · obtain ⟨k, hk, _⟩ := q (0, 1, 0) (by simp); rw [h] at hk; simp at hk
  · obtain ⟨k, hk, _⟩ := q (0, 2, 0) (by simp); rw [h] at hk; simp at hk
  · obtain ⟨k, hk, _⟩ := q (1, 0, 0) (by simp); rw [h] at hk; simp at hk

/-- **C107** What it does to a rate: a dissociation that is not in the file, with a binding energy wrong as in `stale`, has a rate wrong by the factor `exp (-(T' - T) s / T')`, where `T'` is the temperature of the network. -/
theorem stale_rate (D : Data) (i j : ℕ) (file : D.fileBackward i j ≤ 0) (hT : 0 < D.T) (eb s T : ℝ) :
    D.backward (eb + kB * (D.T - T) * s) i j = D.backward eb i j * Real.exp (-((D.T - T) * s / D.T)) := by
  unfold Data.backward
  rw [if_neg (not_lt.2 file), if_neg (not_lt.2 file), mul_assoc _ _ (Real.exp (-((D.T - T) * s / D.T))), ← Real.exp_add]
  congr 2
  have := kB_pos.ne'
  have := hT.ne'
  field_simp
  ring

/-- The hypotheses of `stale_rate` are met by any data without a file. -/
example : (⟨.zero, fun _ => none, fun _ => 1, fun _ => 1, fun _ => some 1, 1, 1600⟩ : Data).fileBackward 0 1 ≤ 0 := by simp [Data.fileBackward]

/-- A network with xenon, one to three vacancies and interstitials, each a cluster of its own. -/
def net4 : Comp → Option ℕ
  | (1, 0, 0) => some 0
  | (0, 1, 0) => some 1
  | (0, 2, 0) => some 2
  | (0, 0, 1) => some 3
  | (0, 3, 0) => some 4
  | _ => none

/-- A file with a line for each of the four; the second has two states. -/
def file4 : List Row :=
  [⟨(1, 0, 0), [1, 0, 0, 7, 0, 1, 1]⟩, ⟨(0, 1, 0), [0, 1, 0, 4, 0, 1, 1, 3, 0, 1, 1]⟩, ⟨(0, 2, 0), [0, 2, 0, 6, 0, 1, 1]⟩, ⟨(0, 0, 1), [0, 0, 1, 5, 0, 1, 1]⟩]

/-- The hypotheses of `formation_isSome` and `formation_values` are met, and the four are not mixed up. -/
theorem file4_read (T : ℝ) (f : ℕ → ℝ) : formation T net4 f file4 = some ⟨5, 3, 6, 7⟩ := by
  have h : ((3 : ℝ) < 4) := by norm_num
  simp [formation, readRows, file4, step, entry, links, smallest, link, net4, energyOf, h]

/-- Without a file all four are 0. -/
theorem no_file (T : ℝ) (find : Comp → Option ℕ) (f : ℕ → ℝ) : energies T find f none = some ⟨0, 0, 0, 0⟩ := rfl

/-- **C107** A second line for the vacancy, with other numbers: its diffusion factor is that of the second line and its energy that of the first. -/
theorem repeated_case (T : ℝ) (f : ℕ → ℝ) : ∃ s, readRows T net4 f (file4 ++ [⟨(0, 1, 0), [0, 1, 0, 2, 0, 8, 0]⟩]) = some s ∧ s.factor 1 = 8 ∧ energyOf net4 s (0, 1, 0) = some 3 := by
  have h : ((3 : ℝ) < 4) := by norm_num
  refine ⟨_, by simp [readRows, file4, step, entry, links, smallest, link, net4, h]; rfl, ?_, ?_⟩
  · simp [diffusivity]
  · simp [energyOf, net4]

/-- A void of vacancies without xenon, and its parts after it lost a vacancy. -/
def void (n : ℤ) : Dispatch.Clu Unit := ⟨fun _ => ⟨0, 1⟩, ⟨n, n + 1⟩, ⟨0, 1⟩⟩

/-- **C107** What the energies are for: a void of at least four vacancies without xenon holds a vacancy with exactly the formation energy of the vacancy, within the limits; without a file with 0. -/
theorem void_binding (E : Fuel.Energies ℝ) (n : ℤ) (h : 4 ≤ n) : Fuel.binding E (void n) (void (n - 1)) (void 1) = min 5 (max E.v (-1)) := by
  have hn : ((n : ℝ)) ≠ 0 := by exact_mod_cast (by omega : n ≠ 0)
  have e : n - 1 ≠ 2 := by omega
  have p : 0 < n - 1 := by omega
  unfold Fuel.binding
  have hv : ((((void n).v.b + (void n).v.e - 1 : ℤ) : ℝ) / 2) = n := by simp only [void]; push_cast; ring
  have hx : (((((void n).g ()).b + ((void n).g ()).e - 1 : ℤ) : ℝ) / 2) = 0 := by simp [void]
  simp only [hv, hx, if_neg hn]
  congr 2
  simp [Fuel.rawBinding, Dispatch.onV, Dispatch.onI, Dispatch.onG, void, e, Fuel.vacLoop, List.range_succ]

theorem void_no_file (T : ℝ) (find : Comp → Option ℕ) (f : ℕ → ℝ) (E : Fuel.Energies ℝ) (h : energies T find f none = some E) (n : ℤ) (hn : 4 ≤ n) :
    Fuel.binding E (void n) (void (n - 1)) (void 1) = 0 := by
  rw [no_file, Option.some.injEq] at h
  rw [void_binding E n hn, ← h]
  norm_num

example (T : ℝ) : ∃ E, formation T net4 (fun _ => 0) file4 = some E ∧ Fuel.binding E (void 5) (void 4) (void 1) = 3 := by
  refine ⟨_, file4_read T _, ?_⟩
  have := void_binding ⟨5, 3, 6, 7⟩ 5 (by norm_num)
  norm_num at this ⊢
  exact this

/-- The hypotheses of `stale` are met: 100 degrees and an entropy of ten `k`. -/
example : ∃ e e', entry 1000 [0, 1, 0, 4, 10, 1, 1] = some e ∧ entry 1100 [0, 1, 0, 4, 10, 1, 1] = some e' ∧ e.g - e'.g = kB * 1000 := by
  refine ⟨_, _, rfl, rfl, ?_⟩
  rw [(stale 1000 1100 0 1 0 4 10 1 1 _ _ rfl rfl).2]
  ring

/-- The hypothesis of `missing_species` is met by a network of xenon alone. -/
example (T : ℝ) (f : ℕ → ℝ) : formation T (fun c => if c.2 = (0, 0) then some c.1 else none) f [⟨(1, 0, 0), [1, 0, 0, 7, 0, 1, 1]⟩] = none := missing_species _ _ _ _ (by simp)

end Xolotl.Network.Formation
