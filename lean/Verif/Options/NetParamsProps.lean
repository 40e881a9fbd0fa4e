import Verif.Options.NetParams
import Mathlib.Data.List.Nodup

/-!
# Properties of the network parameters
-/

namespace Xolotl.Options.NetParams

/-- Parameter lists the code can read. -/
def Admissible (p : List ℕ) : Prop := p.length = 1 ∨ 5 ≤ p.length

instance (p : List ℕ) : Decidable (Admissible p) := inferInstanceAs (Decidable (_ ∨ _))

/-- Five parameters or more. -/
theorem set_five (o : Opts) (a b c d e : ℕ) (r : List ℕ) :
    set o (a :: b :: c :: d :: e :: r) = some ⟨a :: b :: c :: d :: e :: r, a, b, c, d, e, r.headD d⟩ := by
  cases r with
  | nil => rfl
  | cons x r => simp [set]

/-- A single parameter. -/
theorem set_one (o : Opts) (a : ℕ) : set o [a] = some ⟨[a], a, 0, 0, 20, 6, 20⟩ := rfl

/-- **The parameters are read within their bounds exactly when there is one or there are at least five.** -/
theorem set_defined (o : Opts) (p : List ℕ) : (set o p).isSome = true ↔ Admissible p := by
  match p with
  | [] => simp [set, Admissible]
  | [a] => simp [set_one, Admissible]
  | [a, b] => simp [set, Admissible]
  | [a, b, c] => simp [set, Admissible]
  | [a, b, c, d] => simp [set, Admissible]
  | a :: b :: c :: d :: e :: r => simp [set_five, Admissible]

/-- **The result does not depend on any earlier call.** -/
theorem set_history (o o' : Opts) (p : List ℕ) : set o p = set o' p := by
  match p with
  | [] => rfl
  | [a] => rfl
  | [a, b] => rfl
  | [a, b, c] => rfl
  | [a, b, c, d] => rfl
  | a :: b :: c :: d :: e :: r => rw [set_five, set_five]

/-- A sequence of calls is its last call. -/
theorem set_last (o : Opts) (ps : List (List ℕ)) (p : List ℕ) (h : ∀ q ∈ ps, Admissible q) :
    (ps ++ [p]).foldlM set o = set o p := by
  induction ps generalizing o with
  | nil => simp
  | cons q ps ih =>
    rw [List.cons_append, List.foldlM_cons]
    have hq := (set_defined o q).mpr (h q (by simp))
    obtain ⟨o', ho'⟩ := Option.isSome_iff_exists.mp hq
    rw [ho']
    change (ps ++ [p]).foldlM set o' = _
    rw [ih o' fun x hx => h x (List.mem_cons_of_mem _ hx)]
    exact set_history _ _ _

/-- **The pure-vacancy maximum is the vacancy maximum unless a sixth parameter is given.** -/
theorem set_pureV {o o' : Opts} {p : List ℕ} (h : set o p = some o') : o'.pureV = p.getD 5 o'.v := by
  match p with
  | [] => simp [set] at h
  | [a] => rw [set_one] at h; cases h; rfl
  | [a, b] => simp [set] at h
  | [a, b, c] => simp [set] at h
  | [a, b, c, d] => simp [set] at h
  | a :: b :: c :: d :: e :: r =>
    rw [set_five] at h
    cases h
    cases r <;> rfl

example : set ⟨[], 9, 9, 9, 9, 9, 9⟩ [8, 1, 1, 50, 6] = some ⟨[8, 1, 1, 50, 6], 8, 1, 1, 50, 6, 50⟩ := by decide

/-- Options whose members agree with their parameters. -/
def Fresh (o : Opts) : Prop := set o o.params = some o

/-- **Alloy: one instance per requested family**, the vacancy instance without interstitials and the interstitial instance without vacancies, each with the requested size, the same loop size, and the voids in the vacancy instance. -/
theorem alloySub_spec (o : Opts) (hf : Fresh o) (h5 : 5 ≤ o.params.length) :
    ∃ l, alloySub o = some l ∧
      l.map (fun s => (s.imp, s.d, s.t, s.v, s.i)) =
        (if o.v ≠ 0 then [(o.imp, o.d, 0, o.v, 0)] else []) ++ (if o.i ≠ 0 then [(o.imp, 0, 0, 0, o.i)] else []) := by
  obtain ⟨a, b, c, d, e, r, hp⟩ : ∃ a b c d e r, o.params = a :: b :: c :: d :: e :: r := by
    match hp : o.params, h5 with
    | a :: b :: c :: d :: e :: r, _ => exact ⟨a, b, c, d, e, r, rfl⟩
  unfold Fresh at hf
  rw [hp, set_five] at hf
  simp only [Option.some.injEq] at hf
  have hv : o.v = d := by rw [← hf]
  have hi : o.i = e := by rw [← hf]
  have himp : o.imp = a := by rw [← hf]
  have hd : o.d = b := by rw [← hf]
  have e1 : set o (((((o.params.set 0 a).set 1 b).set 2 0).set 3 d).set 4 0) = some ⟨a :: b :: 0 :: d :: 0 :: r, a, b, 0, d, 0, r.headD d⟩ := by
    rw [hp]
    exact set_five o a b 0 d 0 r
  have e2 : set o (((((o.params.set 0 a).set 1 0).set 2 0).set 3 0).set 4 e) = some ⟨a :: 0 :: 0 :: 0 :: e :: r, a, 0, 0, 0, e, r.headD 0⟩ := by
    rw [hp]
    exact set_five o a 0 0 0 e r
  have g0 : o.params[0]? = some a := by rw [hp]; rfl
  have g1 : o.params[1]? = some b := by rw [hp]; rfl
  have g3 : o.params[3]? = some d := by rw [hp]; rfl
  have g4 : o.params[4]? = some e := by rw [hp]; rfl
  rw [hv, hi, himp, hd]
  unfold alloySub
  dsimp only
  rw [g0, g1, g3, g4]
  simp only [bind, Option.bind, pure]
  rw [e1, e2]
  by_cases h1 : d = 0 <;> by_cases h2 : e = 0 <;> simp [h1, h2]

/-- A list too short for the alloy instances is read out of bounds. -/
theorem alloySub_short (o : Opts) (h : o.params.length < 5) : alloySub o = none := by
  unfold alloySub
  dsimp only
  have g4 : o.params[4]? = none := List.getElem?_eq_none (by omega)
  rw [g4]
  cases o.params[0]? <;> cases o.params[1]? <;> cases o.params[3]? <;> rfl

example : alloySub ⟨[4, 3, 0, 5, 6], 4, 3, 0, 5, 6, 5⟩ = some [⟨[4, 3, 0, 5, 0], 4, 3, 0, 5, 0, 5⟩, ⟨[4, 0, 0, 0, 6], 4, 0, 0, 0, 6, 0⟩] := by decide

/-- **Finding.** Voids requested without vacancies are in no instance. -/
theorem alloySub_void_lost : alloySub ⟨[4, 3, 0, 0, 6], 4, 3, 0, 0, 6, 0⟩ = some [⟨[4, 0, 0, 0, 6], 4, 0, 0, 0, 6, 0⟩] := by decide

theorem only_getD (p : List ℕ) (k j : ℕ) : (only p k).getD j 0 = if j = k then p.getD k 0 else 0 := by
  unfold only
  by_cases hj : j < p.length
  · rw [List.getD_eq_getElem?_getD, List.getElem?_set]
    by_cases hk : k = j
    · subst hk
      simp [hj]
    · have hk' : ¬j = k := fun h => hk h.symm
      simp [hk, hk', hj]
  · rw [List.getD_eq_getElem?_getD, List.getElem?_eq_none (by simpa using hj)]
    split
    · rename_i h
      subst h
      rw [List.getD_eq_getElem?_getD, List.getElem?_eq_none (by simpa using hj)]
    · rfl

theorem only_length (p : List ℕ) (k : ℕ) : (only p k).length = p.length := by simp [only]

/-- Options from a list of parameters. -/
def made (p : List ℕ) : Opts := ⟨p, p.getD 0 0, p.getD 1 0, p.getD 2 0, p.getD 3 0, p.getD 4 0, p.getD 5 (p.getD 3 0)⟩

theorem set_made (o : Opts) (p : List ℕ) (h : 5 ≤ p.length) : set o p = some (made p) := by
  match p, h with
  | a :: b :: c :: d :: e :: r, _ =>
    rw [set_five]
    cases r <;> rfl

theorem mapM_some {α β : Type*} (f : α → Option β) (g : α → β) (l : List α) (h : ∀ x ∈ l, f x = some (g x)) : l.mapM f = some (l.map g) := by
  induction l with
  | nil => rfl
  | cons x l ih =>
    rw [List.mapM_cons, h x (by simp), ih fun y hy => h y (List.mem_cons_of_mem _ hy)]
    rfl

/-- **Zirconium: one instance for each parameter that is not zero**, with that parameter alone. -/
theorem zrSub_spec (o : Opts) (h5 : 5 ≤ o.params.length) :
    ∃ l, zrSub o = some l ∧ l.map Opts.params = ((List.range o.params.length).filter fun k => o.params.getD k 0 != 0).map (only o.params) ∧
      ∀ s ∈ l, s = made s.params := by
  refine ⟨_, mapM_some _ (fun k => made (only o.params k)) _ fun k _ => set_made o _ (by rw [only_length]; exact h5), ?_, ?_⟩
  · rw [List.map_map]
    rfl
  · intro s hs
    obtain ⟨k, _, rfl⟩ := List.mem_map.mp hs
    rfl

/-- **Zirconium: every instance has exactly one parameter that is not zero, and every requested parameter is in exactly one instance, with its requested value.** -/
theorem zrSub_cover (o : Opts) (h5 : 5 ≤ o.params.length) {l : List Opts} (h : zrSub o = some l) :
    (∀ s ∈ l, ∃ k, o.params.getD k 0 ≠ 0 ∧ ∀ j, s.params.getD j 0 = if j = k then o.params.getD k 0 else 0) ∧
    (∀ k, o.params.getD k 0 ≠ 0 → ∃ i, ∃ hi : i < l.length, l[i].params.getD k 0 = o.params.getD k 0 ∧
      ∀ j, (hj : j < l.length) → l[j].params.getD k 0 ≠ 0 → j = i) := by
  have hl : l = ((List.range o.params.length).filter fun k => o.params.getD k 0 != 0).map fun k => made (only o.params k) := by
    have := mapM_some (fun k => set o (only o.params k)) (fun k => made (only o.params k))
      ((List.range o.params.length).filter fun k => o.params.getD k 0 != 0) fun k _ => set_made o _ (by rw [only_length]; exact h5)
    unfold zrSub at h
    rw [this] at h
    exact (Option.some.inj h).symm
  subst hl
  constructor
  · intro s hs
    obtain ⟨k, hk, rfl⟩ := List.mem_map.mp hs
    refine ⟨k, by simpa using (List.mem_filter.mp hk).2, fun j => only_getD _ _ _⟩
  · intro k hk
    have hkl : k < o.params.length := by
      by_contra hc
      rw [List.getD_eq_getElem?_getD, List.getElem?_eq_none (by omega)] at hk
      exact hk rfl
    have hmem : k ∈ (List.range o.params.length).filter fun k => o.params.getD k 0 != 0 :=
      List.mem_filter.mpr ⟨List.mem_range.mpr hkl, by simpa using hk⟩
    obtain ⟨i, hi, hik⟩ := List.getElem_of_mem hmem
    refine ⟨i, by simpa using hi, ?_, ?_⟩
    · rw [List.getElem_map, hik]
      change (only o.params k).getD k 0 = _
      rw [only_getD, if_pos rfl]
    · intro j hj hne
      rw [List.getElem_map] at hne
      change (only o.params _).getD k 0 ≠ 0 at hne
      rw [only_getD] at hne
      split at hne
      · rename_i he
        have hnd : ((List.range o.params.length).filter fun k => o.params.getD k 0 != 0).Nodup :=
          List.Nodup.filter _ List.nodup_range
        exact (List.Nodup.getElem_inj_iff hnd).mp (he.symm.trans hik.symm)
      · exact absurd rfl hne

example : zrSub ⟨[3, 0, 0, 5, 6], 3, 0, 0, 5, 6, 5⟩ =
    some [⟨[3, 0, 0, 0, 0], 3, 0, 0, 0, 0, 0⟩, ⟨[0, 0, 0, 5, 0], 0, 0, 0, 5, 0, 5⟩, ⟨[0, 0, 0, 0, 6], 0, 0, 0, 0, 6, 0⟩] := by decide

/-- **Finding.** With a single network parameter the only instance still has vacancies and interstitials: setting one parameter resets both to their defaults. -/
theorem zrSub_single : zrSub ⟨[3], 3, 0, 0, 20, 6, 20⟩ = some [⟨[3], 3, 0, 0, 20, 6, 20⟩] := by decide

/-- **Finding.** A sixth parameter gives one more instance, with no species but pure vacancies. -/
theorem zrSub_pure : zrSub ⟨[0, 0, 0, 5, 0, 9], 0, 0, 0, 5, 0, 9⟩ =
    some [⟨[0, 0, 0, 5, 0, 0], 0, 0, 0, 5, 0, 0⟩, ⟨[0, 0, 0, 0, 0, 9], 0, 0, 0, 0, 0, 9⟩] := by decide

end Xolotl.Options.NetParams
