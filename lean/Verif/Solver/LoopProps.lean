import Verif.Solver.Loop
import Mathlib.Tactic.Linarith
import Mathlib.Tactic.NormNum

set_option linter.unusedSectionVars false

/-!
# Properties of the loop over the solves
-/

namespace Xolotl.Solver.Loop

variable {K : Type*} [Field K] [LinearOrder K] [IsStrictOrderedRing K]

/-- The loop before was ended by a move that is followed by a transfer of the concentrations. -/
def Carried (dim : ℕ) (moved : Bool) : Bool := moved && decide (0 < dim)

/-- The objects of a kind that the program holds. -/
def alive (k : Kind) (p : Petsc K) : ℕ := p.live.countP fun x => decide (x.1 = k)

/-- The numbers in use are below the next one. -/
def Fresh (p : Petsc K) : Prop := (∀ x ∈ p.live, x.2 < p.next) ∧ ∀ x ∈ p.texts, x.1 < p.next

/-- The objects of a solver are alive. -/
def Holds (p : Petsc K) (m : Members K) : Prop :=
  (Kind.options, m.options) ∈ p.live ∧ (Kind.grid, m.da) ∈ p.live ∧ (Kind.vec, m.c) ∈ p.live ∧ (Kind.stepper, m.ts) ∈ p.live

/-- The base of options of a solver holds its own text. -/
def Own (p : Petsc K) (s : Inst K) : Prop := ∀ m, s.members = some m → p.texts.lookup m.options = some s.text

/-- The objects after `initialize`. -/
def liveAfter (p : Petsc K) (old : Option (ℕ × ℕ)) (carry : Bool) : List (Kind × ℕ) :=
  let l := (Kind.stepper, p.next + 4) :: (Kind.mat, p.next + 3) :: (Kind.vec, p.next + 2) :: (Kind.grid, p.next + 1) :: (Kind.options, p.next) :: p.live
  match old with
  | some (a, b) => if carry then (l.erase (Kind.vec, b)).erase (Kind.grid, a) else l
  | none => l

theorem init_eq (s : Inst K) (p : Petsc K) (n : ℕ) (time : K) (old : Option (ℕ × ℕ)) (moved : Bool) :
    initialize' s p n time old moved = some
      ({ s with
          here := s.here || !p.on
          members := some ⟨p.next, p.next + 1, p.next + 2, p.next + 4,
            ⟨(if n = 0 then s.restart.getD (time, firstDt) else (time, firstDt)).1, (if n = 0 then s.restart.getD (time, firstDt) else (time, firstDt)).2, 0,
              s.text.maxTime, s.text.maxDt⟩, none,
            if Carried s.dim moved then .carried else if s.restart.isSome then .file else .given⟩ },
        ⟨true, p.next + 5, liveAfter p old (Carried s.dim moved), p.stack, (p.next, s.text) :: p.texts⟩) := by
  rcases old with _ | ⟨a, b⟩
  · simp [initialize', make, push, top, pop, liveAfter, Carried, List.lookup]
  · by_cases hc : (moved && decide (0 < s.dim)) = true
    · simp [initialize', make, push, top, pop, liveAfter, Carried, List.lookup, unmake, hc]
    · simp only [Bool.not_eq_true] at hc
      simp [initialize', make, push, top, pop, liveAfter, Carried, List.lookup, hc]

theorem mem_liveAfter {p : Petsc K} {old : Option (ℕ × ℕ)} {carry : Bool} {x : Kind × ℕ} (h : x ∈ liveAfter p old carry) :
    x ∈ p.live ∨ p.next ≤ x.2 ∧ x.2 < p.next + 5 := by
  have key : x ∈ (Kind.stepper, p.next + 4) :: (Kind.mat, p.next + 3) :: (Kind.vec, p.next + 2) :: (Kind.grid, p.next + 1) :: (Kind.options, p.next) :: p.live := by
    unfold liveAfter at h
    rcases old with _ | ⟨a, b⟩
    · exact h
    · cases carry
      · exact h
      · exact List.mem_of_mem_erase (List.mem_of_mem_erase h)
  simp only [List.mem_cons] at key
  rcases key with rfl | rfl | rfl | rfl | rfl | h
  all_goals first | exact Or.inl h | (right; constructor <;> (dsimp only; omega))

theorem fresh_init {p : Petsc K} (hf : Fresh p) (s : Inst K) (old : Option (ℕ × ℕ)) (c : Bool) :
    Fresh (⟨true, p.next + 5, liveAfter p old c, p.stack, (p.next, s.text) :: p.texts⟩ : Petsc K) := by
  refine ⟨fun x hx => ?_, fun x hx => ?_⟩
  · rcases mem_liveAfter hx with h | h
    · have := hf.1 x h
      show x.2 < p.next + 5
      omega
    · exact h.2
  · rcases List.mem_cons.1 hx with rfl | h
    · show p.next < p.next + 5
      omega
    · have := hf.2 x h
      show x.1 < p.next + 5
      omega

/-- Objects that stay alive in `initialize`. -/
theorem kept {p : Petsc K} {old : Option (ℕ × ℕ)} {carry : Bool} {x : Kind × ℕ}
    (h : x ∈ (Kind.stepper, p.next + 4) :: (Kind.mat, p.next + 3) :: (Kind.vec, p.next + 2) :: (Kind.grid, p.next + 1) :: (Kind.options, p.next) :: p.live)
    (ho : ∀ a b, old = some (a, b) → x ≠ (Kind.vec, b) ∧ x ≠ (Kind.grid, a)) : x ∈ liveAfter p old carry := by
  unfold liveAfter
  rcases old with _ | ⟨a, b⟩
  · exact h
  · obtain ⟨h1, h2⟩ := ho a b rfl
    cases carry
    · exact h
    · exact (List.mem_erase_of_ne h2).2 ((List.mem_erase_of_ne h1).2 h)

theorem alive_liveAfter {p : Petsc K} (k : Kind) (a b : ℕ) (carry : Bool) (ha : (Kind.grid, a) ∈ p.live) (hb : (Kind.vec, b) ∈ p.live) :
    (liveAfter p (some (a, b)) carry).countP (fun x => decide (x.1 = k)) + (if carry ∧ (k = .grid ∨ k = .vec) then 1 else 0) = alive k p + 1 := by
  have hc : ∀ l : List (Kind × ℕ), (((Kind.stepper, p.next + 4) :: (Kind.mat, p.next + 3) :: (Kind.vec, p.next + 2) :: (Kind.grid, p.next + 1) :: (Kind.options, p.next) :: l).countP
      (fun x => decide (x.1 = k))) = l.countP (fun x => decide (x.1 = k)) + 1 := by
    intro l
    cases k <;> simp
  have hal : ∀ x : Kind × ℕ, x ∈ p.live → decide (x.1 = k) = true → 1 ≤ alive k p := fun x hx hk =>
    List.countP_pos_iff.2 ⟨x, hx, hk⟩
  unfold liveAfter
  cases carry
  · simp only [Bool.false_eq_true, if_false, false_and, hc, add_zero]
    rfl
  · simp only [if_true, true_and]
    have m1 : (Kind.vec, b) ∈ (Kind.stepper, p.next + 4) :: (Kind.mat, p.next + 3) :: (Kind.vec, p.next + 2) :: (Kind.grid, p.next + 1) :: (Kind.options, p.next) :: p.live := by
      simp [hb]
    have m2 : (Kind.grid, a) ∈ ((Kind.stepper, p.next + 4) :: (Kind.mat, p.next + 3) :: (Kind.vec, p.next + 2) :: (Kind.grid, p.next + 1) :: (Kind.options, p.next) :: p.live).erase (Kind.vec, b) :=
      (List.mem_erase_of_ne (by simp)).2 (by simp [ha])
    rw [List.countP_erase, List.countP_erase, hc]
    have h1 := hal _ ha
    have h2 := hal _ hb
    have e : p.live.countP (fun x => decide (x.1 = k)) = alive k p := rfl
    rw [e]
    cases k <;> simp_all

/-! ### One turn of the loop -/

theorem enter_some (s : Inst K) (p : Petsc K) (n : ℕ) (time : K) (old : Option (ℕ × ℕ)) (moved : Bool) (hm : n = 0 → s.members.isSome) :
    ∃ s1 p1 m, (if 0 < n then initialize' s p n time old moved else some (s, p)) = some (s1, p1) ∧ s1.members = some m ∧
      s1.text = s.text ∧ s1.dim = s.dim ∧ s1.restart = s.restart ∧ p1.stack = p.stack ∧ (n = 0 → s1 = s ∧ p1 = p) ∧
      (0 < n → m.stepper = ⟨time, firstDt, 0, s.text.maxTime, s.text.maxDt⟩ ∧
        m.source = (if Carried s.dim moved then .carried else if s.restart.isSome then .file else .given) ∧
        p1 = ⟨true, p.next + 5, liveAfter p old (Carried s.dim moved), p.stack, (p.next, s.text) :: p.texts⟩ ∧
        m.options = p.next ∧ m.da = p.next + 1 ∧ m.c = p.next + 2 ∧ m.ts = p.next + 4) := by
  rcases Nat.eq_zero_or_pos n with h | h
  · obtain ⟨m, h2⟩ := Option.isSome_iff_exists.1 (hm h)
    refine ⟨s, p, m, by simp [h], h2, rfl, rfl, rfl, rfl, fun _ => ⟨rfl, rfl⟩, fun h' => absurd h' (by omega)⟩
  · have hn : n ≠ 0 := by omega
    rw [if_pos h, init_eq]
    refine ⟨_, _, _, rfl, rfl, rfl, rfl, rfl, rfl, fun h' => absurd h' hn, fun _ => ⟨?_, rfl, rfl, rfl, rfl, rfl, rfl⟩⟩
    simp [hn]

/-- The values before the steps of a loop. -/
def start (here : Bool) (t : Stepper K) : Stepper K := if here then t else { t with step := 0 }

theorem loop_cons (s : Inst K) (p : Petsc K) (n : ℕ) (time : K) (old : Option (ℕ × ℕ)) (moved : Bool) (o : Outcome K) (outs : List (Outcome K))
    {s1 : Inst K} {p1 : Petsc K} {m : Members K} (he : (if 0 < n then initialize' s p n time old moved else some (s, p)) = some (s1, p1)) (hm : s1.members = some m) :
    loop s p n time old moved (o :: outs) =
      if o.reason = .user then
        (loop (runTS s1 m o n).1 ⟨p1.on, p1.next + 2, (Kind.vec, p1.next + 1) :: (Kind.grid, p1.next) :: p1.live, p1.stack, p1.texts⟩
          (n + 1) o.time (some (p1.next, p1.next + 1)) o.moved outs).map fun r => (r.1, r.2.1, (runTS s1 m o n).2 :: r.2.2)
      else some ((runTS s1 m o n).1, p1, [(runTS s1 m o n).2]) := by
  simp only [loop, he, Option.bind_some, hm]
  split
  · rfl
  · rfl

/-- The origin of the concentrations after a loop that ended with `moved`. -/
def origin (s : Inst K) (moved : Bool) : Source := if Carried s.dim moved then .carried else if s.restart.isSome then .file else .given

/-- The loops, given the values at the beginning of the first one. -/
def turns (s : Inst K) (n : ℕ) (first : Stepper K) (src : Source) : List (Outcome K) → List (Segment K)
  | [] => []
  | o :: outs =>
    ⟨n, first, { first with time := o.time, dt := o.dt, step := first.step + o.steps }, src, o.reason⟩ ::
      turns s (n + 1) ⟨o.time, firstDt, 0, s.text.maxTime, s.text.maxDt⟩ (origin s o.moved) outs

theorem turns_congr {s s' : Inst K} (h1 : s'.text = s.text) (h2 : s'.dim = s.dim) (h3 : s'.restart = s.restart) (outs : List (Outcome K)) :
    ∀ n first src, turns s' n first src outs = turns s n first src outs := by
  induction outs with
  | nil => intros; rfl
  | cons o outs ih =>
    intro n first src
    simp only [turns, origin, h1, h2, h3, ih]

theorem start_zero (here : Bool) (t : Stepper K) (h : t.step = 0) : start here t = t := by
  cases here
  · cases t
    simp_all [start]
  · rfl

theorem runTS_eq (s : Inst K) (m : Members K) (o : Outcome K) (n : ℕ) :
    runTS s m o n =
      ({ s with members := some { m with stepper := { start s.here m.stepper with time := o.time, dt := o.dt, step := (start s.here m.stepper).step + o.steps }, reason := some o.reason } },
        ⟨n, start s.here m.stepper, { start s.here m.stepper with time := o.time, dt := o.dt, step := (start s.here m.stepper).step + o.steps }, m.source, o.reason⟩) := rfl

theorem loop_spec (us : List (Outcome K)) (o : Outcome K) (rest : List (Outcome K)) (ho : o.reason ≠ .user) :
    ∀ (s : Inst K) (p : Petsc K) (n : ℕ) (time : K) (old : Option (ℕ × ℕ)) (moved : Bool) (_ : n = 0 → s.members.isSome) (_ : ∀ u ∈ us, u.reason = .user),
      ∃ s' p' m' segs, loop s p n time old moved (us ++ o :: rest) = some (s', p', segs) ∧ s'.members = some m' ∧ m'.reason = some o.reason ∧
        s'.text = s.text ∧ s'.dim = s.dim ∧ s'.restart = s.restart ∧ p'.stack = p.stack ∧
        (∀ m, n = 0 → s.members = some m → segs = turns s 0 (start s.here m.stepper) m.source (us ++ [o])) ∧
        (0 < n → segs = turns s n ⟨time, firstDt, 0, s.text.maxTime, s.text.maxDt⟩ (origin s moved) (us ++ [o])) := by
  induction us with
  | nil =>
    intro s p n time old moved hm hu
    obtain ⟨s1, p1, m, he, hm1, ht, hd, hr, hst, h0, hn⟩ := enter_some s p n time old moved hm
    rw [List.nil_append, loop_cons s p n time old moved o rest he hm1, if_neg ho, runTS_eq]
    refine ⟨_, _, _, _, rfl, rfl, rfl, ht, hd, hr, hst, ?_, ?_⟩
    · intro m' hz hm'
      obtain ⟨rfl, rfl⟩ := h0 hz
      rw [hm1] at hm'
      cases hm'
      subst hz
      rfl
    · intro hp
      obtain ⟨e1, e2, _⟩ := hn hp
      rw [start_zero _ _ (by rw [e1]), e1, e2]
      rfl
  | cons u us ih =>
    intro s p n time old moved hm hu
    obtain ⟨s1, p1, m, he, hm1, ht, hd, hr, hst, h0, hn⟩ := enter_some s p n time old moved hm
    rw [List.cons_append, loop_cons s p n time old moved u (us ++ o :: rest) he hm1, if_pos (hu u List.mem_cons_self)]
    obtain ⟨s', p', m', segs, e, hm', hr', ht', hd', hrs', hst', _, hp'⟩ := ih (runTS s1 m u n).1
      ⟨p1.on, p1.next + 2, (Kind.vec, p1.next + 1) :: (Kind.grid, p1.next) :: p1.live, p1.stack, p1.texts⟩ (n + 1) u.time (some (p1.next, p1.next + 1)) u.moved
      (by omega) (fun v hv => hu v (List.mem_cons_of_mem _ hv))
    rw [e]
    have q1 : (runTS s1 m u n).1.text = s.text := ht
    have q2 : (runTS s1 m u n).1.dim = s.dim := hd
    have q3 : (runTS s1 m u n).1.restart = s.restart := hr
    have hsegs := hp' (by omega)
    rw [turns_congr q1 q2 q3, q1] at hsegs
    have q4 : origin (runTS s1 m u n).1 u.moved = origin s u.moved := by simp only [origin, q2, q3]
    rw [q4] at hsegs
    refine ⟨s', p', m', _, rfl, hm', hr', ht'.trans q1, hd'.trans q2, hrs'.trans q3, hst'.trans hst, ?_, ?_⟩
    · intro m2 hz hm2
      obtain ⟨rfl, rfl⟩ := h0 hz
      rw [hm1] at hm2
      cases hm2
      subst hz
      simp only [hsegs]
      rfl
    · intro hp
      obtain ⟨e1, e2, _⟩ := hn hp
      simp only [hsegs, runTS_eq]
      rw [start_zero _ _ (by rw [e1]), e1, e2]
      rfl

/-- A list of outcomes has a first one that is not a move of the surface. -/
theorem split_outs {outs : List (Outcome K)} (h : ∃ o ∈ outs, o.reason ≠ .user) :
    ∃ us o rest, outs = us ++ o :: rest ∧ (∀ u ∈ us, u.reason = .user) ∧ o.reason ≠ .user := by
  induction outs with
  | nil => obtain ⟨o, h, _⟩ := h; cases h
  | cons u outs ih =>
    by_cases hu : u.reason = .user
    · obtain ⟨o, hm, ho⟩ := h
      rcases List.mem_cons.1 hm with rfl | hm
      · exact absurd hu ho
      · obtain ⟨us, o', rest, rfl, h1, h2⟩ := ih ⟨o, hm, ho⟩
        exact ⟨u :: us, o', rest, rfl, fun v hv => (List.mem_cons.1 hv).elim (fun e => e ▸ hu) (h1 v), h2⟩
    · exact ⟨[], u, outs, rfl, fun _ h => absurd h List.not_mem_nil, hu⟩

theorem loop_all_user (outs : List (Outcome K)) (h : ∀ o ∈ outs, o.reason = .user) :
    ∀ (s : Inst K) (p : Petsc K) (n : ℕ) (time : K) (old : Option (ℕ × ℕ)) (moved : Bool) (_ : n = 0 → s.members.isSome), loop s p n time old moved outs = none := by
  induction outs with
  | nil => intros; rfl
  | cons o outs ih =>
    intro s p n time old moved hm
    obtain ⟨s1, p1, m, he, hm1, _⟩ := enter_some s p n time old moved hm
    rw [loop_cons s p n time old moved o outs he hm1, if_pos (h o List.mem_cons_self), ih (fun v hv => h v (List.mem_cons_of_mem _ hv)) _ _ _ _ _ _ (by omega)]
    rfl

/-! ### Ends and reasons -/

theorem solve_spec (s : Inst K) (p : Petsc K) (us : List (Outcome K)) (o : Outcome K) (rest : List (Outcome K)) (m : Members K) (hs : s.members = some m)
    (hu : ∀ u ∈ us, u.reason = .user) (ho : o.reason ≠ .user) :
    ∃ r m', solve s p (us ++ o :: rest) = some r ∧ r.solver.members = some m' ∧ m'.reason = some o.reason ∧ r.solver.text = s.text ∧ r.solver.dim = s.dim ∧
      r.solver.restart = s.restart ∧ r.petsc.stack = p.stack ∧ r.segments = turns s 0 (start s.here m.stepper) m.source (us ++ [o]) := by
  obtain ⟨s', p', m', segs, e, h1, h2, h3, h4, h5, h6, h7, _⟩ := loop_spec us o rest ho s (push m.options p) 0 0 none false (fun _ => by rw [hs]; rfl) hu
  refine ⟨⟨s', pop p', segs, if hasName "-check_collapse" p' then some (status o.reason) else none⟩, m', ?_, h1, h2, h3, h4, h5, ?_, h7 m rfl hs⟩
  · simp only [solve, hs, Option.bind_some, e, h1, h2, Option.map_some]
  · show p'.stack.tail = p.stack
    rw [h6]
    rfl

/-- **C85, the loop ends.** A solver that was initialized leaves `solve` exactly if some call of `TSSolve` ends for another reason than that of a move of the surface. -/
theorem solve_ends (s : Inst K) (p : Petsc K) (outs : List (Outcome K)) (hs : s.members.isSome) :
    (solve s p outs).isSome ↔ ∃ o ∈ outs, o.reason ≠ .user := by
  obtain ⟨m, hm⟩ := Option.isSome_iff_exists.1 hs
  constructor
  · intro h
    by_contra hc
    push Not at hc
    have := loop_all_user outs hc s (push m.options p) 0 0 none false (fun _ => hs)
    simp [solve, hm, this] at h
  · intro h
    obtain ⟨us, o, rest, rfl, hu, ho⟩ := split_outs h
    obtain ⟨r, _, e, _⟩ := solve_spec s p us o rest m hm hu ho
    rw [e]
    rfl

theorem solve_split {s : Inst K} {p : Petsc K} {outs : List (Outcome K)} {r : Result K} (h : solve s p outs = some r) :
    ∃ m us o rest, s.members = some m ∧ outs = us ++ o :: rest ∧ (∀ u ∈ us, u.reason = .user) ∧ o.reason ≠ .user := by
  have hs : s.members.isSome := by
    cases hm : s.members with
    | none => simp [solve, hm] at h
    | some m => rfl
  obtain ⟨m, hm⟩ := Option.isSome_iff_exists.1 hs
  obtain ⟨us, o, rest, e, hu, ho⟩ := split_outs ((solve_ends s p outs hs).1 (by rw [h]; rfl))
  exact ⟨m, us, o, rest, hm, e, hu, ho⟩

/-- **C85, convergence is always reported.** Whatever the reasons for which the last calls of `TSSolve` ended on the processes, an error of the nonlinear solver included, `getConvergenceStatus` answers `true` once `solve` is left. -/
theorem reported (runs : List (Inst K × Petsc K × List (Outcome K))) (results : List (Result K)) (reasons : List Reason)
    (h : runs.map (fun x => solve x.1 x.2.1 x.2.2) = results.map some)
    (hr : results.map (fun r => r.solver.members.bind Members.reason) = reasons.map some) : converged reasons = true := by
  have key : ∀ q ∈ reasons, q ≠ .user := by
    intro q hq
    have : some q ∈ results.map (fun r => r.solver.members.bind Members.reason) := by
      rw [hr]
      exact List.mem_map_of_mem hq
    obtain ⟨r, hrm, e⟩ := List.mem_map.1 this
    have : some r ∈ runs.map (fun x => solve x.1 x.2.1 x.2.2) := by
      rw [h]
      exact List.mem_map_of_mem hrm
    obtain ⟨x, _, ex⟩ := List.mem_map.1 this
    obtain ⟨m, us, o, rest, hm, eo, hu, ho⟩ := solve_split ex
    rw [eo] at ex
    obtain ⟨r', m', e', h1, h2, _⟩ := solve_spec x.1 x.2.1 us o rest m hm hu ho
    rw [e'] at ex
    cases ex
    rw [h1, Option.bind_some, h2] at e
    cases e
    exact ho
  unfold converged
  rw [Bool.not_eq_true', List.any_eq_false]
  intro q hq
  simpa using key q hq

/-- **C85, the answer in general.** The answer is `false` exactly if some process stopped for a move of the surface. -/
theorem converged_iff (reasons : List Reason) : converged reasons = false ↔ Reason.user ∈ reasons := by
  simp [converged]

/-! ### What each loop begins with -/

theorem turns_length (s : Inst K) (outs : List (Outcome K)) : ∀ n first src, (turns s n first src outs).length = outs.length := by
  induction outs with
  | nil => intros; rfl
  | cons o outs ih => intro n first src; simp [turns, ih]

theorem turns_head (s : Inst K) (outs : List (Outcome K)) (n : ℕ) (first : Stepper K) (src : Source) (x : Segment K)
    (h : (turns s n first src outs)[0]? = some x) : x.first = first ∧ x.source = src ∧ x.loop = n := by
  cases outs with
  | nil => simp [turns] at h
  | cons o outs =>
    simp only [turns, List.getElem?_cons_zero, Option.some.injEq] at h
    subst h
    exact ⟨rfl, rfl, rfl⟩

theorem turns_next (s : Inst K) (outs : List (Outcome K)) : ∀ (n : ℕ) (first : Stepper K) (src : Source) (i : ℕ) (x y : Segment K) (o : Outcome K),
    (turns s n first src outs)[i]? = some x → (turns s n first src outs)[i + 1]? = some y → outs[i]? = some o →
      y.loop = x.loop + 1 ∧ y.first = ⟨x.last.time, firstDt, 0, s.text.maxTime, s.text.maxDt⟩ ∧ y.source = origin s o.moved := by
  induction outs with
  | nil => intro n first src i x y o h; simp [turns] at h
  | cons u outs ih =>
    intro n first src i x y o hx hy ho
    cases i with
    | zero =>
      simp only [turns, List.getElem?_cons_zero, Option.some.injEq, List.getElem?_cons_succ, zero_add] at hx hy ho
      obtain ⟨h1, h2, h3⟩ := turns_head s outs _ _ _ y hy
      subst hx
      subst ho
      exact ⟨h3, h1, h2⟩
    | succ i =>
      simp only [turns, List.getElem?_cons_succ] at hx hy ho
      exact ih _ _ _ i x y o hx hy ho

theorem turns_last (s : Inst K) (outs : List (Outcome K)) : ∀ (n : ℕ) (first : Stepper K) (src : Source) (i : ℕ) (x : Segment K) (o : Outcome K),
    (turns s n first src outs)[i]? = some x → outs[i]? = some o →
      x.last.time = o.time ∧ x.last.dt = o.dt ∧ x.last.step = x.first.step + o.steps ∧ x.last.maxTime = x.first.maxTime ∧ x.last.maxDt = x.first.maxDt ∧ x.reason = o.reason := by
  induction outs with
  | nil => intro n first src i x o h; simp [turns] at h
  | cons u outs ih =>
    intro n first src i x o hx ho
    cases i with
    | zero =>
      simp only [turns, List.getElem?_cons_zero, Option.some.injEq] at hx ho
      subst hx
      subst ho
      exact ⟨rfl, rfl, rfl, rfl, rfl, rfl⟩
    | succ i =>
      simp only [turns, List.getElem?_cons_succ] at hx ho
      exact ih _ _ _ i x o hx ho

/-- **C85, the first loop.** It begins with the values of the `TS` (the number of the step is set to 0 if somebody else initialized PETSc), and with the concentrations of `initialize`. -/
theorem first_loop {s : Inst K} {p : Petsc K} {outs : List (Outcome K)} {r : Result K} {m : Members K} (h : solve s p outs = some r) (hm : s.members = some m) :
    ∃ x, r.segments[0]? = some x ∧ x.loop = 0 ∧ x.source = m.source ∧ x.first = ⟨m.stepper.time, m.stepper.dt, if s.here then m.stepper.step else 0, m.stepper.maxTime, m.stepper.maxDt⟩ := by
  obtain ⟨m', us, o, rest, hm', rfl, hu, ho⟩ := solve_split h
  rw [hm] at hm'
  cases hm'
  obtain ⟨r', _, e, _, _, _, _, _, _, hs⟩ := solve_spec s p us o rest m hm hu ho
  rw [h] at e
  cases e
  have hl : 0 < r.segments.length := by
    rw [hs, turns_length]
    simp
  obtain ⟨x, hx⟩ : ∃ x, r.segments[0]? = some x := ⟨_, List.getElem?_eq_getElem hl⟩
  refine ⟨x, hx, ?_⟩
  rw [hs] at hx
  obtain ⟨h1, h2, h3⟩ := turns_head _ _ _ _ _ _ hx
  refine ⟨h3, h2, ?_⟩
  rw [h1]
  cases hh : s.here <;> simp [start]

/-- **C85, the next loops.** The loops follow each other: a loop that is not the last one ended because the surface moved, and the next one begins at the time where it stopped, with a time step of 1.0e-12, with step 0, and with the limits of the options.  Its concentrations are those of the loop before exactly if the offset of the surface is not 0 and there is a grid; otherwise they are read from the restart file again, or are those of the options. -/
theorem next_loop {s : Inst K} {p : Petsc K} {outs : List (Outcome K)} {r : Result K} (h : solve s p outs = some r) (i : ℕ) (x y : Segment K) (o : Outcome K)
    (hx : r.segments[i]? = some x) (hy : r.segments[i + 1]? = some y) (ho : outs[i]? = some o) :
    x.reason = .user ∧ x.last.time = o.time ∧ y.loop = x.loop + 1 ∧ y.first = ⟨o.time, 1 / 10 ^ 12, 0, s.text.maxTime, s.text.maxDt⟩ ∧
      (y.source = .carried ↔ o.moved = true ∧ s.dim ≠ 0) ∧ (y.source = .file ↔ ¬ (o.moved = true ∧ s.dim ≠ 0) ∧ s.restart.isSome) := by
  obtain ⟨m, us, o', rest, hm, rfl, hu, ho'⟩ := solve_split h
  obtain ⟨r', _, e, _, _, _, _, _, _, hs⟩ := solve_spec s p us o' rest m hm hu ho'
  rw [h] at e
  cases e
  have hl : i + 1 < us.length + 1 := by
    have := (List.getElem?_eq_some_iff.1 hy).1
    rw [hs, turns_length] at this
    simpa using this
  have hi : i < us.length := by omega
  rw [List.getElem?_append_left hi] at ho
  have ho2 : (us ++ [o'])[i]? = some o := by rw [List.getElem?_append_left hi, ho]
  rw [hs] at hx hy
  obtain ⟨h1, h2, h3⟩ := turns_next _ _ _ _ _ i x y o hx hy ho2
  obtain ⟨g1, _, _, _, _, g6⟩ := turns_last _ _ _ _ _ i x o hx ho2
  refine ⟨g6.trans (hu o (List.mem_of_getElem? ho)), g1, h1, ?_, ?_, ?_⟩
  · rw [h2, g1]
    rfl
  · rw [h3]
    unfold origin Carried
    cases o.moved <;> rcases Nat.eq_zero_or_pos s.dim with hd | hd <;> cases s.restart <;> simp [hd] <;> try omega
  · rw [h3]
    unfold origin Carried
    cases o.moved <;> rcases Nat.eq_zero_or_pos s.dim with hd | hd <;> cases s.restart <;> simp [hd] <;> try omega

/-- **C85, one loop.** Each loop ends as `TSSolve` does, and the limits stay as they are in it. -/
theorem one_loop {s : Inst K} {p : Petsc K} {outs : List (Outcome K)} {r : Result K} (h : solve s p outs = some r) (i : ℕ) (x : Segment K)
    (hx : r.segments[i]? = some x) : ∃ o, outs[i]? = some o ∧ x.reason = o.reason ∧
      x.last = ⟨o.time, o.dt, x.first.step + o.steps, x.first.maxTime, x.first.maxDt⟩ ∧ (i + 1 = r.segments.length ↔ o.reason ≠ .user) := by
  obtain ⟨m, us, o', rest, hm, rfl, hu, ho'⟩ := solve_split h
  obtain ⟨r', _, e, _, _, _, _, _, _, hs⟩ := solve_spec s p us o' rest m hm hu ho'
  rw [h] at e
  cases e
  have hlen : r.segments.length = us.length + 1 := by rw [hs, turns_length]; simp
  have hi : i < us.length + 1 := by
    have := (List.getElem?_eq_some_iff.1 hx).1
    omega
  have hl : i < (us ++ [o']).length := by simpa using hi
  have ho := List.getElem?_eq_getElem hl
  rw [hs] at hx
  obtain ⟨g1, g2, g3, g4, g5, g6⟩ := turns_last _ _ _ _ _ i x _ hx ho
  have hout : (us ++ o' :: rest)[i]? = some (us ++ [o'])[i] := by
    rw [← ho]
    rcases Nat.lt_or_ge i us.length with hlt | hge
    · rw [List.getElem?_append_left hlt, List.getElem?_append_left hlt]
    · have : i = us.length := by omega
      subst this
      simp
  refine ⟨_, hout, g6, ?_, ?_⟩
  · rw [← g1, ← g2, ← g3, ← g4, ← g5]
  · rw [hlen]
    rcases Nat.lt_or_ge i us.length with hlt | hge
    · have : (us ++ [o'])[i].reason = .user := by
        rw [List.getElem_append_left hlt]
        exact hu _ (List.getElem_mem hlt)
      simp [this]
      omega
    · have he : i = us.length := by omega
      subst he
      simp [ho']

/-- **C85, the limits are lost.** After `setTimes` the first loop runs with the limits that were set; if the surface moves, the next loop runs with those of the options, and goes past the final time if the options allow it. -/
theorem limits_lost {s s' : Inst K} {p : Petsc K} {finalTime dt : K} {outs : List (Outcome K)} {r : Result K} (hset : setTimes s finalTime dt = some s') (h : solve s' p outs = some r)
    (x y : Segment K) (hx : r.segments[0]? = some x) (hy : r.segments[1]? = some y) :
    x.first.maxTime = finalTime ∧ x.first.maxDt = dt ∧ y.first.maxTime = s.text.maxTime ∧ y.first.maxDt = s.text.maxDt := by
  unfold setTimes at hset
  obtain ⟨m, hm, rfl⟩ := Option.map_eq_some_iff.1 hset
  obtain ⟨x', hx', _, _, hf⟩ := first_loop h rfl
  rw [hx] at hx'
  cases hx'
  obtain ⟨o, ho, _⟩ := one_loop h 0 x hx
  obtain ⟨_, _, _, hy', _⟩ := next_loop h 0 x y o hx hy ho
  rw [hf, hy']
  exact ⟨rfl, rfl, rfl, rfl⟩

/-! ### The bases of options and the status file -/

/-- A text keeps its number while other solvers are initialized. -/
theorem lookup_kept {p : Petsc K} (hf : Fresh p) {i : ℕ} {t u : Opts K} (h : p.texts.lookup i = some t) : ((p.next, u) :: p.texts).lookup i = some t := by
  have hi : i < p.next := by
    have : (i, t) ∈ p.texts := by
      revert h
      generalize p.texts = l
      induction l with
      | nil => simp
      | cons x l ih =>
        obtain ⟨a, b⟩ := x
        intro h
        rw [List.lookup_cons] at h
        by_cases hb : (i == a) = true
        · rw [hb] at h
          simp only [Option.some.injEq] at h
          have := eq_of_beq hb
          subst this
          subst h
          exact List.mem_cons_self
        · simp only [Bool.not_eq_true] at hb
          rw [hb] at h
          exact List.mem_cons_of_mem _ (ih h)
    exact hf.2 _ this
  rw [List.lookup_cons]
  have : (i == p.next) = false := by
    rw [beq_eq_false_iff_ne]
    omega
  rw [this]
  exact h

/-- **C85, initializing.** `initialize` always succeeds, leaves the stack of options as it was, and gives the solver a base with its own text, from which the limits are taken; the texts of the other solvers stay.  The times are those of the restart file in the first loop, and those given to it in the others. -/
theorem init_ok (s : Inst K) (p : Petsc K) (hf : Fresh p) (n : ℕ) (time : K) (old : Option (ℕ × ℕ)) (moved : Bool) :
    ∃ s' p' m, initialize' s p n time old moved = some (s', p') ∧ s'.members = some m ∧ s'.text = s.text ∧ Own p' s' ∧ Fresh p' ∧ p'.stack = p.stack ∧ p'.on = true ∧
      (s'.here = true ↔ s.here = true ∨ p.on = false) ∧ (∀ t : Inst K, Own p t → Own p' t) ∧
      m.stepper.maxTime = s.text.maxTime ∧ m.stepper.maxDt = s.text.maxDt ∧ m.stepper.step = 0 ∧
      (∀ a b, n = 0 → s.restart = some (a, b) → m.stepper.time = a ∧ m.stepper.dt = b) ∧
      (n ≠ 0 ∨ s.restart = none → m.stepper.time = time ∧ m.stepper.dt = 1 / 10 ^ 12) := by
  refine ⟨_, _, _, init_eq s p n time old moved, rfl, rfl, ?_, fresh_init hf s old _, rfl, rfl, ?_, ?_, rfl, rfl, rfl, ?_, ?_⟩
  · intro m hm
    cases hm
    simp
  · cases s.here <;> cases p.on <;> simp
  · intro t ht m hm
    exact lookup_kept hf (ht m hm)
  · intro a b hn hr
    simp [hn, hr]
  · rintro (hn | hr)
    · simp [hn, firstDt]
    · simp [hr, firstDt]

theorem loop_texts (us : List (Outcome K)) (o : Outcome K) (rest : List (Outcome K)) (ho : o.reason ≠ .user) :
    ∀ (s : Inst K) (p : Petsc K) (n : ℕ) (time : K) (old : Option (ℕ × ℕ)) (moved : Bool) (s' : Inst K) (p' : Petsc K) (segs : List (Segment K))
      (_ : n = 0 → s.members.isSome) (_ : n = 0 → Own p s) (_ : ∀ u ∈ us, u.reason = .user) (_ : Fresh p),
      loop s p n time old moved (us ++ o :: rest) = some (s', p', segs) → Fresh p' ∧ Own p' s' ∧ (∀ i t, p.texts.lookup i = some t → p'.texts.lookup i = some t) ∧
        (p.on = true ∨ 0 < n → p'.on = true) ∧ (s'.here = true → s.here = true ∨ p.on = false) ∧ (s.here = true → s'.here = true) := by
  induction us with
  | nil =>
    intro s p n time old moved s' p' segs hm hown hu hf h
    obtain ⟨s1, p1, m, he, hm1, ht, hd, hr, hst, h0, hn⟩ := enter_some s p n time old moved hm
    rw [List.nil_append, loop_cons s p n time old moved o rest he hm1, if_neg ho, runTS_eq] at h
    simp only [Option.some.injEq, Prod.mk.injEq] at h
    obtain ⟨rfl, rfl, rfl⟩ := h
    rcases Nat.eq_zero_or_pos n with hz | hz
    · obtain ⟨rfl, rfl⟩ := h0 hz
      refine ⟨hf, ?_, fun i t h => h, fun h => h.elim id (fun h => absurd h (by omega)), fun h => Or.inl h, fun h => h⟩
      intro m' hm'
      cases hm'
      exact hown hz m hm1
    · obtain ⟨s2, p2, m2, e2, g1, g2, g3, g4, g5, g6, g7, g8, _⟩ := init_ok s p hf n time old moved
      rw [if_pos hz, e2] at he
      simp only [Option.some.injEq, Prod.mk.injEq] at he
      obtain ⟨rfl, rfl⟩ := he
      refine ⟨g4, ?_, fun i t h => ?_, fun _ => g6, fun h => g7.1 h, fun h => g7.2 (Or.inl h)⟩
      · intro m' hm'
        cases hm'
        exact g3 m hm1
      · rw [(hn hz).2.2.1]
        exact lookup_kept hf h
  | cons u us ih =>
    intro s p n time old moved s' p' segs hm hown hu hf h
    obtain ⟨s1, p1, m, he, hm1, ht, hd, hr, hst, h0, hn⟩ := enter_some s p n time old moved hm
    rw [List.cons_append, loop_cons s p n time old moved u (us ++ o :: rest) he hm1, if_pos (hu u List.mem_cons_self)] at h
    obtain ⟨⟨s2, p2, segs2⟩, e2, e3⟩ := Option.map_eq_some_iff.1 h
    simp only [Prod.mk.injEq] at e3
    obtain ⟨rfl, rfl, rfl⟩ := e3
    have hf1 : Fresh p1 := by
      rcases Nat.eq_zero_or_pos n with hz | hz
      · rw [(h0 hz).2]; exact hf
      · rw [(hn hz).2.2.1]; exact fresh_init hf s old _
    have hf2 : Fresh (⟨p1.on, p1.next + 2, (Kind.vec, p1.next + 1) :: (Kind.grid, p1.next) :: p1.live, p1.stack, p1.texts⟩ : Petsc K) := by
      refine ⟨fun x hx => ?_, fun x hx => ?_⟩
      · simp only [List.mem_cons] at hx
        show x.2 < p1.next + 2
        rcases hx with rfl | rfl | hx
        · show p1.next + 1 < p1.next + 2
          omega
        · show p1.next < p1.next + 2
          omega
        · have := hf1.1 x hx
          omega
      · have := hf1.2 x hx
        show x.1 < p1.next + 2
        omega
    obtain ⟨k1, k2, k3, k4, k5, k6⟩ := ih _ _ _ _ _ _ _ _ _ (by omega) (by omega) (fun v hv => hu v (List.mem_cons_of_mem _ hv)) hf2 e2
    have hon : p.on = true ∨ 0 < n → p1.on = true := by
      rcases Nat.eq_zero_or_pos n with hz | hz
      · rw [(h0 hz).2]
        exact fun h => h.elim id (fun h => absurd h (by omega))
      · rw [(hn hz).2.2.1]
        exact fun _ => rfl
    have hh : s1.here = true ↔ s.here = true ∨ 0 < n ∧ p.on = false := by
      rcases Nat.eq_zero_or_pos n with hz | hz
      · rw [(h0 hz).1, hz]
        simp
      · obtain ⟨s3, p3, m3, e4, g1, g2, g3, g4, g5, g6, g7, g8, _⟩ := init_ok s p hf n time old moved
        rw [if_pos hz, e4] at he
        simp only [Option.some.injEq, Prod.mk.injEq] at he
        obtain ⟨rfl, rfl⟩ := he
        rw [g7]
        simp [hz]
    refine ⟨k1, k2, fun i t h => k3 i t ?_, fun h => k4 (Or.inl (hon h)), fun h => ?_, fun h => k6 (hh.2 (Or.inl h))⟩
    · show p1.texts.lookup i = some t
      rcases Nat.eq_zero_or_pos n with hz | hz
      · rw [(h0 hz).2]; exact h
      · rw [(hn hz).2.2.1]
        exact lookup_kept hf h
    · rcases k5 h with h5 | h5
      · exact (hh.1 h5).elim Or.inl fun h => Or.inr h.2
      · right
        have h5' : p1.on = false := h5
        by_contra hc
        simp only [Bool.not_eq_false] at hc
        rw [hon (Or.inl hc)] at h5'
        cases h5'

/-- **C85, the bases of options.** `solve` leaves the stack of options as it was, and every solver of the program still has a base with its own text. -/
theorem solve_stack {s : Inst K} {p : Petsc K} {outs : List (Outcome K)} {r : Result K} (hf : Fresh p) (ho : Own p s) (h : solve s p outs = some r) :
    r.petsc.stack = p.stack ∧ Fresh r.petsc ∧ Own r.petsc r.solver ∧ (∀ t : Inst K, Own p t → Own r.petsc t) ∧ (p.on = true → r.petsc.on = true ∧ r.solver.here = s.here) := by
  obtain ⟨m, us, o, rest, hm, rfl, hu, hne⟩ := solve_split h
  obtain ⟨r', m', e, h1, h2, h3, h4, h5, h6, h7⟩ := solve_spec s p us o rest m hm hu hne
  rw [h] at e
  cases e
  refine ⟨h6, ?_⟩
  obtain ⟨s', p', m2, segs, e, g1, g2, _⟩ := loop_spec us o rest hne s (push m.options p) 0 0 none false (fun _ => by rw [hm]; rfl) hu
  obtain ⟨k1, k2, k3, k4, k5, k6⟩ := loop_texts us o rest hne s (push m.options p) 0 0 none false s' p' segs (fun _ => by rw [hm]; rfl) (fun _ => ho) hu hf e
  simp only [solve, hm, Option.bind_some, e, g1, g2, Option.map_some, Option.some.injEq] at h
  subst h
  refine ⟨k1, k2, fun t ht mt hmt => k3 _ _ (ht mt hmt), fun hon => ⟨k4 (Or.inl hon), ?_⟩⟩
  show s'.here = s.here
  have a : s'.here = true → s.here = true := fun h => (k5 h).elim id fun h' => by
    have : p.on = false := h'
    rw [hon] at this
    cases this
  cases hb : s.here
  · cases hb' : s'.here
    · rfl
    · exact absurd (a hb') (by rw [hb]; simp)
  · exact k6 hb

/-- **C85, the status file.** It is written exactly if the options of this solver hold `-check_collapse`, whatever the other solvers of the program and the moves of the surface; it says `collapsed` for an event, `diverged` if the nonlinear solver failed or steps were rejected, and `good` otherwise. -/
theorem status_file {s : Inst K} {p : Petsc K} {outs : List (Outcome K)} {r : Result K} (hf : Fresh p) (ho : Own p s) (h : solve s p outs = some r) :
    (r.file.isSome ↔ "-check_collapse" ∈ s.text.names) ∧
      ∀ st, r.file = some st → ∃ q, r.solver.members.bind Members.reason = some q ∧ q ≠ .user ∧ (st = .collapsed ↔ q = .event) ∧
        (st = .diverged ↔ q = .nonlinear ∨ q = .rejected) ∧ (st = .good ↔ ∃ n, q = .other n) := by
  obtain ⟨m, us, o, rest, hm, rfl, hu, hne⟩ := solve_split h
  obtain ⟨s', p', m2, segs, e, g1, g2, _, _, _, g6, _⟩ := loop_spec us o rest hne s (push m.options p) 0 0 none false (fun _ => by rw [hm]; rfl) hu
  obtain ⟨k1, k2, k3, k4, k5, k6⟩ := loop_texts us o rest hne s (push m.options p) 0 0 none false s' p' segs (fun _ => by rw [hm]; rfl) (fun _ => ho) hu hf e
  simp only [solve, hm, Option.bind_some, e, g1, g2, Option.map_some, Option.some.injEq] at h
  subst h
  have htop : top p' = some s.text := by
    unfold top
    rw [g6]
    exact k3 _ _ (ho m hm)
  have hname : hasName "-check_collapse" p' = true ↔ "-check_collapse" ∈ s.text.names := by
    unfold hasName
    rw [htop]
    simp
  constructor
  · dsimp only
    rw [← hname]
    split <;> simp_all
  · intro st hst
    have : st = status o.reason := by
      dsimp only at hst
      split at hst
      · exact (Option.some.inj hst).symm
      · cases hst
    subst this
    refine ⟨o.reason, ?_, hne, ?_⟩
    · simp [g1, g2]
    · revert hne
      cases o.reason <;> simp [status]

/-! ### What is never given back -/

theorem holds_init {p : Petsc K} {old : Option (ℕ × ℕ)} (c : Bool) (ho : ∀ a b, old = some (a, b) → a < p.next ∧ b < p.next) (st : List ℕ) (tx : List (ℕ × Opts K))
    (x : Stepper K) (y : Option Reason) (z : Source) :
    Holds (⟨true, p.next + 5, liveAfter p old c, st, tx⟩ : Petsc K) ⟨p.next, p.next + 1, p.next + 2, p.next + 4, x, y, z⟩ := by
  refine ⟨?_, ?_, ?_, ?_⟩
  · show (Kind.options, p.next) ∈ liveAfter p old c
    exact kept (by simp) fun a b _ => ⟨by simp, by simp⟩
  · show (Kind.grid, p.next + 1) ∈ liveAfter p old c
    refine kept (by simp) fun a b h => ⟨by simp, fun h' => ?_⟩
    have := congrArg Prod.snd h'
    have := ho a b h
    dsimp only at *
    omega
  · show (Kind.vec, p.next + 2) ∈ liveAfter p old c
    refine kept (by simp) fun a b h => ⟨fun h' => ?_, by simp⟩
    have := congrArg Prod.snd h'
    have := ho a b h
    dsimp only at *
    omega
  · show (Kind.stepper, p.next + 4) ∈ liveAfter p old c
    exact kept (by simp) fun a b _ => ⟨by simp, by simp⟩

/-- One `initialize` makes one object of each kind and gives back the grid and the vector of the loop before if the concentrations are carried over. -/
theorem enter_live {s : Inst K} {p : Petsc K} {n : ℕ} {time : K} {old : Option (ℕ × ℕ)} {moved : Bool} {s1 : Inst K} {p1 : Petsc K} {m : Members K}
    (he : (if 0 < n then initialize' s p n time old moved else some (s, p)) = some (s1, p1)) (hm : s1.members = some m) (hf : Fresh p)
    (h0 : n = 0 → ∃ m, s.members = some m ∧ Holds p m) (hn : 0 < n → ∃ a b, old = some (a, b) ∧ (Kind.grid, a) ∈ p.live ∧ (Kind.vec, b) ∈ p.live) :
    Fresh p1 ∧ Holds p1 m ∧ s1.dim = s.dim ∧
      ∀ k, alive k p1 + (if (0 < n ∧ Carried s.dim moved) ∧ (k = .grid ∨ k = .vec) then 1 else 0) = alive k p + (if 0 < n then 1 else 0) := by
  rcases Nat.eq_zero_or_pos n with hz | hz
  · rw [if_neg (by omega)] at he
    simp only [Option.some.injEq, Prod.mk.injEq] at he
    obtain ⟨rfl, rfl⟩ := he
    obtain ⟨m', hm', hh⟩ := h0 hz
    rw [hm] at hm'
    cases hm'
    exact ⟨hf, hh, rfl, fun k => by simp [hz]⟩
  · rw [if_pos hz, init_eq] at he
    simp only [Option.some.injEq, Prod.mk.injEq] at he
    obtain ⟨rfl, rfl⟩ := he
    obtain ⟨a, b, rfl, ha, hb⟩ := hn hz
    cases hm
    have la := hf.1 _ ha
    have lb := hf.1 _ hb
    dsimp only at la lb
    refine ⟨fresh_init hf s _ _, holds_init _ ?_ _ _ _ _ _, rfl, fun k => ?_⟩
    · rintro a' b' h
      cases h
      exact ⟨la, lb⟩
    · have := alive_liveAfter k a b (Carried s.dim moved) ha hb
      rw [if_pos hz]
      simp only [hz, true_and]
      exact this

theorem loop_live (us : List (Outcome K)) (o : Outcome K) (rest : List (Outcome K)) (ho : o.reason ≠ .user) :
    ∀ (s : Inst K) (p : Petsc K) (n : ℕ) (time : K) (old : Option (ℕ × ℕ)) (moved : Bool) (s' : Inst K) (p' : Petsc K) (segs : List (Segment K))
      (_ : n = 0 → ∃ m, s.members = some m ∧ Holds p m) (_ : 0 < n → ∃ a b, old = some (a, b) ∧ (Kind.grid, a) ∈ p.live ∧ (Kind.vec, b) ∈ p.live)
      (_ : ∀ u ∈ us, u.reason = .user) (_ : Fresh p),
      loop s p n time old moved (us ++ o :: rest) = some (s', p', segs) → (∃ m', s'.members = some m' ∧ Holds p' m') ∧
        ∀ k, alive k p' + (if (0 < n ∧ Carried s.dim moved) ∧ (k = .grid ∨ k = .vec) then 1 else 0) + (if k = .grid ∨ k = .vec then us.countP (fun u => Carried s.dim u.moved) else 0) =
          alive k p + us.length + (if 0 < n then 1 else 0) + (if k = .grid ∨ k = .vec then us.length else 0) := by
  induction us with
  | nil =>
    intro s p n time old moved s' p' segs h0 hn hu hf h
    obtain ⟨s1, p1, m, he, hm1, _⟩ := enter_some s p n time old moved (fun hz => by obtain ⟨m, hm, _⟩ := h0 hz; rw [hm]; rfl)
    rw [List.nil_append, loop_cons s p n time old moved o rest he hm1, if_neg ho, runTS_eq] at h
    simp only [Option.some.injEq, Prod.mk.injEq] at h
    obtain ⟨rfl, rfl, rfl⟩ := h
    obtain ⟨_, hh, _, hc⟩ := enter_live he hm1 hf h0 hn
    refine ⟨⟨_, rfl, hh⟩, fun k => ?_⟩
    have := hc k
    simp only [List.countP_nil, ite_self, List.length_nil]
    omega
  | cons u us ih =>
    intro s p n time old moved s' p' segs h0 hn hu hf h
    obtain ⟨s1, p1, m, he, hm1, _⟩ := enter_some s p n time old moved (fun hz => by obtain ⟨m, hm, _⟩ := h0 hz; rw [hm]; rfl)
    rw [List.cons_append, loop_cons s p n time old moved u (us ++ o :: rest) he hm1, if_pos (hu u List.mem_cons_self)] at h
    obtain ⟨⟨s2, p2, segs2⟩, e2, e3⟩ := Option.map_eq_some_iff.1 h
    simp only [Prod.mk.injEq] at e3
    obtain ⟨rfl, rfl, rfl⟩ := e3
    obtain ⟨hf1, hh, hd, hc⟩ := enter_live he hm1 hf h0 hn
    have hf2 : Fresh (⟨p1.on, p1.next + 2, (Kind.vec, p1.next + 1) :: (Kind.grid, p1.next) :: p1.live, p1.stack, p1.texts⟩ : Petsc K) := by
      refine ⟨fun x hx => ?_, fun x hx => ?_⟩
      · simp only [List.mem_cons] at hx
        show x.2 < p1.next + 2
        rcases hx with rfl | rfl | hx
        · show p1.next + 1 < p1.next + 2
          omega
        · show p1.next < p1.next + 2
          omega
        · have := hf1.1 x hx
          omega
      · have := hf1.2 x hx
        show x.1 < p1.next + 2
        omega
    obtain ⟨k1, k2⟩ := ih _ _ _ _ _ _ _ _ _ (by omega) (fun _ => ⟨p1.next, p1.next + 1, rfl, by simp, by simp⟩)
      (fun v hv => hu v (List.mem_cons_of_mem _ hv)) hf2 e2
    refine ⟨k1, fun k => ?_⟩
    have h1 := k2 k
    have h2 := hc k
    have hd' : (runTS s1 m u n).1.dim = s.dim := hd
    rw [hd'] at h1
    have h3 : alive k (⟨p1.on, p1.next + 2, (Kind.vec, p1.next + 1) :: (Kind.grid, p1.next) :: p1.live, p1.stack, p1.texts⟩ : Petsc K) =
        alive k p1 + (if k = .grid ∨ k = .vec then 1 else 0) := by
      cases k <;> simp [alive]
    rw [h3] at h1
    simp only [List.countP_cons, List.length_cons, Nat.succ_pos n, true_and] at h1 ⊢
    simp only [if_true] at h1
    by_cases hk : k = .grid ∨ k = .vec
    · simp only [hk, and_true, if_true] at h1 h2 ⊢
      omega
    · simp only [hk, and_false, if_false] at h1 h2 ⊢
      omega

/-- `finalize` gives back one object of each kind but the matrix. -/
theorem alive_finalize {s : Inst K} {p q : Petsc K} {m : Members K} (hm : s.members = some m) (hh : Holds p m) (hq : finalize s p = some q) (k : Kind) :
    alive k q + (if k = .mat then 0 else 1) = alive k p := by
  simp only [finalize, hm, Option.bind_some] at hq
  split at hq
  · simp only [Option.some.injEq] at hq
    subst hq
    obtain ⟨y1, y2, y3, y4⟩ := hh
    have hx : ∀ x : Kind × ℕ, x ∈ p.live → decide (x.1 = k) = true → 1 ≤ alive k p := fun x hx hk => List.countP_pos_iff.2 ⟨x, hx, hk⟩
    have z2 : (Kind.grid, m.da) ∈ ((p.live.erase (Kind.options, m.options)).erase (Kind.vec, m.c)).erase (Kind.stepper, m.ts) :=
      (List.mem_erase_of_ne (by simp)).2 ((List.mem_erase_of_ne (by simp)).2 ((List.mem_erase_of_ne (by simp)).2 y2))
    have z3 : (Kind.vec, m.c) ∈ p.live.erase (Kind.options, m.options) := (List.mem_erase_of_ne (by simp)).2 y3
    have z4 : (Kind.stepper, m.ts) ∈ (p.live.erase (Kind.options, m.options)).erase (Kind.vec, m.c) :=
      (List.mem_erase_of_ne (by simp)).2 ((List.mem_erase_of_ne (by simp)).2 y4)
    have x1 := hx _ y1
    have x2 := hx _ y2
    have x3 := hx _ y3
    have x4 := hx _ y4
    have e' : p.live.countP (fun x => decide (x.1 = k)) = alive k p := rfl
    simp only [unmake, alive] at e' ⊢
    rw [List.countP_erase, List.countP_erase, List.countP_erase, List.countP_erase]
    simp only [y1, z2, z3, z4, true_and]
    simp only [alive] at x1 x2 x3 x4
    clear e' hx
    generalize p.live.countP (fun x => decide (x.1 = k)) = c at *
    cases k <;> simp at x1 x2 x3 x4 ⊢ <;> omega
  · cases hq

/-- **C85, what is never given back.** A solver is initialized, solves with some moves of the surface, and is finalized.  One base of options, one grid, one vector and one `TS` are left for every move, and one matrix for every loop; the grid and the vector that were saved are left too if the concentrations are not carried over. -/
theorem leaks {s0 s : Inst K} {p0 p q : Petsc K} {time : K} {outs : List (Outcome K)} {r : Result K} (hf : Fresh p0) (hi : initialize' s0 p0 0 time none false = some (s, p))
    (h : solve s p outs = some r) (hq : finalize r.solver r.petsc = some q) (k : Kind) :
    alive k q + (if k = .grid ∨ k = .vec then (outs.take (r.segments.length - 1)).countP (fun u => u.moved && decide (0 < s0.dim)) else 0) =
      alive k p0 + (r.segments.length - 1) + (if k = .mat then 1 else 0) + (if k = .grid ∨ k = .vec then r.segments.length - 1 else 0) := by
  obtain ⟨m, us, o, rest, hm, rfl, hu, hne⟩ := solve_split h
  obtain ⟨r', m', e, h1, h2, h3, h4, h5, h6, h7⟩ := solve_spec s p us o rest m hm hu hne
  rw [h] at e
  cases e
  have hlen : r.segments.length = us.length + 1 := by rw [h7, turns_length]; simp
  obtain ⟨s', p', m2, segs, e, g1, g2, _⟩ := loop_spec us o rest hne s (push m.options p) 0 0 none false (fun _ => by rw [hm]; rfl) hu
  rw [init_eq] at hi
  simp only [Option.some.injEq, Prod.mk.injEq] at hi
  obtain ⟨rfl, rfl⟩ := hi
  cases hm
  have hfr : Fresh (push p0.next (⟨true, p0.next + 5, liveAfter p0 none (Carried s0.dim false), p0.stack, (p0.next, s0.text) :: p0.texts⟩ : Petsc K)) :=
    And.intro (fresh_init hf s0 none (Carried s0.dim false)).1 (fresh_init hf s0 none (Carried s0.dim false)).2
  have hho := holds_init (p := p0) (old := none) (Carried s0.dim false) (by simp) (p0.next :: p0.stack) ((p0.next, s0.text) :: p0.texts)
  obtain ⟨⟨m3, j1, j2⟩, j3⟩ := loop_live us o rest hne _ (push p0.next _) 0 0 none false s' p' segs
    (fun _ => ⟨_, rfl, And.intro (hho _ _ _).1 (hho _ _ _).2⟩) (fun h => absurd h (Nat.lt_irrefl 0)) hu hfr e
  simp only [solve, Option.bind_some, e, g1, g2, Option.map_some, Option.some.injEq] at h
  subst h
  dsimp only at hlen hq ⊢
  rw [g1] at j1
  cases j1
  rw [hlen, Nat.add_sub_cancel, List.take_left]
  have c0 := j3 k
  have c1 : alive k (push p0.next (⟨true, p0.next + 5, liveAfter p0 none (Carried s0.dim false), p0.stack, (p0.next, s0.text) :: p0.texts⟩ : Petsc K)) = alive k p0 + 1 := by
    cases k <;> simp [alive, push, liveAfter]
  rw [c1] at c0
  have c2 := alive_finalize g1 (show Holds (pop p') m2 from j2) hq k
  have c4 : alive k (pop p') = alive k p' := rfl
  rw [c4] at c2
  have c3 : (us.countP fun u => Carried s0.dim u.moved) = us.countP (fun u => u.moved && decide (0 < s0.dim)) := rfl
  simp only [lt_irrefl, false_and, if_false, add_zero] at c0
  rw [c3] at c0
  clear hq j3 h7 hlen e c1 hfr
  cases k <;> simp only [reduceCtorEq, or_self, or_true, true_or, if_true, if_false, add_zero] at c0 c2 ⊢ <;> omega

/-! ### Several solvers -/

theorem finalize_some (s : Inst K) (p : Petsc K) : (finalize s p).isSome ↔ s.members.isSome ∧ p.on = true := by
  unfold finalize
  cases s.members with
  | none => simp
  | some m =>
    cases p.on
    · simp
    · simp

theorem finalize_on {s : Inst K} {p q : Petsc K} (h : finalize s p = some q) : q.on = !s.here := by
  have hs := (finalize_some s p).1 (by rw [h]; rfl)
  obtain ⟨m, hm⟩ := Option.isSome_iff_exists.1 hs.1
  simp only [finalize, hm, Option.bind_some, hs.2, if_true, Option.some.injEq] at h
  subst h
  simp [unmake, hs.2]

/-- **C85, the order of finalizing.** While PETSc is initialized, solvers can be finalized one after the other exactly if all were initialized and the one that initialized PETSc, if any, is the last. -/
theorem finalize_order (ss : List (Inst K)) : ∀ (p : Petsc K), p.on = true →
    ((finalizeAll p ss).isSome ↔ (∀ s ∈ ss, s.members.isSome) ∧ ∀ s ∈ ss.dropLast, s.here = false) := by
  induction ss with
  | nil => intro p _; simp [finalizeAll]
  | cons s ss ih =>
    intro p hp
    have step : finalizeAll p (s :: ss) = (finalize s p).bind fun q => finalizeAll q ss := by
      simp [finalizeAll, List.foldlM_cons]
    rw [step]
    by_cases hs : s.members.isSome
    · obtain ⟨q, hq⟩ := Option.isSome_iff_exists.1 ((finalize_some s p).2 ⟨hs, hp⟩)
      have hon := finalize_on hq
      rw [hq, Option.bind_some]
      cases ss with
      | nil => simp [finalizeAll, hs]
      | cons t ss =>
        cases hh : s.here
        · rw [ih q (by rw [hon, hh]; rfl)]
          simp [hs, hh]
        · have : q.on = false := by rw [hon, hh]; rfl
          have hn : finalize t q = none := by
            have := (finalize_some t q).not.2 (by simp [this])
            simpa using this
          have : finalizeAll q (t :: ss) = none := by
            simp [finalizeAll, List.foldlM_cons, hn]
          rw [this]
          simp [hh]
    · have : finalize s p = none := by
        have := (finalize_some s p).not.2 (by simp [hs])
        simpa using this
      rw [this]
      simp [hs]

theorem initAll_on (ss : List (Inst K)) : ∀ (p : Petsc K), p.on = true → ∃ ts q, initializeAll p ss = some (ts, q) ∧ q.on = true ∧ ts.length = ss.length ∧
    (∀ t ∈ ts, t.members.isSome) ∧ ts.map Inst.here = ss.map Inst.here := by
  induction ss with
  | nil => intro p hp; exact ⟨[], p, rfl, hp, rfl, by simp, rfl⟩
  | cons s ss ih =>
    intro p hp
    simp only [initializeAll, init_eq, Option.bind_some]
    obtain ⟨ts, q, e, h1, h2, h3, h4⟩ := ih ⟨true, p.next + 5, liveAfter p none (Carried s.dim false), p.stack, (p.next, s.text) :: p.texts⟩ rfl
    rw [e]
    refine ⟨_, _, rfl, h1, by simp [h2], ?_, ?_⟩
    · intro t ht
      rcases List.mem_cons.1 ht with rfl | ht
      · rfl
      · exact h3 t ht
    · simp [h4, hp]

/-- **C85, several solvers.** Each begins at the time and with the time step of its restart file, or at 0 with the first time step. -/
theorem many_times (ss : List (Inst K)) : ∀ (p q : Petsc K) (ts : List (Inst K)), initializeAll p ss = some (ts, q) →
    ts.map (fun t => t.members.map fun m => (m.stepper.time, m.stepper.dt)) = ss.map fun s => some (s.restart.getD (0, 1 / 10 ^ 12)) := by
  induction ss with
  | nil => intro p q ts h; cases h; rfl
  | cons s ss ih =>
    intro p q ts h
    simp only [initializeAll, init_eq, Option.bind_some, Option.map_eq_some_iff] at h
    obtain ⟨⟨us, q'⟩, e, h⟩ := h
    cases h
    rw [List.map_cons, List.map_cons, ih _ _ _ e]
    simp [firstDt]

/-- **C85, several solvers.** New solvers are initialized one after the other.  If nobody initialized PETSc before, the first one does, and they can then be finalized in the opposite order but, if there are two or more, not in the order in which they were made; if PETSc was initialized before, as with sub-networks, none does, and both orders work. -/
theorem many (ss : List (Inst K)) (hs : ∀ s ∈ ss, s.here = false) (p : Petsc K) : ∃ ts q, initializeAll p ss = some (ts, q) ∧ ts.length = ss.length ∧ (ss ≠ [] → q.on = true) ∧
    (p.on = false → (∀ t, ts.head? = some t → t.here = true) ∧ (∀ t ∈ ts.tail, t.here = false) ∧ (2 ≤ ss.length → finalizeAll q ts = none)) ∧
    (p.on = true → (∀ t ∈ ts, t.here = false) ∧ (finalizeAll q ts).isSome) ∧
    (ss ≠ [] → (finalizeAll q ts.reverse).isSome) := by
  cases ss with
  | nil => exact ⟨[], p, rfl, rfl, by simp, by simp, fun _ => ⟨by simp, rfl⟩, by simp⟩
  | cons s ss =>
    simp only [initializeAll, init_eq, Option.bind_some]
    obtain ⟨ts, q, e, h1, h2, h3, h4⟩ := initAll_on ss ⟨true, p.next + 5, liveAfter p none (Carried s.dim false), p.stack, (p.next, s.text) :: p.texts⟩ rfl
    rw [e]
    have hts : ∀ t ∈ ts, t.here = false := by
      intro t ht
      have : t.here ∈ ss.map Inst.here := by
        rw [← h4]
        exact List.mem_map_of_mem ht
      obtain ⟨x, hx, ex⟩ := List.mem_map.1 this
      rw [← ex]
      exact hs x (List.mem_cons_of_mem _ hx)
    have hs0 : s.here = false := hs s List.mem_cons_self
    refine ⟨_, _, rfl, by simp [h2], fun _ => h1, fun hp => ⟨?_, ?_, ?_⟩, fun hp => ⟨?_, ?_⟩, fun _ => ?_⟩
    · intro t ht
      cases ht
      simp [hp]
    · exact hts
    · intro hl
      rw [← Option.not_isSome_iff_eq_none, finalize_order _ q h1]
      · intro hc
        obtain ⟨t, ts', rfl⟩ : ∃ t ts', ts = t :: ts' := by
          cases ts with
          | nil => simp at h2 hl; omega
          | cons t ts' => exact ⟨t, ts', rfl⟩
        have := hc.2 _ (by rw [List.dropLast_cons_of_ne_nil (by simp)]; exact List.mem_cons_self)
        simp [hp] at this
    · intro t ht
      rcases List.mem_cons.1 ht with rfl | ht
      · simp [hs0, hp]
      · exact hts t ht
    · refine (finalize_order _ q h1).2 ⟨?_, ?_⟩
      · intro t ht
        rcases List.mem_cons.1 ht with rfl | ht
        · rfl
        · exact h3 t ht
      · intro t ht
        rcases List.mem_cons.1 ((List.dropLast_subset _) ht) with rfl | ht
        · simp [hs0, hp]
        · exact hts t ht
    · refine (finalize_order _ q h1).2 ⟨?_, ?_⟩
      · intro t ht
        rcases List.mem_cons.1 (List.mem_reverse.1 ht) with rfl | ht
        · rfl
        · exact h3 t ht
      · intro t ht
        rw [List.reverse_cons, List.dropLast_concat] at ht
        exact hts t (List.mem_reverse.1 ht)

/-! ### Cases -/

/-- The options of the cases below. -/
def demo : Inst ℚ := ⟨1, ⟨["-check_collapse"], 5, 1⟩, none, false, none⟩

/-- Two moves of the surface, then the nonlinear solver fails. -/
def outcomes : List (Outcome ℚ) := [⟨.user, 1, 1 / 10, 7, true⟩, ⟨.user, 2, 1 / 10, 9, true⟩, ⟨.nonlinear, 3, 1 / 100, 4, false⟩, ⟨.other 1, 9, 1, 1, false⟩]

/-- The cases: the result of `solve`. -/
def demoRun (here : Bool) : Option (Result ℚ) := (initialize' demo { (off : Petsc ℚ) with on := !here } 0 0 none false).bind fun (s, p) =>
  (setTimes s (3 / 2) (1 / 2)).bind fun s => solve s p outcomes

example : (demoRun true).map (fun r => (r.segments.map fun x => (x.first.time, x.first.maxTime, x.first.step), r.file, r.petsc.stack)) =
    some ([(0, 3 / 2, 0), (1, 5, 0), (2, 5, 0)], some .diverged, []) := by decide +kernel

example : (demoRun true).map (fun r => (converged ((r.solver.members.bind Members.reason).toList), r.segments.map Segment.source)) =
    some (true, [.given, .carried, .carried]) := by decide +kernel

example : ((demoRun true).bind fun r => (finalize r.solver r.petsc).map fun q => ([.options, .grid, .vec, .mat, .stepper].map fun k => alive k q, q.on)) =
    some ([2, 2, 2, 3, 2], false) := by decide +kernel

example : (initializeAll (off : Petsc ℚ) [demo, demo]).map (fun x => ((finalizeAll x.2 x.1).isSome, (finalizeAll x.2 x.1.reverse).isSome)) = some (false, true) := by decide +kernel

example : Fresh (off : Petsc ℚ) := ⟨by simp [off], by simp [off]⟩

end Xolotl.Solver.Loop
