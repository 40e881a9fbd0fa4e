import Verif.Options.Readers
import Mathlib.Data.List.Perm.Basic
import Mathlib.Data.List.Nodup
import Mathlib.Data.List.TakeWhile
import Mathlib.Algebra.Order.Ring.Rat
import Mathlib.Data.Rat.Floor

/-!
# The two readers: properties
-/

set_option linter.unusedSectionVars false

namespace Xolotl.Options.Readers

open Xolotl.Util Xolotl.Options.Lists

variable {K : Type} [Field K] [LinearOrder K] [FloorRing K]

/-! ### What a successful read gives -/

theorem bind_ok {α β : Type*} {r : Res α} {f : α → Res β} {b : β} : r.bind f = .ok b ↔ ∃ a, r = .ok a ∧ f a = .ok b := by
  cases r <;> simp [Res.bind]

theorem orThrow_ok {α : Type*} {r : Option α} {a : α} : orThrow r = .ok a ↔ r = some a := by
  cases r <;> simp [orThrow]

/-- The value of an option that is a list of `double`: the numbers of the words of a text, or those of all elements. -/
def Reals (e : Env K) (n : Node) (p : List K) : Prop :=
  (n.children = [] ∧ p = (Tokenizer.tokens n.data).map e.token) ∨ (n.children ≠ [] ∧ List.Forall₂ (fun t x => e.jsonReal t = some x) n.children p)

/-- The same for `IdType`. -/
def Nats (e : Env K) (n : Node) (p : List ℕ) : Prop :=
  (n.children = [] ∧ p = (Tokenizer.tokens n.data).map e.nat) ∨ (n.children ≠ [] ∧ List.Forall₂ (fun t x => e.jsonNat t = some x) n.children p)

/-- The same for `int`. -/
def Ints (n : Node) (p : List ℤ) : Prop :=
  (n.children = [] ∧ p = Tokenizer.ints n.data) ∨ (n.children ≠ [] ∧ List.Forall₂ (fun t x => strict t = some x) n.children p)

theorem vector_ok {α : Type} (parse : List Char → Option α) (l : List (List Char)) (p : List α) :
    vector parse l = .ok p ↔ List.Forall₂ (fun t x => parse t = some x) l p := by
  induction l generalizing p with
  | nil => simp [vector, eq_comm]
  | cons t r ih =>
    simp only [vector, bind_ok, orThrow_ok, ih, List.forall₂_cons_left_iff]
    constructor
    · rintro ⟨a, ha, q, hq, h⟩
      exact ⟨a, q, ha, hq, by simpa [eq_comm] using h⟩
    · rintro ⟨a, q, ha, hq, rfl⟩
      exact ⟨a, ha, q, hq, rfl⟩

theorem asVector_ok (l : List (List Char)) (p : List ℤ) : asVector l = .ok p ↔ List.Forall₂ (fun t x => strict t = some x) l p := by
  induction l generalizing p with
  | nil => simp [asVector, eq_comm]
  | cons t r ih =>
    simp only [asVector, bind_ok, orThrow_ok, ih, List.forall₂_cons_left_iff]
    constructor
    · rintro ⟨a, ha, q, hq, h⟩
      exact ⟨a, q, ha, hq, by simpa [eq_comm] using h⟩
    · rintro ⟨a, q, ha, hq, rfl⟩
      exact ⟨a, ha, q, hq, rfl⟩

theorem reals_ok (e : Env K) (n : Node) (p : List K) : values e.token e.jsonReal n = .ok p ↔ Reals e n p := by
  unfold values Reals
  split <;> rename_i h <;> simp [h, vector_ok, eq_comm]

theorem nats_ok (e : Env K) (n : Node) (p : List ℕ) : values e.nat e.jsonNat n = .ok p ↔ Nats e n p := by
  unfold values Nats
  split <;> rename_i h <;> simp [h, vector_ok, eq_comm]

theorem ints_ok (n : Node) (p : List ℤ) : intsOf n = .ok p ↔ Ints n p := by
  unfold intsOf Ints
  split <;> rename_i h <;> simp [h, asVector_ok, eq_comm]

/-- An option that is not there leaves its value; one that is there changes it by `P`. -/
def Via {α : Type} (n : Option Node) (P : Node → α → α → Prop) (a b : α) : Prop := (n = none ∧ b = a) ∨ ∃ x, n = some x ∧ P x a b

/-- A file that is given can be opened. -/
def Opens (e : Env K) (n : Option Node) (f : List Char) : Prop := n.isSome → e.opens f = true

/-- What the setters come to if all of them return: every option is determined by its own entry alone. -/
structure Done (e : Env K) (read : List Char → Option K) (get : List Char → Option Node) (o r : Opts K) : Prop where
  text : r.text = o.text
  int : r.int = o.int
  flag : r.flag = o.flag
  petsc : r.petsc = o.petsc
  real : ∀ k, k ≠ "flux".toList → r.real k = o.real k
  flux : Via (get "flux".toList) (fun n _ x => read n.data = some x) (o.real "flux".toList) (r.real "flux".toList)
  fluxFlag : r.fluxFlag = (o.fluxFlag || (get "flux".toList).isSome)
  fluxProfile : r.fluxProfile = (o.fluxProfile || (get "fluxFile".toList).isSome)
  tempFile : Opens e (get "tempFile".toList) (o.text "tempFile".toList)
  fluxFile : Opens e (get "fluxFile".toList) (o.text "fluxFile".toList)
  gridFile : Opens e (get "gridFile".toList) (o.text "gridFile".toList)
  perf : o.text "perfHandler".toList ∈ ["dummy".toList, "os".toList, "papi".toList]
  viz : o.text "vizHandler".toList ∈ ["std".toList, "dummy".toList]
  temp : Via (get "tempParam".toList) (fun n a b => ∃ p, Reals e n p ∧ setTemp a p = .ok b) o.temp r.temp
  grid : Via (get "gridParam".toList) (fun n a b => ∃ p, Reals e n p ∧ setGrid a p = .ok b) o.grid r.grid
  procs : Via (get "process".toList) (fun n a b => (n.children = [] ∧ Processes.setString a n.data = (b, true)) ∨ (n.children ≠ [] ∧ Processes.setList a n.children = (b, true))) o.procs r.procs
  coupling : Via (get "couplingTimeStepParams".toList) (fun n _ b => ∃ p c, Reals e n p ∧ setCoupling p = .ok c ∧ b = some c) o.coupling r.coupling
  grouping : Via (get "grouping".toList) (fun n a b => ∃ p, Ints n p ∧ setGrouping a p = .ok b) o.grouping r.grouping
  hdf5 : r.hdf5 = (o.hdf5 && (get "netParam".toList).isNone)
  net : Via (get "netParam".toList) (fun n a b => ∃ p, Nats e n p ∧ NetParams.set a p = some b) o.net r.net
  radius : Via (get "radiusSize".toList) (fun n a b => ∃ p, Ints n p ∧ b = setRadius a p) o.radius r.radius
  sides : Via (get "boundary".toList) (fun n a b => ∃ p, Ints n p ∧ b = setBoundaries a p) o.sides r.sides
  rng : Via (get "rng".toList) (fun n a b => setRng a n.data = .ok b) o.rng r.rng
  pulse : Via (get "pulse".toList) (fun n _ b => setPulse ((Tokenizer.tokens n.data).map e.token) = .ok b) o.pulse r.pulse

theorem given_via {α β : Type} (proj : β → α) (upd : β → α → β) (hu : ∀ o, upd o (proj o) = o) {f : Node → β → Res β} {P : Node → α → α → Prop}
    (hf : ∀ x o r, f x o = .ok r ↔ ∃ a, P x (proj o) a ∧ r = upd o a) (n : Option Node) (o r : β) : given n f o = .ok r ↔ ∃ a, Via n P (proj o) a ∧ r = upd o a := by
  cases n with
  | none =>
    constructor
    · intro h
      cases h
      exact ⟨_, Or.inl ⟨rfl, rfl⟩, (hu o).symm⟩
    · rintro ⟨a, (⟨-, rfl⟩ | ⟨x, hx, -⟩), rfl⟩
      · simp [given, hu]
      · cases hx
  | some x =>
    constructor
    · intro h
      obtain ⟨a, ha, hr⟩ := (hf x o r).1 h
      exact ⟨a, Or.inr ⟨x, rfl, ha⟩, hr⟩
    · rintro ⟨a, (⟨hx, -⟩ | ⟨y, hy, h⟩), hr⟩
      · cases hx
      · cases hy
        exact (hf x o r).2 ⟨a, h, hr⟩

theorem temperature_ok (e : Env K) (n : Option Node) (o r : Opts K) : given n (temperature e) o = .ok r ↔
    ∃ a, Via n (fun n a b => ∃ p, Reals e n p ∧ setTemp a p = .ok b) o.temp a ∧ r = { o with temp := a } := by
  refine given_via Opts.temp (fun o a => { o with temp := a }) (fun _ => rfl) (fun x o r => ?_) n o r
  simp only [temperature, bind_ok, reals_ok, Res.ok.injEq]
  constructor
  · rintro ⟨p, hp, a, ha, rfl⟩
    exact ⟨a, ⟨p, hp, ha⟩, rfl⟩
  · rintro ⟨a, ⟨p, hp, ha⟩, rfl⟩
    exact ⟨p, hp, a, ha, rfl⟩

theorem gridValues_ok (e : Env K) (n : Option Node) (o r : Opts K) : given n (gridValues e) o = .ok r ↔
    ∃ a, Via n (fun n a b => ∃ p, Reals e n p ∧ setGrid a p = .ok b) o.grid a ∧ r = { o with grid := a } := by
  refine given_via Opts.grid (fun o a => { o with grid := a }) (fun _ => rfl) (fun x o r => ?_) n o r
  simp only [gridValues, bind_ok, reals_ok, Res.ok.injEq]
  constructor
  · rintro ⟨p, hp, a, ha, rfl⟩
    exact ⟨a, ⟨p, hp, ha⟩, rfl⟩
  · rintro ⟨a, ⟨p, hp, ha⟩, rfl⟩
    exact ⟨p, hp, a, ha, rfl⟩

theorem couplingSteps_ok (e : Env K) (n : Option Node) (o r : Opts K) : given n (couplingSteps e) o = .ok r ↔
    ∃ a, Via n (fun n _ b => ∃ p c, Reals e n p ∧ setCoupling p = .ok c ∧ b = some c) o.coupling a ∧ r = { o with coupling := a } := by
  refine given_via Opts.coupling (fun o a => { o with coupling := a }) (fun _ => rfl) (fun x o r => ?_) n o r
  simp only [couplingSteps, bind_ok, reals_ok, Res.ok.injEq]
  constructor
  · rintro ⟨p, hp, a, ha, rfl⟩
    exact ⟨some a, ⟨p, a, hp, ha, rfl⟩, rfl⟩
  · rintro ⟨a, ⟨p, c, hp, ha, rfl⟩, rfl⟩
    exact ⟨p, hp, c, ha, rfl⟩

theorem groups_ok (n : Option Node) (o r : Opts K) : given n groups o = .ok r ↔
    ∃ a, Via n (fun n a b => ∃ p, Ints n p ∧ setGrouping a p = .ok b) o.grouping a ∧ r = { o with grouping := a } := by
  refine given_via Opts.grouping (fun o a => { o with grouping := a }) (fun _ => rfl) (fun x o r => ?_) n o r
  simp only [groups, bind_ok, ints_ok, Res.ok.injEq]
  constructor
  · rintro ⟨p, hp, a, ha, rfl⟩
    exact ⟨a, ⟨p, hp, ha⟩, rfl⟩
  · rintro ⟨a, ⟨p, hp, ha⟩, rfl⟩
    exact ⟨p, hp, a, ha, rfl⟩

theorem radii_ok (n : Option Node) (o r : Opts K) : given n radii o = .ok r ↔
    ∃ a, Via n (fun n a b => ∃ p, Ints n p ∧ b = setRadius a p) o.radius a ∧ r = { o with radius := a } := by
  refine given_via Opts.radius (fun o a => { o with radius := a }) (fun _ => rfl) (fun x o r => ?_) n o r
  simp only [radii, bind_ok, ints_ok, Res.ok.injEq]
  constructor
  · rintro ⟨p, hp, rfl⟩
    exact ⟨_, ⟨p, hp, rfl⟩, rfl⟩
  · rintro ⟨a, ⟨p, hp, rfl⟩, rfl⟩
    exact ⟨p, hp, rfl⟩

theorem boundary_ok (n : Option Node) (o r : Opts K) : given n boundary o = .ok r ↔
    ∃ a, Via n (fun n a b => ∃ p, Ints n p ∧ b = setBoundaries a p) o.sides a ∧ r = { o with sides := a } := by
  refine given_via Opts.sides (fun o a => { o with sides := a }) (fun _ => rfl) (fun x o r => ?_) n o r
  simp only [boundary, bind_ok, ints_ok, Res.ok.injEq]
  constructor
  · rintro ⟨p, hp, rfl⟩
    exact ⟨_, ⟨p, hp, rfl⟩, rfl⟩
  · rintro ⟨a, ⟨p, hp, rfl⟩, rfl⟩
    exact ⟨p, hp, rfl⟩

theorem random_ok (n : Option Node) (o r : Opts K) : given n random o = .ok r ↔
    ∃ a, Via n (fun n a b => setRng a n.data = .ok b) o.rng a ∧ r = { o with rng := a } := by
  refine given_via Opts.rng (fun o a => { o with rng := a }) (fun _ => rfl) (fun x o r => ?_) n o r
  simp only [random, bind_ok, Res.ok.injEq]
  exact ⟨fun ⟨a, h, g⟩ => ⟨a, h, g.symm⟩, fun ⟨a, h, g⟩ => ⟨a, h, g.symm⟩⟩

theorem pulses_ok (e : Env K) (n : Option Node) (o r : Opts K) : given n (pulses e) o = .ok r ↔
    ∃ a, Via n (fun n _ b => setPulse ((Tokenizer.tokens n.data).map e.token) = .ok b) o.pulse a ∧ r = { o with pulse := a } := by
  refine given_via Opts.pulse (fun o a => { o with pulse := a }) (fun _ => rfl) (fun x o r => ?_) n o r
  simp only [pulses, bind_ok, Res.ok.injEq]
  exact ⟨fun ⟨a, h, g⟩ => ⟨a, h, g.symm⟩, fun ⟨a, h, g⟩ => ⟨a, h, g.symm⟩⟩

theorem set_ok (o r : Opts K) (s : Processes.Map × Bool) : (if s.2 = true then Res.ok { o with procs := s.1 } else .threw) = .ok r ↔ ∃ a, s = (a, true) ∧ r = { o with procs := a } := by
  obtain ⟨m, b⟩ := s
  cases b
  · constructor
    · intro h
      cases h
    · rintro ⟨a, h, -⟩
      cases h
  · constructor
    · intro h
      cases h
      exact ⟨m, rfl, rfl⟩
    · rintro ⟨a, h, rfl⟩
      cases h
      rfl

theorem processes_ok (n : Option Node) (o r : Opts K) : given n processes o = .ok r ↔
    ∃ a, Via n (fun n a b => (n.children = [] ∧ Processes.setString a n.data = (b, true)) ∨ (n.children ≠ [] ∧ Processes.setList a n.children = (b, true))) o.procs a ∧ r = { o with procs := a } := by
  refine given_via Opts.procs (fun o a => { o with procs := a }) (fun _ => rfl) (fun x o r => ?_) n o r
  by_cases h : x.children = []
  · simp only [processes, h, if_true, true_and, ne_eq, not_true_eq_false, false_and, or_false]
    generalize Processes.setString o.procs x.data = s
    exact set_ok o r s
  · simp only [processes, h, if_false, false_and, ne_eq, not_false_eq_true, true_and, false_or]
    generalize Processes.setList o.procs x.children = s
    exact set_ok o r s

theorem network_ok (e : Env K) (n : Option Node) (o r : Opts K) : given n (network e) o = .ok r ↔
    ∃ a, Via n (fun n a b => ∃ p, Nats e n p ∧ NetParams.set a p = some b) o.net a ∧ r = { o with hdf5 := o.hdf5 && n.isNone, net := a } := by
  cases n with
  | none =>
    constructor
    · intro h
      cases h
      exact ⟨_, Or.inl ⟨rfl, rfl⟩, by simp⟩
    · rintro ⟨a, (⟨-, rfl⟩ | ⟨x, hx, -⟩), rfl⟩
      · simp [given]
      · cases hx
  | some x =>
    simp only [given, network, bind_ok, nats_ok]
    constructor
    · rintro ⟨p, hp, h⟩
      cases hw : NetParams.set o.net p with
      | none => rw [hw] at h; cases h
      | some w => rw [hw] at h; cases h; exact ⟨w, Or.inr ⟨x, rfl, p, hp, hw⟩, by simp⟩
    · rintro ⟨w, (⟨hx, -⟩ | ⟨y, hy, p, hp, hw⟩), rfl⟩
      · cases hx
      · cases hy
        exact ⟨p, hp, by rw [hw]; simp⟩

theorem flux_ok (read : List Char → Option K) (n : Option Node) (o r : Opts K) : given n (flux read) o = .ok r ↔
    ∃ x, Via n (fun n _ x => read n.data = some x) (o.real "flux".toList) x ∧ r = { o with fluxFlag := o.fluxFlag || n.isSome, real := fun k => if k = "flux".toList then x else o.real k } := by
  cases n with
  | none =>
    have h : (fun k => if k = "flux".toList then o.real "flux".toList else o.real k) = o.real := by
      funext k
      split
      · rename_i h; rw [h]
      · rfl
    constructor
    · intro g
      cases g
      exact ⟨_, Or.inl ⟨rfl, rfl⟩, by rw [h]; simp⟩
    · rintro ⟨a, (⟨-, rfl⟩ | ⟨x, hx, -⟩), rfl⟩
      · rw [h]; simp [given]
      · cases hx
  | some x =>
    refine ⟨fun g => ?_, ?_⟩
    · obtain ⟨a, ha, hr⟩ := bind_ok.1 g
      exact ⟨a, Or.inr ⟨x, rfl, orThrow_ok.1 ha⟩, by cases hr; simp⟩
    · rintro ⟨a, (⟨hx, -⟩ | ⟨y, hy, h⟩), rfl⟩
      · cases hx
      · cases hy
        exact bind_ok.2 ⟨a, orThrow_ok.2 h, by simp⟩
theorem file_ok (e : Env K) (k : List Char) (n : Option Node) (o r : Opts K) : given n (fun _ => file e k) o = .ok r ↔ Opens e n (o.text k) ∧ r = o := by
  cases n with
  | none => exact ⟨fun h => by cases h; exact ⟨fun h => (Bool.false_ne_true h).elim, rfl⟩, fun h => by rw [h.2]; rfl⟩
  | some x =>
    simp only [given, Opens, file, Option.isSome_some, forall_const]
    split
    · rename_i h; exact ⟨fun g => by cases g; exact ⟨h, rfl⟩, fun g => by rw [g.2]⟩
    · rename_i h; exact ⟨fun g => (by cases g), fun g => absurd g.1 h⟩

theorem fluxFile_ok (e : Env K) (n : Option Node) (o r : Opts K) : given n (fun _ => fluxFile e) o = .ok r ↔
    Opens e n (o.text "fluxFile".toList) ∧ r = { o with fluxProfile := o.fluxProfile || n.isSome } := by
  cases n with
  | none => exact ⟨fun h => by cases h; exact ⟨fun h => (Bool.false_ne_true h).elim, by simp⟩, fun h => by rw [h.2]; simp [given]⟩
  | some x =>
    have := file_ok e "fluxFile".toList (some x) o
    simp only [given] at this
    simp only [given, fluxFile, bind_ok, this, Res.ok.injEq, Option.isSome_some, Bool.or_true]
    exact ⟨fun ⟨a, h, g⟩ => ⟨h.1, by rw [← g, h.2]⟩, fun h => ⟨o, ⟨h.1, rfl⟩, h.2.symm⟩⟩

theorem handlers_ok (o r : Opts K) : handlers o = .ok r ↔
    (o.text "perfHandler".toList ∈ ["dummy".toList, "os".toList, "papi".toList] ∧ o.text "vizHandler".toList ∈ ["std".toList, "dummy".toList]) ∧ r = o := by
  have : (o.text "vizHandler".toList = "std".toList ∨ o.text "vizHandler".toList = "dummy".toList) ↔ o.text "vizHandler".toList ∈ ["std".toList, "dummy".toList] := by
    simp only [List.mem_cons, List.not_mem_nil, or_false]
  unfold handlers
  simp only [this]
  split
  · rename_i h; exact ⟨fun g => by cases g; exact ⟨h, rfl⟩, fun g => by rw [g.2]⟩
  · rename_i h; exact ⟨fun g => (by cases g), fun g => absurd g.1 h⟩

/-- **The setters**: they return exactly if every entry that is there can be used, and then every option is determined by its own entry. -/
theorem setters_iff (e : Env K) (read : List Char → Option K) (get : List Char → Option Node) (o r : Opts K) : setters e read get o = .ok r ↔ Done e read get o r := by
  unfold setters
  simp only [bind_ok, temperature_ok, gridValues_ok, couplingSteps_ok, groups_ok, radii_ok, boundary_ok, random_ok, pulses_ok, processes_ok, network_ok, flux_ok, file_ok, fluxFile_ok, handlers_ok]
  constructor
  · rintro ⟨_, ⟨a1, h1, rfl⟩, _, ⟨h2, rfl⟩, _, ⟨a3, h3, rfl⟩, _, ⟨h4, rfl⟩, _, ⟨h5, rfl⟩, _, ⟨a6, h6, rfl⟩, _, ⟨h7, rfl⟩, _, ⟨a8, h8, rfl⟩, _, ⟨a9, h9, rfl⟩, _, ⟨a10, h10, rfl⟩, _, ⟨a11, h11, rfl⟩,
      _, ⟨a12, h12, rfl⟩, _, ⟨a13, h13, rfl⟩, _, ⟨a14, h14, rfl⟩, a15, h15, rfl⟩
    exact ⟨rfl, rfl, rfl, rfl, fun k hk => if_neg hk, by simpa using h3, rfl, rfl, h2, h4, h7, h5.1, h5.2, h1, h6, h8, h9, h10, rfl, h11, h12, h13, h14, h15⟩
  · intro h
    obtain ⟨h1, h2, h3, h4, h5, h6, h7, h8, h9, h10, h11, h12, h13, h14, h15, h16, h17, h18, h19, h20, h21, h22, h23, h24⟩ := h
    refine ⟨_, ⟨_, h14, rfl⟩, _, ⟨h9, rfl⟩, _, ⟨_, h6, rfl⟩, _, ⟨h10, rfl⟩, _, ⟨⟨h12, h13⟩, rfl⟩, _, ⟨_, h15, rfl⟩, _, ⟨h11, rfl⟩, _, ⟨_, h16, rfl⟩, _, ⟨_, h17, rfl⟩, _, ⟨_, h18, rfl⟩, _, ⟨_, h20, rfl⟩,
      _, ⟨_, h21, rfl⟩, _, ⟨_, h22, rfl⟩, _, ⟨_, h23, rfl⟩, _, h24, ?_⟩
    have hr : r.real = fun k => if k = "flux".toList then r.real "flux".toList else o.real k := by
      funext k
      split
      · rename_i h; rw [h]
      · rename_i h; exact h5 k h
    cases r
    simp only at h1 h2 h3 h4 h7 h8 h19 hr ⊢
    rw [h1, h2, h3, h4, h7, h8, h19]
    congr 1

/-! ### Single values -/

/-- A value that is read where it can be, and kept otherwise. -/
theorem checkSet_cases {α : Type*} (parse : List Char → Option α) (n : Option Node) (a : α) :
    (∃ x b, n = some x ∧ parse x.data = some b ∧ checkSet parse n a = b) ∨ ((∀ x, n = some x → parse x.data = none) ∧ checkSet parse n a = a) := by
  cases n with
  | none => exact Or.inr ⟨fun _ h => (by cases h), rfl⟩
  | some x =>
    cases h : parse x.data with
    | none => exact Or.inr ⟨fun y hy => by cases hy; exact h, by simp [checkSet, h]⟩
    | some b => exact Or.inl ⟨x, b, rfl, h, by simp [checkSet, h]⟩

theorem checkSet_congr {α : Type*} {parse parse' : List Char → Option α} {n : Option Node} (h : ∀ x, n = some x → parse x.data = parse' x.data) (a : α) : checkSet parse n a = checkSet parse' n a := by
  cases n with
  | none => rfl
  | some x => simp [checkSet, h x rfl]

/-- The names of the options. -/
def names : List (List Char) := table.map Prod.fst

theorem kind_names {k : List Char} {c : Kind} (h : kind k = some c) : k ∈ names := by
  unfold kind at h
  obtain ⟨x, hx, -⟩ := Option.map_eq_some_iff.1 h
  have h1 := List.find?_some hx
  have h2 := List.mem_of_find?_eq_some hx
  rw [beq_iff_eq] at h1
  rw [← h1]
  exact List.mem_map_of_mem h2

/-- No two options have names that differ in case only. -/
theorem same_names : ∀ a ∈ names, ∀ b ∈ names, same a b = true → a = b := by decide +kernel

theorem names_nodup : names.Nodup := by decide +kernel

/-- The setters look at these names only. -/
def asked : List (List Char) := ["tempParam".toList, "tempFile".toList, "flux".toList, "fluxFile".toList, "gridParam".toList, "gridFile".toList, "process".toList, "couplingTimeStepParams".toList, "grouping".toList,
  "netParam".toList, "radiusSize".toList, "boundary".toList, "rng".toList, "pulse".toList]

theorem asked_names : ∀ k ∈ asked, k ∈ names ∧ k ≠ "petscArgs".toList := by decide +kernel

theorem flux_congr {read read' : List Char → Option K} {n : Option Node} (h : ∀ x, n = some x → read x.data = read' x.data) (o : Opts K) : given n (flux read) o = given n (flux read') o := by
  cases n with
  | none => rfl
  | some x => simp only [given, flux, h x rfl]

theorem setters_congr (e : Env K) {read read' : List Char → Option K} {get get' : List Char → Option Node} (h : ∀ k ∈ asked, get k = get' k) (hr : ∀ x, get "flux".toList = some x → read x.data = read' x.data)
    (o : Opts K) : setters e read get o = setters e read' get' o := by
  have hm : ∀ k, asked.contains k = true → get k = get' k := fun k hk => h k (List.contains_iff_mem.1 hk)
  unfold setters
  rw [hm "tempParam".toList (by decide +kernel), hm "tempFile".toList (by decide +kernel), hm "fluxFile".toList (by decide +kernel), hm "gridParam".toList (by decide +kernel), hm "gridFile".toList (by decide +kernel),
    hm "process".toList (by decide +kernel), hm "couplingTimeStepParams".toList (by decide +kernel), hm "grouping".toList (by decide +kernel), hm "netParam".toList (by decide +kernel),
    hm "radiusSize".toList (by decide +kernel), hm "boundary".toList (by decide +kernel), hm "rng".toList (by decide +kernel), hm "pulse".toList (by decide +kernel)]
  simp only [flux_congr hr]
  rw [hm "flux".toList (by decide +kernel)]

theorem singles_congr {real real' : List Char → Option K} {int int' : List Char → Option ℤ} {flag flag' : List Char → Option Bool} {get get' : List Char → Option Node}
    (h : ∀ k ∈ names, k ≠ "petscArgs".toList → get k = get' k) (hr : ∀ k x, kind k = some .real → get k = some x → real x.data = real' x.data)
    (hi : ∀ k x, kind k = some .int → get k = some x → int x.data = int' x.data) (hf : ∀ k x, kind k = some .flag → get k = some x → flag x.data = flag' x.data) (o : Opts K) :
    singles real int flag get o = singles real' int' flag' get' o := by
  have hg : ∀ k c, c ≠ .list → kind k = some c → get k = get' k := by
    intro k c hc hk
    refine h k (kind_names hk) ?_
    rintro rfl
    have : kind "petscArgs".toList = some .list := by decide +kernel
    rw [this] at hk
    exact hc (Option.some.inj hk).symm
  unfold singles
  congr 1
  · funext k
    cases hk : kind k with
    | none => rfl
    | some c => cases c <;> simp only <;> rw [hg k _ (by decide) hk]
  · funext k
    split
    · rename_i hk
      rw [checkSet_congr (hr k · hk.1), hg k _ (by decide) hk.1]
    · rfl
  · funext k
    split
    · rename_i hk
      rw [checkSet_congr (hi k · hk), hg k _ (by decide) hk]
    · rfl
  · funext k
    split
    · rename_i hk
      rw [checkSet_congr (hf k · hk), hg k _ (by decide) hk]
    · rfl

/-! ### JSON -/

/-- The values that come from the entries a reader found. -/
structure Values (real : List Char → Option K) (int : List Char → Option ℤ) (flag : List Char → Option Bool) (get : List Char → Option Node) (o r : Opts K) : Prop where
  text : ∀ k, kind k = some .text → (∃ n, get k = some n ∧ r.text k = n.data) ∨ (get k = none ∧ r.text k = (fallback k).getD (o.text k))
  path : ∀ k, kind k = some .path → (∃ n x, get k = some n ∧ readPath n.data = some x ∧ r.text k = x) ∨ ((∀ n, get k = some n → readPath n.data = none) ∧ r.text k = o.text k)
  real : ∀ k, kind k = some .real → (∃ n x, get k = some n ∧ real n.data = some x ∧ r.real k = x) ∨ ((∀ n, get k = some n → real n.data = none) ∧ r.real k = o.real k)
  int : ∀ k, kind k = some .int → (∃ n x, get k = some n ∧ int n.data = some x ∧ r.int k = x) ∨ ((∀ n, get k = some n → int n.data = none) ∧ r.int k = o.int k)
  flag : ∀ k, kind k = some .flag → (∃ n x, get k = some n ∧ flag n.data = some x ∧ r.flag k = x) ∨ ((∀ n, get k = some n → flag n.data = none) ∧ r.flag k = o.flag k)

theorem values_of {e : Env K} {real : List Char → Option K} {int : List Char → Option ℤ} {flag : List Char → Option Bool} {get : List Char → Option Node} {o r : Opts K}
    (h : setters e real get (singles real int flag get o) = .ok r) : Values real int flag get o r := by
  have d := (setters_iff ..).1 h
  refine ⟨fun k hk => ?_, fun k hk => ?_, fun k hk => ?_, fun k hk => ?_, fun k hk => ?_⟩
  · rw [d.text]
    simp only [singles, hk]
    cases get k with
    | none => exact Or.inr ⟨rfl, rfl⟩
    | some n => exact Or.inl ⟨n, rfl, rfl⟩
  · rw [d.text]
    simp only [singles, hk]
    exact checkSet_cases ..
  · by_cases hf : k = "flux".toList
    · subst hf
      rcases d.flux with ⟨h1, h2⟩ | ⟨n, h1, h2⟩
      · refine Or.inr ⟨fun n hn => ?_, ?_⟩
        · rw [h1] at hn
          cases hn
        · rw [h2]
          simp [singles]
      · exact Or.inl ⟨n, _, h1, h2, rfl⟩
    · rw [d.real k hf]
      simp only [singles, hk, hf, ne_eq, not_false_eq_true, and_self, if_true]
      exact checkSet_cases ..
  · rw [d.int]
    simp only [singles, hk, if_true]
    exact checkSet_cases ..
  · rw [d.flag]
    simp only [singles, hk, if_true]
    exact checkSet_cases ..

/-- **JSON, single values**: a value is the one of the first entry of that name where it can be read, and otherwise the default. -/
theorem json_values {e : Env K} {t : Tree} {o r : Opts K} (h : readJson e t o = .ok r) : Values e.jsonReal strict e.jsonFlag (look t) o r := by
  obtain ⟨m, hm, hr⟩ := bind_ok.1 h
  cases hr
  obtain ⟨h1, h2, h3, h4, h5⟩ := values_of hm
  exact ⟨h1, h2, h3, h4, h5⟩

/-- **JSON, lists**: every other option is determined by its own entry, and the files that are named can be opened. -/
theorem json_done {e : Env K} {t : Tree} {o r : Opts K} (h : readJson e t o = .ok r) : ∃ m, Done e e.jsonReal (look t) (singles e.jsonReal strict e.jsonFlag (look t) o) m ∧ r = { m with petsc := r.petsc } ∧
    r.petsc = ((look t "petscArgs".toList).map Node.children).elim o.petsc (List.foldl appendArg o.petsc) := by
  obtain ⟨m, hm, hr⟩ := bind_ok.1 h
  have d := (setters_iff ..).1 hm
  have hp : m.petsc = o.petsc := d.petsc
  refine ⟨m, d, ?_, ?_⟩
  · cases hr
    rfl
  · cases hr
    simp only [hp]
    cases look t "petscArgs".toList <;> rfl

/-- **JSON, what counts**: only the first entry of each known name. -/
theorem json_congr (e : Env K) {t t' : Tree} (h : ∀ k ∈ names, look t k = look t' k) (o : Opts K) : readJson e t o = readJson e t' o := by
  unfold readJson
  rw [singles_congr (fun k hk _ => h k hk) (fun _ _ _ _ => rfl) (fun _ _ _ _ => rfl) (fun _ _ _ _ => rfl),
    setters_congr e (fun k hk => h k (asked_names k hk).1) (fun _ _ => rfl), h _ (by decide +kernel)]

/-- An entry that names no option is ignored. -/
theorem json_unknown (e : Env K) (t u : Tree) (x : List Char × Node) (hx : ∀ k ∈ names, same x.1 k = false) (o : Opts K) : readJson e (t ++ x :: u) o = readJson e (t ++ u) o := by
  refine json_congr e (fun k hk => ?_) o
  simp only [look, List.find?_append, List.find?_cons, hx k hk]

theorem same_trans {a b k : List Char} (h : same a b = true) : same a k = same b k := by
  unfold same at *
  rw [beq_iff_eq.1 h]

/-- A second entry for a name is ignored. -/
theorem json_repeated (e : Env K) (t u v : Tree) (x y : List Char × Node) (h : same x.1 y.1 = true) (o : Opts K) : readJson e (t ++ x :: (u ++ y :: v)) o = readJson e (t ++ x :: (u ++ v)) o := by
  refine json_congr e (fun k _ => ?_) o
  simp only [look, List.find?_append, List.find?_cons]
  cases hs : same x.1 k with
  | true => rfl
  | false =>
    rw [same_trans h] at hs
    simp only [hs]

/-- The case of a name does not matter. -/
theorem json_case (e : Env K) (t u : Tree) (a b : List Char) (n : Node) (h : same a b = true) (o : Opts K) : readJson e (t ++ (a, n) :: u) o = readJson e (t ++ (b, n) :: u) o := by
  refine json_congr e (fun k _ => ?_) o
  simp only [look, List.find?_append, List.find?_cons, same_trans h]
  cases t.find? (fun e => same e.1 k) with
  | some x => rfl
  | none => cases same b k <;> rfl

theorem find_perm {α : Type*} {l l' : List α} (p : α → Bool) (h : l.Perm l') (hu : ∀ x ∈ l, ∀ y ∈ l, p x = true → p y = true → x = y) : l.find? p = l'.find? p := by
  cases ha : l.find? p with
  | none =>
    rw [List.find?_eq_none] at ha
    exact (List.find?_eq_none.2 fun x hx => ha x (h.mem_iff.2 hx)).symm
  | some x =>
    cases hb : l'.find? p with
    | none =>
      rw [List.find?_eq_none] at hb
      exact absurd (List.find?_some ha) (hb x (h.mem_iff.1 (List.mem_of_find?_eq_some ha)))
    | some y => exact congrArg some (hu x (List.mem_of_find?_eq_some ha) y (h.mem_iff.2 (List.mem_of_find?_eq_some hb)) (List.find?_some ha) (List.find?_some hb))

/-- With names that differ, the order of the entries does not matter. -/
theorem json_order (e : Env K) {t t' : Tree} (h : t.Perm t') (hd : ∀ x ∈ t, ∀ y ∈ t, same x.1 y.1 = true → x = y) (o : Opts K) : readJson e t o = readJson e t' o := by
  refine json_congr e (fun k _ => ?_) o
  unfold look
  rw [find_perm _ h fun x hx y hy h1 h2 => hd x hx y hy ?_]
  unfold same at *
  rw [beq_iff_eq] at *
  rw [h1, h2]

/-! ### The other format -/

/-- **The other format, what is refused**: an entry that names no option, a name that occurs twice, a value that cannot be read. -/
theorem conf_refuses (e : Env K) (cmd : Option (List Char)) (t : Conf) (o : Opts K) (h : ¬ (t.map Prod.fst).Nodup ∨ ∃ x ∈ t, x.1 ∉ names ∨ (kind x.1 = some .real ∧ e.confReal x.2 = none) ∨
    (kind x.1 = some .int ∧ e.confInt x.2 = none) ∨ (kind x.1 = some .flag ∧ e.confFlag x.2 = none) ∨ (kind x.1 = some .path ∧ readPath x.2 = none)) : readConf e cmd t o = .threw := by
  have : storable e t = false := by
    rw [← Bool.not_eq_true]
    intro hs
    simp only [storable, Bool.and_eq_true, List.all_eq_true, decide_eq_true_eq] at hs
    rcases h with h | ⟨x, hx, h⟩
    · exact h hs.2
    · have hc := hs.1 x hx
      unfold converts at hc
      rcases h with h | ⟨h1, h2⟩ | ⟨h1, h2⟩ | ⟨h1, h2⟩ | ⟨h1, h2⟩
      · cases hk : kind x.1 with
        | none => simp [hk] at hc
        | some c => exact h (kind_names hk)
      all_goals simp [h1, h2] at hc
  simp [readConf, this]

theorem stored_mem {t : Conf} (hd : (t.map Prod.fst).Nodup) {k v : List Char} (h : (k, v) ∈ t) : stored t k = some ⟨v, []⟩ := by
  induction t with
  | nil => cases h
  | cons x u ih =>
    rw [List.map_cons, List.nodup_cons] at hd
    rcases List.mem_cons.1 h with h | h
    · subst h
      simp [stored]
    · have hne : x.1 ≠ k := by
        rintro rfl
        exact hd.1 (List.mem_map.2 ⟨_, h, rfl⟩)
      have := ih hd.2 h
      simpa [stored, hne] using this

theorem stored_none {t : Conf} {k : List Char} (h : k ∉ t.map Prod.fst) : stored t k = none := by
  simp only [stored, Option.map_eq_none_iff, List.find?_eq_none, beq_iff_eq]
  exact fun x hx he => h (List.mem_map.2 ⟨x, hx, he⟩)

/-- What the other reader takes for a name: the restart file from the command line if there is one, otherwise the entry. -/
def taken (cmd : Option (List Char)) (t : Conf) (k : List Char) : Option Node := if k = "restartFile".toList then (cmd.map fun f => ⟨f, []⟩).or (stored t k) else stored t k

theorem taken_ne (cmd : Option (List Char)) (t : Conf) {k : List Char} (h : k ≠ "restartFile".toList) : taken cmd t k = stored t k := if_neg h

theorem taken_none (t : Conf) (k : List Char) : taken none t k = stored t k := by
  unfold taken
  split <;> rfl

theorem conf_ok {e : Env K} {cmd : Option (List Char)} {t : Conf} {o r : Opts K} (h : readConf e cmd t o = .ok r) :
    storable e t = true ∧ ∃ m, setters e e.confReal (taken cmd t) (singles e.confReal e.confInt e.confFlag (taken cmd t) o) = .ok m ∧ r = { m with petsc := ((stored t "petscArgs".toList).map Node.data).getD m.petsc } := by
  unfold readConf at h
  split at h
  · rename_i hs
    obtain ⟨m, hm, hr⟩ := bind_ok.1 h
    refine ⟨hs, m, hm, ?_⟩
    cases hr
    cases stored t "petscArgs".toList <;> rfl
  · cases h

/-- **The other format, nothing is lost**: the value of every entry is the value of its option, except for a restart file that is also given on the command line. -/
theorem conf_values {e : Env K} {cmd : Option (List Char)} {t : Conf} {o r : Opts K} (h : readConf e cmd t o = .ok r) {k v : List Char} (hm : (k, v) ∈ t) :
    (kind k = some .text → r.text k = if k = "restartFile".toList then cmd.getD v else v) ∧ (kind k = some .path → readPath v = some (r.text k)) ∧ (kind k = some .real → e.confReal v = some (r.real k)) ∧
    (kind k = some .int → e.confInt v = some (r.int k)) ∧ (kind k = some .flag → e.confFlag v = some (r.flag k)) ∧ (k = "petscArgs".toList → r.petsc = v) := by
  obtain ⟨hs, m, hm', rfl⟩ := conf_ok h
  simp only [storable, Bool.and_eq_true, List.all_eq_true, decide_eq_true_eq] at hs
  have hc := hs.1 _ hm
  have hg : stored t k = some ⟨v, []⟩ := stored_mem hs.2 hm
  obtain ⟨v1, v2, v3, v4, v5⟩ := values_of hm'
  have ht : k ≠ "restartFile".toList → taken cmd t k = some ⟨v, []⟩ := fun hk => (taken_ne cmd t hk).trans hg
  have hk : ∀ c, c ≠ .text → kind k = some c → k ≠ "restartFile".toList := by
    rintro c h1 h2 rfl
    have : kind "restartFile".toList = some .text := by decide +kernel
    rw [this] at h2
    exact h1 (Option.some.inj h2).symm
  simp only [converts] at hc
  refine ⟨fun c => ?_, fun c => ?_, fun c => ?_, fun c => ?_, fun c => ?_, ?_⟩
  · by_cases hr : k = "restartFile".toList
    · have h' : taken cmd t k = some ⟨cmd.getD v, []⟩ := by
        unfold taken
        rw [if_pos hr, hg]
        cases cmd <;> rfl
      rcases v1 k c with ⟨n, h1, h2⟩ | ⟨h1, h2⟩
      · rw [h'] at h1
        cases h1
        rw [if_pos hr]
        exact h2
      · rw [h'] at h1
        cases h1
    · rw [if_neg hr]
      rcases v1 k c with ⟨n, h1, h2⟩ | ⟨h1, h2⟩
      · rw [ht hr] at h1
        cases h1
        exact h2
      · rw [ht hr] at h1
        cases h1
  · have h' := ht (hk _ (by decide) c)
    rw [c] at hc
    rcases v2 k c with ⟨n, x, h1, h2, h3⟩ | ⟨h1, h2⟩
    · rw [h'] at h1
      cases h1
      rw [h2]
      exact congrArg some h3.symm
    · have h1 := h1 _ h'
      simp only at h1 hc
      rw [h1] at hc
      cases hc
  · have h' := ht (hk _ (by decide) c)
    rw [c] at hc
    rcases v3 k c with ⟨n, x, h1, h2, h3⟩ | ⟨h1, h2⟩
    · rw [h'] at h1
      cases h1
      rw [h2]
      exact congrArg some h3.symm
    · have h1 := h1 _ h'
      simp only at h1 hc
      rw [h1] at hc
      cases hc
  · have h' := ht (hk _ (by decide) c)
    rw [c] at hc
    rcases v4 k c with ⟨n, x, h1, h2, h3⟩ | ⟨h1, h2⟩
    · rw [h'] at h1
      cases h1
      rw [h2]
      exact congrArg some h3.symm
    · have h1 := h1 _ h'
      simp only at h1 hc
      rw [h1] at hc
      cases hc
  · have h' := ht (hk _ (by decide) c)
    rw [c] at hc
    rcases v5 k c with ⟨n, x, h1, h2, h3⟩ | ⟨h1, h2⟩
    · rw [h'] at h1
      cases h1
      rw [h2]
      exact congrArg some h3.symm
    · have h1 := h1 _ h'
      simp only at h1 hc
      rw [h1] at hc
      cases hc
  · rintro rfl
    show ((stored t "petscArgs".toList).map Node.data).getD m.petsc = v
    rw [hg]
    rfl

/-- Options without an entry have their defaults. -/
theorem conf_default {e : Env K} {cmd : Option (List Char)} {t : Conf} {o r : Opts K} (h : readConf e cmd t o = .ok r) {k : List Char} (hm : k ∉ t.map Prod.fst) (hk : k ≠ "restartFile".toList) :
    (kind k = some .text → r.text k = (fallback k).getD (o.text k)) ∧ (kind k = some .path → r.text k = o.text k) ∧ (kind k = some .real → r.real k = o.real k) ∧
    (kind k = some .int → r.int k = o.int k) ∧ (kind k = some .flag → r.flag k = o.flag k) := by
  obtain ⟨hs, m, hm', rfl⟩ := conf_ok h
  obtain ⟨v1, v2, v3, v4, v5⟩ := values_of hm'
  have ht : taken cmd t k = none := (taken_ne cmd t hk).trans (stored_none hm)
  refine ⟨fun c => ?_, fun c => ?_, fun c => ?_, fun c => ?_, fun c => ?_⟩
  · rcases v1 k c with ⟨n, h1, h2⟩ | ⟨h1, h2⟩
    · rw [ht] at h1
      cases h1
    · exact h2
  · rcases v2 k c with ⟨n, x, h1, h2⟩ | ⟨h1, h2⟩
    · rw [ht] at h1
      cases h1
    · exact h2
  · rcases v3 k c with ⟨n, x, h1, h2⟩ | ⟨h1, h2⟩
    · rw [ht] at h1
      cases h1
    · exact h2
  · rcases v4 k c with ⟨n, x, h1, h2⟩ | ⟨h1, h2⟩
    · rw [ht] at h1
      cases h1
    · exact h2
  · rcases v5 k c with ⟨n, x, h1, h2⟩ | ⟨h1, h2⟩
    · rw [ht] at h1
      cases h1
    · exact h2

/-- The lists of the other format. -/
theorem conf_done {e : Env K} {cmd : Option (List Char)} {t : Conf} {o r : Opts K} (h : readConf e cmd t o = .ok r) :
    ∃ m, Done e e.confReal (taken cmd t) (singles e.confReal e.confInt e.confFlag (taken cmd t) o) m ∧ r = { m with petsc := r.petsc } := by
  obtain ⟨-, m, hm, rfl⟩ := conf_ok h
  exact ⟨m, (setters_iff ..).1 hm, rfl⟩

theorem conf_taken (e : Env K) (cmd : Option (List Char)) (t : Conf) (o : Opts K) : readConf e cmd t o = if storable e t then
    (setters e e.confReal (taken cmd t) (singles e.confReal e.confInt e.confFlag (taken cmd t) o)).bind fun o => .ok { o with petsc := ((stored t "petscArgs".toList).map Node.data).getD o.petsc } else .threw := by
  unfold readConf
  split
  · show Res.bind _ _ = Res.bind _ _
    congr 1
    funext o
    cases stored t "petscArgs".toList <;> rfl
  · rfl

/-- The order of the entries does not matter. -/
theorem conf_order (e : Env K) (cmd : Option (List Char)) {t t' : Conf} (h : t.Perm t') (o : Opts K) : readConf e cmd t o = readConf e cmd t' o := by
  have hs : storable e t = storable e t' := by
    rw [Bool.eq_iff_iff]
    simp only [storable, Bool.and_eq_true, List.all_eq_true, decide_eq_true_eq, (h.map Prod.fst).nodup_iff, h.mem_iff]
  rw [conf_taken, conf_taken, hs]
  split
  · rename_i hst
    rw [← hs] at hst
    simp only [storable, Bool.and_eq_true, List.all_eq_true, decide_eq_true_eq] at hst
    have hg : stored t = stored t' := by
      funext k
      unfold stored
      rw [find_perm _ h fun x hx y hy h1 h2 => ?_]
      rw [beq_iff_eq] at h1 h2
      exact List.inj_on_of_nodup_map hst.2 hx hy (h1.trans h2.symm)
    have ht : taken cmd t = taken cmd t' := by
      funext k
      unfold taken
      rw [hg]
    rw [ht, hg]
  · rfl

/-! ### Both -/

/-- An entry of the other format written in JSON. -/
def entry (x : List Char × List Char) : List Char × Node := if x.1 = "petscArgs".toList then (x.1, ⟨[], [x.2]⟩) else (x.1, ⟨x.2, []⟩)

theorem entry_fst (x : List Char × List Char) : (entry x).1 = x.1 := by
  unfold entry
  split <;> rfl

theorem same_refl (a : List Char) : same a a = true := by simp [same]

theorem find_congr {α : Type*} {l : List α} {p q : α → Bool} (h : ∀ x ∈ l, p x = q x) : l.find? p = l.find? q := by
  induction l with
  | nil => rfl
  | cons x l ih => rw [List.find?_cons, List.find?_cons, h x (List.mem_cons_self ..), ih fun y hy => h y (List.mem_cons_of_mem _ hy)]

theorem look_entry {t : Conf} (ht : ∀ x ∈ t, x.1 ∈ names) {k : List Char} (hk : k ∈ names) : look (t.map entry) k = (t.find? fun e => e.1 == k).map fun x => (entry x).2 := by
  unfold look
  rw [List.find?_map, Option.map_map]
  have : t.find? ((fun e => same e.1 k) ∘ entry) = t.find? fun e => e.1 == k := by
    refine find_congr fun x hx => ?_
    simp only [Function.comp, entry_fst]
    rw [Bool.eq_iff_iff, beq_iff_eq]
    exact ⟨fun h => same_names _ (ht x hx) _ hk h, fun h => by rw [h]; exact same_refl k⟩
  rw [this]
  rfl

/-- **Both formats**: what the other format accepts is read from JSON with the same result, where the conversions of texts agree. -/
theorem agree (e : Env K) (t : Conf) (o : Opts K) (hp : o.petsc = []) (hs : storable e t = true) (hr : ∀ x ∈ t, kind x.1 = some .real → e.jsonReal x.2 = e.confReal x.2)
    (hi : ∀ x ∈ t, kind x.1 = some .int → strict x.2 = e.confInt x.2) (hf : ∀ x ∈ t, kind x.1 = some .flag → e.jsonFlag x.2 = e.confFlag x.2) :
    readJson e (t.map entry) o = readConf e none t o := by
  have hs' := hs
  simp only [storable, Bool.and_eq_true, List.all_eq_true, decide_eq_true_eq] at hs'
  have ht : ∀ x ∈ t, x.1 ∈ names := by
    intro x hx
    have := hs'.1 x hx
    unfold converts at this
    cases hk : kind x.1 with
    | none => simp [hk] at this
    | some c => exact kind_names hk
  have hl : ∀ k ∈ names, k ≠ "petscArgs".toList → look (t.map entry) k = taken none t k := by
    intro k hk hne
    rw [look_entry ht hk, taken_none]
    unfold stored
    cases hx : t.find? fun e => e.1 == k with
    | none => rfl
    | some x =>
      have := List.find?_some hx
      rw [beq_iff_eq] at this
      have hxe : x.1 ≠ "petscArgs".toList := fun h => hne (this.symm.trans h)
      show some (entry x).2 = some _
      rw [entry, if_neg hxe]
  have hmem : ∀ k ∈ names, k ≠ "petscArgs".toList → ∀ n, look (t.map entry) k = some n → (k, n.data) ∈ t := by
    intro k hk hne n hn
    rw [look_entry ht hk] at hn
    obtain ⟨x, hx, rfl⟩ := Option.map_eq_some_iff.1 hn
    have h1 := List.find?_some hx
    rw [beq_iff_eq] at h1
    subst h1
    rw [entry, if_neg hne]
    exact List.mem_of_find?_eq_some hx
  have hnp : ∀ k c, c ≠ .list → kind k = some c → k ≠ "petscArgs".toList := by
    rintro k c hc hk rfl
    have : kind "petscArgs".toList = some .list := by decide +kernel
    rw [this] at hk
    exact hc (Option.some.inj hk).symm
  rw [conf_taken, if_pos hs]
  unfold readJson
  rw [singles_congr (fun k hk hne => hl k hk hne) (fun k n hk hn => hr (k, n.data) (hmem k (kind_names hk) (hnp k _ (by decide) hk) n hn) hk)
    (fun k n hk hn => hi (k, n.data) (hmem k (kind_names hk) (hnp k _ (by decide) hk) n hn) hk) (fun k n hk hn => hf (k, n.data) (hmem k (kind_names hk) (hnp k _ (by decide) hk) n hn) hk),
    setters_congr e (fun k hk => hl k (asked_names k hk).1 (asked_names k hk).2)
      (fun n hn => hr ("flux".toList, n.data) (hmem "flux".toList (by decide +kernel) (by decide +kernel) n hn) (show kind "flux".toList = some .real by decide +kernel))]
  cases hm : setters e e.confReal (taken none t) (singles e.confReal e.confInt e.confFlag (taken none t) o) with
  | threw => rfl
  | undefined => rfl
  | ok m =>
    have hpm : m.petsc = [] := ((setters_iff ..).1 hm).petsc.trans hp
    simp only [Res.bind]
    rw [look_entry ht (by decide +kernel)]
    unfold stored
    cases hx : t.find? fun e => e.1 == "petscArgs".toList with
    | none => rfl
    | some x =>
      have := List.find?_some hx
      rw [beq_iff_eq] at this
      simp only [Option.map_some, entry, if_pos this, hpm, petscArgs, Option.getD_some]
      rfl

/-! ### What JSON loses -/

/-- A path with a blank in it is dropped. -/
theorem json_path_lost {e : Env K} {t : Tree} {o r : Opts K} (h : readJson e t o = .ok r) {k : List Char} {n : Node} (hk : kind k = some .path) (hl : look t k = some n) (hn : readPath n.data = none) :
    r.text k = o.text k := by
  rcases (json_values h).path k hk with ⟨m, x, h1, h2, -⟩ | ⟨-, h2⟩
  · rw [hl] at h1
    cases h1
    rw [hn] at h2
    cases h2
  · exact h2

theorem dropWhile_app {p : Char → Bool} (a b : List Char) (h : ∀ c ∈ a, p c = true) : (a ++ b).dropWhile p = b.dropWhile p := by
  induction a with
  | nil => rfl
  | cons x a ih =>
    rw [List.cons_append, List.dropWhile_cons_of_pos (h x List.mem_cons_self)]
    exact ih fun c hc => h c (List.mem_cons_of_mem _ hc)

/-- A path is read exactly if it is one word that does not begin with a quotation mark, with blanks only around it. -/
theorem readPath_iff (t w : List Char) : readPath t = some w ↔
    w ≠ [] ∧ w.head? ≠ some '"' ∧ (∀ c ∈ w, Tokenizer.space c = false) ∧ ∃ a b, t = a ++ (w ++ b) ∧ (∀ c ∈ a, Tokenizer.space c = true) ∧ ∀ c ∈ b, Tokenizer.space c = true := by
  constructor
  · intro h
    simp only [readPath] at h
    split at h
    · cases h
    · rename_i hn
      simp only [not_or, ne_eq, not_not] at hn
      obtain ⟨h1, h2, h3⟩ := hn
      cases h
      refine ⟨h1, h2, fun c hc => by simpa using List.mem_takeWhile_imp hc, t.takeWhile Tokenizer.space, _, ?_, fun c hc => List.mem_takeWhile_imp hc, List.dropWhile_eq_nil_iff.1 h3⟩
      rw [List.takeWhile_append_dropWhile, List.takeWhile_append_dropWhile]
  · rintro ⟨h1, h2, h3, a, b, rfl, ha, hb⟩
    have e1 : (a ++ (w ++ b)).dropWhile Tokenizer.space = w ++ b := by
      rw [dropWhile_app a _ ha]
      cases w with
      | nil => exact absurd rfl h1
      | cons x w => rw [List.cons_append, List.dropWhile_cons_of_neg (by simp [h3 x List.mem_cons_self])]
    have e2 : (w ++ b).takeWhile (fun c => !Tokenizer.space c) = w := by
      rw [List.takeWhile_append_of_pos (fun c hc => by simp [h3 c hc])]
      cases b with
      | nil => simp
      | cons x b => rw [List.takeWhile_cons_of_neg (by simp [hb x List.mem_cons_self]), List.append_nil]
    have e3 : (w ++ b).dropWhile (fun c => !Tokenizer.space c) = b := by
      rw [dropWhile_app w _ (fun c hc => by simp [h3 c hc])]
      cases b with
      | nil => rfl
      | cons x b => rw [List.dropWhile_cons_of_neg (by simp [hb x List.mem_cons_self])]
    simp only [readPath, e1, e2, e3, List.dropWhile_eq_nil_iff.2 hb]
    simp [h1, h2]

/-- The texts that the readers put in place of options that are missing. -/
theorem fallback_iff (k v : List Char) : fallback k = some v ↔
    (k, v) ∈ [("logLevel".toList, "info".toList), ("tempHandler".toList, "constant".toList), ("perfHandler".toList, "os".toList), ("vizHandler".toList, "dummy".toList), ("gridType".toList, "uniform".toList)] := by
  simp only [List.mem_cons, List.not_mem_nil, or_false, Prod.mk.injEq]
  unfold fallback
  constructor
  · intro h
    split at h
    · cases h; exact .inl ⟨by assumption, rfl⟩
    split at h
    · cases h; exact .inr (.inl ⟨by assumption, rfl⟩)
    split at h
    · cases h; exact .inr (.inr (.inl ⟨by assumption, rfl⟩))
    split at h
    · cases h; exact .inr (.inr (.inr (.inl ⟨by assumption, rfl⟩)))
    split at h
    · cases h; exact .inr (.inr (.inr (.inr ⟨by assumption, rfl⟩)))
    · cases h
  · rintro (⟨rfl, rfl⟩ | ⟨rfl, rfl⟩ | ⟨rfl, rfl⟩ | ⟨rfl, rfl⟩ | ⟨rfl, rfl⟩) <;> decide +kernel

theorem path_blank : readPath "my flux.dat".toList = none ∧ readPath "flux.dat".toList = some "flux.dat".toList := by decide +kernel

/-- A text given as a list is read as an empty one. -/
theorem json_text_list {e : Env K} {t : Tree} {o r : Opts K} (h : readJson e t o = .ok r) {k : List Char} {cs : List (List Char)} (hk : kind k = some .text) (hl : look t k = some ⟨[], cs⟩) : r.text k = [] := by
  rcases (json_values h).text k hk with ⟨m, h1, h2⟩ | ⟨h1, -⟩
  · rw [hl] at h1
    cases h1
    exact h2
  · rw [hl] at h1
    cases h1

/-- Random numbers or a pulse given as a list cannot be read. -/
theorem json_list_fails {e : Env K} {t : Tree} {o : Opts K} {cs : List (List Char)} (hl : look t "rng".toList = some ⟨[], cs⟩ ∨ look t "pulse".toList = some ⟨[], cs⟩) (r : Opts K) : readJson e t o ≠ .ok r := by
  intro h
  obtain ⟨m, d, -, -⟩ := json_done h
  have ht : Tokenizer.tokens [] = [] := by rw [Tokenizer.tokens]; rfl
  rcases hl with hl | hl
  · rcases d.rng with ⟨h1, -⟩ | ⟨x, h1, h2⟩
    · rw [hl] at h1
      cases h1
    · rw [hl] at h1
      cases h1
      simp [setRng, ht, at?, Res.bind] at h2
  · rcases d.pulse with ⟨h1, -⟩ | ⟨x, h1, h2⟩
    · rw [hl] at h1
      cases h1
    · rw [hl] at h1
      cases h1
      simp [setPulse, ht, at?, Res.bind] at h2

/-! ### Which reader -/

theorem takeWhile_all {l r : List Char} (c : Char) (h : c ∉ l) : (l ++ c :: r).takeWhile (· != c) = l := by
  induction l with
  | nil => simp
  | cons a l ih =>
    rw [List.mem_cons, not_or] at h
    rw [List.cons_append, List.takeWhile_cons, if_pos (by simpa [bne_iff_ne] using fun g => h.1 g.symm), ih h.2]

theorem dropWhile_all {l r : List Char} (c : Char) (h : c ∉ l) : (l ++ c :: r).dropWhile (· != c) = c :: r := by
  induction l with
  | nil => simp
  | cons a l ih =>
    rw [List.mem_cons, not_or] at h
    rw [List.cons_append, List.dropWhile_cons, if_pos (by simpa [bne_iff_ne] using fun g => h.1 g.symm), ih h.2]

/-- A file is read as JSON exactly if its name has something in front of a final `.json`. -/
theorem isJson_of (d : List Char) {c : Char} (hc : c ≠ '/') : isJson (d ++ c :: ".json".toList) = true := by
  have h1 : (d ++ c :: ".json".toList).reverse = "nosj".toList ++ '.' :: c :: d.reverse := by
    rw [List.reverse_append, List.reverse_cons]
    have : ".json".toList.reverse = "nosj".toList ++ ['.'] := by decide +kernel
    rw [this]
    simp only [List.append_assoc, List.cons_append, List.nil_append]
  have h2 : (d ++ c :: ".json".toList).reverse.takeWhile (· != '/') = "nosj".toList ++ '.' :: c :: d.reverse.takeWhile (· != '/') := by
    rw [h1, List.takeWhile_append_of_pos (by decide +kernel), List.takeWhile_cons, if_pos (by decide), List.takeWhile_cons, if_pos (by simpa [bne_iff_ne] using hc)]
  unfold isJson extension
  simp only [h2]
  rw [dropWhile_all '.' (by decide +kernel), takeWhile_all '.' (by decide +kernel), if_pos (by simp)]
  decide +kernel

theorem isJson_ends {p : List Char} (h : isJson p = true) : ∃ d c, c ≠ '/' ∧ p = d ++ c :: ".json".toList := by
  unfold isJson extension at h
  simp only [beq_iff_eq] at h
  generalize hn : p.reverse.takeWhile (· != '/') = n at h
  have hs : ∀ x ∈ n, x ≠ '/' := by
    intro x hx
    rw [← hn] at hx
    have := List.mem_takeWhile_imp hx
    simpa [bne_iff_ne] using this
  have h7 : p.reverse = n ++ p.reverse.dropWhile (· != '/') := by
    rw [← hn]
    exact List.takeWhile_append_dropWhile.symm
  split at h
  · rename_i hd
    have h3 : (n.takeWhile (· != '.')).reverse = "json".toList := congrArg List.tail h
    have h4 := congrArg List.reverse h3
    rw [List.reverse_reverse] at h4
    have h5 : n = n.takeWhile (· != '.') ++ n.dropWhile (· != '.') := List.takeWhile_append_dropWhile.symm
    match hm : n.dropWhile (· != '.'), hd with
    | a :: c :: r, _ =>
      have ha : a = '.' := by
        have := List.head_dropWhile_not (p := (· != '.')) (l := n) (by rw [hm]; simp)
        simp only [hm, List.head_cons, bne_eq_false_iff_eq] at this
        exact this
      rw [hm, h4, ha] at h5
      have hcs : c ≠ '/' := hs c (by rw [h5]; simp)
      rw [h5] at h7
      have h8 := congrArg List.reverse h7
      rw [List.reverse_reverse] at h8
      refine ⟨(p.reverse.dropWhile (· != '/')).reverse ++ r.reverse, c, hcs, h8.trans ?_⟩
      have : ".json".toList = '.' :: "json".toList := by decide +kernel
      rw [this]
      simp only [List.reverse_append, List.reverse_cons, List.reverse_reverse, List.append_assoc, List.cons_append, List.nil_append]
  · simp at h

/-! ### Examples -/

/-- Conversions for examples: integers. -/
def exEnv : Env ℚ :=
  ⟨fun t => Tokenizer.extract t, fun t => (Tokenizer.extract t).toNat, fun t => (strict t).map fun z => (z : ℚ), fun t => (strict t).map Int.toNat,
    fun t => if t = "true".toList ∨ t = "1".toList then some true else if t = "false".toList ∨ t = "0".toList then some false else none, fun t => (strict t).map fun z => (z : ℚ), strict,
    fun t => if t = "true".toList ∨ t = "yes".toList then some true else if t = "false".toList ∨ t = "no".toList then some false else none, fun t => t == "flux.dat".toList⟩

/-- New options. -/
def exOpts : Opts ℚ := ⟨fun _ => [], fun _ => 0, fun _ => 0, fun _ => false, [1000, 1000], [0, 0, 0, 0, 0, 0], false, false, [], none, ⟨0, 0, 0⟩, true, ⟨[], 0, 0, 0, 0, 0, 0⟩, [], ⟨1, 1, 1, 1, 1, 1⟩,
  ⟨false, none⟩, (0, 0), []⟩

/-- Whether a read succeeds with a result for which `p` holds. -/
def holds (r : Res (Opts ℚ)) (p : Opts ℚ → Bool) : Bool := match r with
  | .ok o => p o
  | _ => false

/-- A file in JSON: other case, an unknown name, a name twice, a list, a number that cannot be read. -/
def exTree : Tree := [("FLUX".toList, ⟨"40".toList, []⟩), ("boundery".toList, ⟨"0 0".toList, []⟩), ("tempParam".toList, ⟨[], ["900".toList]⟩), ("tempParam".toList, ⟨[], ["1".toList]⟩), ("zeta".toList, ⟨"x".toList, []⟩),
  ("fluxFile".toList, ⟨"flux.dat".toList, []⟩), ("boundary".toList, ⟨"1 0".toList, []⟩), ("netParam".toList, ⟨"8 0 0 2 1".toList, []⟩), ("petscArgs".toList, ⟨[], ["-ts_dt".toList, "1".toList]⟩)]

example : holds (readJson exEnv exTree exOpts) (fun o => o.real "flux".toList == 40 && o.fluxFlag && o.fluxProfile && o.temp == [900, 1000] && o.real "zeta".toList == 0 && o.sides == ⟨1, 0, 1, 1, 1, 1⟩ && !o.hdf5 &&
    o.net.v == 2 && o.petsc == "-ts_dt 1".toList && o.text "perfHandler".toList == "os".toList) = true := by decide +kernel

/-- The same in the other format. -/
def exConf : Conf := [("flux".toList, "40".toList), ("tempParam".toList, "900".toList), ("fluxFile".toList, "flux.dat".toList), ("boundary".toList, "1 0".toList), ("restartFile".toList, "a.h5".toList),
  ("petscArgs".toList, "-ts_dt 1".toList)]

example : holds (readConf exEnv (some "b.h5".toList) exConf exOpts) (fun o => o.real "flux".toList == 40 && o.fluxFlag && o.fluxProfile && o.temp == [900, 1000] && o.sides == ⟨1, 0, 1, 1, 1, 1⟩ &&
    o.petsc == "-ts_dt 1".toList && o.text "restartFile".toList == "b.h5".toList) = true := by decide +kernel

example : readJson exEnv (exConf.map entry) exOpts = readConf exEnv none exConf exOpts := by
  refine agree exEnv exConf exOpts rfl (by decide +kernel) (fun x _ _ => rfl) (fun x _ _ => rfl) ?_
  decide +kernel

/-- A misspelt name is refused by one reader and ignored by the other. -/
example : readConf exEnv none [("boundery".toList, "0 0".toList)] exOpts = .threw ∧ readJson exEnv [("boundery".toList, ⟨"0 0".toList, []⟩)] exOpts = readJson exEnv [] exOpts :=
  ⟨conf_refuses _ _ _ _ (Or.inr ⟨_, List.mem_singleton.2 rfl, Or.inl (by decide +kernel)⟩), json_unknown exEnv [] [] _ (by decide +kernel) _⟩

/-- Two texts may be read by one reader only. -/
example : holds (readConf exEnv none [("useSubnetworks".toList, "yes".toList)] exOpts) (fun o => o.flag "useSubnetworks".toList) = true ∧
    holds (readJson exEnv [("useSubnetworks".toList, ⟨"yes".toList, []⟩)] exOpts) (fun o => !o.flag "useSubnetworks".toList) = true := by decide +kernel

example : isJson "run/params.json".toList = true ∧ isJson "params.JSON".toList = false ∧ isJson "a.json/params".toList = false := by decide +kernel

end Xolotl.Options.Readers
