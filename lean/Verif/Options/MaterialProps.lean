import Verif.Options.Material
import Mathlib.Tactic.SplitIfs
import Mathlib.Tactic.Tauto

/-!
# What the options make of the handlers (C101)
-/

set_option linter.unusedSectionVars false

namespace Xolotl.Options.Material

variable {L : Type*}

/-- The letter of a direction. -/
def Axis.letter : Axis → String
  | .x => "X" | .y => "Y" | .z => "Z"

/-- The directions that the constructor lets through. -/
def Axis.accepted (dim : ℤ) (a : Axis) : Prop := a = .x ∨ 2 ≤ dim

/-- The tokens of a list of boundaries: letter, location, letter, location, … -/
def written : List (Axis × String) → List String
  | [] => []
  | s :: r => s.1.letter :: s.2 :: written r

theorem letter_inj {a b : Axis} (h : a.letter = b.letter) : a = b := by
  cases a <;> cases b <;> first | rfl | exact absurd h (by decide)

/-- A letter that is let through. -/
def read (dim : ℤ) (t : String) : Option Axis :=
  if t = "X" then some .x else if t = "Y" then (if dim < 2 then none else some .y) else if t = "Z" then (if dim < 2 then none else some .z) else none

theorem read_iff (dim : ℤ) (t : String) (a : Axis) : read dim t = some a ↔ t = a.letter ∧ a.accepted dim := by
  unfold read Axis.accepted
  by_cases hx : t = "X"
  · subst hx; cases a <;> simp [Axis.letter]
  by_cases hy : t = "Y"
  · subst hy
    by_cases hd : dim < 2
    · cases a <;> simp [Axis.letter, hd, Int.not_le.mpr hd]
    · cases a <;> simp [Axis.letter, hd, Int.not_lt.mp hd]
  by_cases hz : t = "Z"
  · subst hz
    by_cases hd : dim < 2
    · cases a <;> simp [Axis.letter, hd, Int.not_le.mpr hd]
    · cases a <;> simp [Axis.letter, hd, Int.not_lt.mp hd]
  · cases a <;> simp [Axis.letter, hx, hy, hz]

theorem boundaries_one (strtod : String → L) (dim : ℤ) (t : String) : boundaries strtod dim [t] = if (read dim t).isSome then .undefined else .throws := by
  unfold boundaries read
  split_ifs <;> simp_all

theorem boundaries_some (strtod : String → L) (dim : ℤ) (t v : String) (r : List String) (a : Axis) (h : read dim t = some a) :
    boundaries strtod dim (t :: v :: r) = (boundaries strtod dim r).bind fun l => .ok (.boundary a (strtod v) dim :: l) := by
  unfold read at h
  rw [boundaries]
  split_ifs at h ⊢ <;> simp_all

theorem boundaries_none (strtod : String → L) (dim : ℤ) (t v : String) (r : List String) (h : read dim t = none) :
    boundaries strtod dim (t :: v :: r) = .throws := by
  unfold read at h
  rw [boundaries]
  split_ifs at h ⊢ <;> simp_all

theorem bind_ok_iff {α β : Type*} (x : Res α) (f : α → Res β) (b : β) : x.bind f = .ok b ↔ ∃ a, x = .ok a ∧ f a = .ok b := by
  cases x <;> simp [Res.bind]

theorem bind_undefined_iff {α β : Type*} (x : Res α) (f : α → Res β) : x.bind f = .undefined ↔ x = .undefined ∨ ∃ a, x = .ok a ∧ f a = .undefined := by
  cases x <;> simp [Res.bind]

theorem bind_throws_iff {α β : Type*} (x : Res α) (f : α → Res β) : x.bind f = .throws ↔ x = .throws ∨ ∃ a, x = .ok a ∧ f a = .throws := by
  cases x <;> simp [Res.bind]

/-- What comes of pairs that are let through, followed by other tokens. -/
theorem boundaries_written (strtod : String → L) (dim : ℤ) (specs : List (Axis × String)) (hs : ∀ s ∈ specs, s.1.accepted dim) (r : List String) :
    boundaries strtod dim (written specs ++ r) = (boundaries strtod dim r).bind fun l => .ok ((specs.map fun s => .boundary s.1 (strtod s.2) dim) ++ l) := by
  induction specs with
  | nil => simp only [written, List.nil_append, List.map_nil]; cases boundaries strtod dim r <;> rfl
  | cons s q ih =>
    have h := (read_iff dim s.1.letter s.1).mpr ⟨rfl, hs s (by simp)⟩
    simp only [written, List.cons_append]
    rw [boundaries_some _ _ _ _ _ _ h, ih fun x hx => hs x (by simp [hx])]
    cases boundaries strtod dim r <;> rfl

/-- Every list of tokens: pairs that are let through, then nothing, or one more letter that is let through, or a token that is not. -/
theorem tokens_split (dim : ℤ) : ∀ ts : List String, ∃ (specs : List (Axis × String)) (r : List String), ts = written specs ++ r ∧ (∀ s ∈ specs, s.1.accepted dim) ∧
    (r = [] ∨ (∃ a : Axis, a.accepted dim ∧ r = [a.letter]) ∨ ∃ t q, r = t :: q ∧ read dim t = none)
  | [] => ⟨[], [], rfl, by simp, .inl rfl⟩
  | [t] => by
    cases h : read dim t with
    | none => exact ⟨[], [t], rfl, by simp, .inr (.inr ⟨t, [], rfl, h⟩)⟩
    | some a => obtain ⟨rfl, ha⟩ := (read_iff dim t a).mp h; exact ⟨[], _, rfl, by simp, .inr (.inl ⟨a, ha, rfl⟩)⟩
  | t :: v :: q => by
    cases h : read dim t with
    | none => exact ⟨[], t :: v :: q, rfl, by simp, .inr (.inr ⟨t, _, rfl, h⟩)⟩
    | some a =>
      obtain ⟨rfl, ha⟩ := (read_iff dim t a).mp h
      obtain ⟨specs, r, e, hs, hr⟩ := tokens_split dim q
      exact ⟨(a, v) :: specs, r, by simp [written, e], by simpa using ⟨ha, fun a b hb => hs _ hb⟩, hr⟩

theorem written_inj : ∀ {p q : List (Axis × String)}, written p = written q → p = q
  | [], [], _ => rfl
  | [], _ :: _, h => by simp [written] at h
  | _ :: _, [], h => by simp [written] at h
  | s :: p, t :: q, h => by
    simp only [written, List.cons.injEq] at h
    rw [written_inj h.2.2, Prod.ext (letter_inj h.1) h.2.1]

/-- **C101.**  The grain boundaries are accepted exactly if the tokens are pairs of a location after a letter that is let through: `X`, or `Y` and `Z` in two or more dimensions.
Then there is one handler for each pair, in order, with its direction and location. -/
theorem boundaries_ok_iff (strtod : String → L) (dim : ℤ) (ts : List String) (l : List (Adv L)) :
    boundaries strtod dim ts = .ok l ↔ ∃ specs : List (Axis × String), ts = written specs ∧ (∀ s ∈ specs, s.1.accepted dim) ∧ l = specs.map fun s => .boundary s.1 (strtod s.2) dim := by
  constructor
  · intro h
    obtain ⟨specs, r, rfl, hs, hr⟩ := tokens_split dim ts
    rw [boundaries_written strtod dim specs hs, bind_ok_iff] at h
    obtain ⟨m, hm, he⟩ := h
    rcases hr with rfl | ⟨a, ha, rfl⟩ | ⟨t, q, rfl, ht⟩
    · obtain rfl := Res.ok.inj hm
      exact ⟨specs, by simp, hs, by simpa using (Res.ok.inj he).symm⟩
    · rw [boundaries_one, (read_iff dim _ a).mpr ⟨rfl, ha⟩] at hm; simp at hm
    · rcases q with _ | ⟨v, q⟩
      · rw [boundaries_one, ht] at hm; simp at hm
      · rw [boundaries_none _ _ _ _ _ ht] at hm; simp at hm
  · rintro ⟨specs, rfl, hs, rfl⟩
    have := boundaries_written strtod dim specs hs []
    simpa [boundaries, Res.bind] using this

/-- **C101.**  The constructor reads outside of the tokens exactly if the last letter, let through, has no location. -/
theorem boundaries_undefined_iff (strtod : String → L) (dim : ℤ) (ts : List String) :
    boundaries strtod dim ts = .undefined ↔ ∃ (specs : List (Axis × String)) (a : Axis), ts = written specs ++ [a.letter] ∧ (∀ s ∈ specs, s.1.accepted dim) ∧ a.accepted dim := by
  constructor
  · intro h
    obtain ⟨specs, r, rfl, hs, hr⟩ := tokens_split dim ts
    rw [boundaries_written strtod dim specs hs] at h
    rcases hr with rfl | ⟨a, ha, rfl⟩ | ⟨t, q, rfl, ht⟩
    · simp [boundaries, Res.bind] at h
    · exact ⟨specs, a, rfl, hs, ha⟩
    · rcases q with _ | ⟨v, q⟩
      · rw [boundaries_one, ht] at h; simp [Res.bind] at h
      · rw [boundaries_none _ _ _ _ _ ht] at h; simp [Res.bind] at h
  · rintro ⟨specs, a, rfl, hs, ha⟩
    rw [boundaries_written strtod dim specs hs, boundaries_one, (read_iff dim _ a).mpr ⟨rfl, ha⟩]; rfl

/-- **C101.**  The constructor throws exactly if, after pairs that are let through, there is in the place of a letter a token that is not: another word, or `Y` or `Z` in less than two dimensions. -/
theorem boundaries_throws_iff (strtod : String → L) (dim : ℤ) (ts : List String) :
    boundaries strtod dim ts = .throws ↔ ∃ (specs : List (Axis × String)) (t : String) (q : List String), ts = written specs ++ t :: q ∧ (∀ s ∈ specs, s.1.accepted dim) ∧
      ∀ a : Axis, t = a.letter → ¬ a.accepted dim := by
  constructor
  · intro h
    obtain ⟨specs, r, rfl, hs, hr⟩ := tokens_split dim ts
    rw [boundaries_written strtod dim specs hs] at h
    rcases hr with rfl | ⟨a, ha, rfl⟩ | ⟨t, q, rfl, ht⟩
    · simp [boundaries, Res.bind] at h
    · rw [boundaries_one, (read_iff dim _ a).mpr ⟨rfl, ha⟩] at h; simp [Res.bind] at h
    · exact ⟨specs, t, q, rfl, hs, fun a e ha => by rw [(read_iff dim t a).mpr ⟨e, ha⟩] at ht; cases ht⟩
  · rintro ⟨specs, t, q, rfl, hs, ht⟩
    have hn : read dim t = none := by
      cases h : read dim t with
      | none => rfl
      | some a => exact absurd ((read_iff dim t a).mp h).2 (ht a ((read_iff dim t a).mp h).1)
    rw [boundaries_written strtod dim specs hs]
    rcases q with _ | ⟨v, q⟩
    · rw [boundaries_one, hn]; rfl
    · rw [boundaries_none _ _ _ _ _ hn]; rfl

/-- **C101.**  The diffusion handler: the dummy without the process or without dimension, else that of the dimension; other dimensions throw, but not without the process. -/
theorem diffusion_cases (diff : Bool) (dim : ℤ) :
    (diff = false → diffusion diff dim = .ok .dummy) ∧
    (diff = true → diffusion diff 0 = .ok .dummy ∧ diffusion diff 1 = .ok .d1 ∧ diffusion diff 2 = .ok .d2 ∧ diffusion diff 3 = .ok .d3 ∧ ((dim < 0 ∨ 3 < dim) ↔ diffusion diff dim = .throws)) := by
  constructor
  · rintro rfl; rfl
  · rintro rfl
    refine ⟨rfl, rfl, rfl, rfl, ?_⟩
    simp only [diffusion, Bool.not_true, Bool.false_eq_true, if_false]
    constructor
    · intro h
      rw [if_neg (by omega), if_neg (by omega), if_neg (by omega), if_neg (by omega)]
    · intro h
      split_ifs at h
      omega

/-- The nine names of the help text.  ConfOptions.cpp:111-114. -/
def help : List String := ["W100", "W110", "W111", "W211", "Pulsed", "Fuel", "Fe", "800H", "AlphaZr"]

theorem lookup_isSome {α : Type} (name : String) : ∀ l : List (String × α), (l.lookup name).isSome ↔ name ∈ l.map Prod.fst
  | [] => by simp
  | (a, b) :: l => by
    rw [List.lookup_cons]
    by_cases h : name = a
    · subst h; simp
    · have hb : (name == a) = false := by simpa using h
      simp only [hb, List.map_cons, List.mem_cons, h, false_or]
      exact lookup_isSome name l

/-- **C101.**  The two factories know the same materials, those of the help text, and the network of a material is that of its handler: the tungsten network for the four surfaces of tungsten and `Pulsed`. -/
theorem materials_known (name : String) :
    ((∃ k, generate materials name = .ok k) ↔ name ∈ help) ∧ ((∃ n, generate networks name = .ok n) ↔ name ∈ help) ∧
    ∀ k n, generate materials name = .ok k → generate networks name = .ok n →
      (n = .psi ↔ k = .w100 ∨ k = .w110 ∨ k = .w111 ∨ k = .w211 ∨ k = .pulsed) ∧ (n = .ne ↔ k = .fuel) ∧ (n = .fe ↔ k = .fe) ∧ (n = .zr ↔ k = .zr) ∧ (n = .alloy ↔ k = .alloy) := by
  have gen : ∀ {α : Type} (l : List (String × α)), (∃ k, generate l name = .ok k) ↔ name ∈ l.map Prod.fst := by
    intro α l
    rw [← lookup_isSome]
    unfold generate
    cases l.lookup name <;> simp
  refine ⟨?_, ?_, ?_⟩
  · rw [gen]
    simp only [materials, help, List.map_cons, List.map_nil, List.mem_cons, List.not_mem_nil, or_false]
    tauto
  · rw [gen]
    simp only [networks, help, List.map_cons, List.map_nil, List.mem_cons, List.not_mem_nil, or_false]
    tauto
  · intro k n hk hn
    have hm : name ∈ materials.map Prod.fst := (gen materials).mp ⟨k, hk⟩
    simp only [materials, List.map_cons, List.map_nil, List.mem_cons, List.not_mem_nil, or_false] at hm
    rcases hm with rfl | rfl | rfl | rfl | rfl | rfl | rfl | rfl | rfl
    all_goals
      (simp [generate, materials, List.lookup_cons] at hk
       simp [generate, networks, List.lookup_cons] at hn
       subst hk; subst hn; simp)

/-- **C101.**  What a material handler holds: the diffusion handler of the dimension; first the surface advection of the material, if it has one and the process is on, or the dummy; then the grain boundaries, in any case;
the flux of the file if one is given; the Soret handler only for `W100` with the process on. -/
theorem make_iff (strtod : String → L) (o : Opts) (h : Handlers L) :
    make strtod o = .ok h ↔ ∃ k d b, generate materials o.material = .ok k ∧ diffusion o.diff o.dim = .ok d ∧ boundaries strtod o.dim o.grain = .ok b ∧
      h.diffusion = d ∧ h.advection = (if o.advec = true ∧ (k = .w100 ∨ k = .w110 ∨ k = .w111 ∨ k = .w211) then .surface k else .dummy) :: b ∧
      h.flux = (if o.profile = "" then k.flux else .custom) ∧ h.soret = (o.soret && decide (k = .w100)) := by
  have hsurf : ∀ k : Kind, (o.advec && k.surface) = true ↔ o.advec = true ∧ (k = .w100 ∨ k = .w110 ∨ k = .w111 ∨ k = .w211) := by
    intro k; cases k <;> simp [Kind.surface]
  have hsor : ∀ k : Kind, (o.soret && k.soret) = (o.soret && decide (k = .w100)) := by
    intro k; cases k <;> rfl
  have hpr : ∀ k : Kind, (if o.profile.isEmpty then k.flux else .custom) = (if o.profile = "" then k.flux else Flux.custom) := by
    intro k; simp only [String.isEmpty_iff]
  simp only [make, construct, bind_ok_iff, Res.ok.injEq, hsor, hsurf, hpr]
  constructor
  · rintro ⟨k, hk, d, hd, b, hb, rfl⟩
    exact ⟨k, d, b, hk, hd, hb, rfl, rfl, rfl, rfl⟩
  · rintro ⟨k, d, b, hk, hd, hb, h1, h2, h3, h4⟩
    refine ⟨k, hk, d, hd, b, hb, ?_⟩
    cases h; simp_all

/-- Whether a handler can be used with the network: the dummy always. -/
def Adv.usable (n : Net) (helium : Bool) (a : Adv L) : Prop := a = .dummy ∨ (n = .psi ∧ helium = true)

theorem init_ok_iff (n : Net) (helium : Bool) (a : Adv L) : a.init n helium = .ok () ↔ a.usable n helium := by
  unfold Adv.usable
  cases a <;> simp only [Adv.init] <;> by_cases hn : n = .psi <;> cases helium <;> simp [hn]

theorem initAll_ok_iff (n : Net) (helium : Bool) : ∀ l : List (Adv L), initAll n helium l = .ok () ↔ ∀ a ∈ l, a.usable n helium
  | [] => by simp [initAll]
  | a :: l => by
    simp only [initAll, bind_ok_iff, initAll_ok_iff n helium l, List.mem_cons, forall_eq_or_imp, ← init_ok_iff]
    constructor
    · rintro ⟨_, h, g⟩; exact ⟨h, g⟩
    · rintro ⟨h, g⟩; exact ⟨(), h, g⟩

theorem evaluate_ok_iff (dim : ℕ) (l : List (Adv L)) : evaluate dim l = .ok () ↔ ∀ a ∈ l, a.asks ≤ given dim := by
  unfold evaluate
  split_ifs with h
  · simpa using h
  · simpa using h

/-- The least dimension in which a boundary can be evaluated: two across and along, three for `Z`. -/
def Axis.least : Axis → ℤ
  | .x => 2 | .y => 2 | .z => 3

/-- **C101.**  In one, two or three dimensions the run reaches the end of the first evaluation of the advection exactly if the handlers are made, every boundary has its least dimension,
and there is a tungsten network with the helium clusters of sizes 1 to 7 unless the only handler is the dummy. -/
theorem run_ok_iff (strtod : String → L) (helium : Bool) (o : Opts) (h : Handlers L) (hd : 1 ≤ o.dim ∧ o.dim ≤ 3) :
    run strtod helium o = .ok h ↔ make strtod o = .ok h ∧ (∀ a v d, Adv.boundary a v d ∈ h.advection → a.least ≤ o.dim) ∧
      ((∀ a ∈ h.advection, a = .dummy) ∨ (o.material ∈ ["W100", "W110", "W111", "W211", "Pulsed"] ∧ helium = true)) := by
  have hev : ∀ l : List (Adv L), (∀ a ∈ l, a.asks ≤ given o.dim.toNat) ↔ ∀ a v d, Adv.boundary a v d ∈ l → a.least ≤ o.dim := by
    intro l
    constructor
    · intro g a v d hm
      have := g _ hm
      cases a <;> simp only [Adv.asks, given, Axis.least] at this ⊢ <;> omega
    · intro g a hm
      cases a with
      | dummy => exact Nat.zero_le _
      | surface k => simp only [Adv.asks, given]; omega
      | boundary a v d =>
        have := g a v d hm
        cases a <;> simp only [Adv.asks, given, Axis.least] at this ⊢ <;> omega
  have hnet : ∀ n, generate networks o.material = .ok n → (n = .psi ↔ o.material ∈ ["W100", "W110", "W111", "W211", "Pulsed"]) := by
    intro n hn
    have hm := (materials_known o.material).2.1.mp ⟨n, hn⟩
    generalize o.material = name at hn hm
    simp only [help, List.mem_cons, List.not_mem_nil, or_false] at hm
    rcases hm with rfl | rfl | rfl | rfl | rfl | rfl | rfl | rfl | rfl
    all_goals
      (simp [generate, networks, List.lookup_cons] at hn
       subst hn; simp)
  have hall : ∀ n (l : List (Adv L)), (∀ a ∈ l, a.usable n helium) ↔ (∀ a ∈ l, a = .dummy) ∨ (n = .psi ∧ helium = true) := by
    intro n l
    unfold Adv.usable
    by_cases hc : n = .psi ∧ helium = true
    · simp [hc]
    · simp [hc]
  simp only [run, bind_ok_iff, if_neg (show ¬ (o.dim < 0 ∨ 3 < o.dim) by omega), if_neg (show o.dim ≠ 0 by omega)]
  constructor
  · rintro ⟨n, hn, g, hg, u, hi, w, he, hh⟩
    obtain rfl := Res.ok.inj hh
    refine ⟨hg, (hev _).mp ((evaluate_ok_iff _ _).mp he), ?_⟩
    rw [← hnet n hn]
    exact (hall n _).mp ((initAll_ok_iff n helium _).mp hi)
  · rintro ⟨hm, hb, hu⟩
    obtain ⟨k, -, -, hk, -⟩ := (make_iff strtod o h).mp hm
    obtain ⟨n, hn⟩ := (materials_known o.material).2.1.mpr ((materials_known o.material).1.mp ⟨k, hk⟩)
    rw [← hnet n hn] at hu
    exact ⟨n, hn, h, hm, (), (initAll_ok_iff n helium _).mpr ((hall n _).mpr hu), (), (evaluate_ok_iff _ _).mpr ((hev _).mpr hb), rfl⟩

/-- The location, for the examples: the number of characters. -/
def lengthOf (s : String) : ℕ := s.length

/-- Options with grain boundaries. -/
def sample (material : String) (dim : ℤ) (grain : List String) : Opts := { material := material, diff := true, advec := true, soret := true, profile := "", dim := dim, grain := grain }

/-- **C101, violated: a boundary across the surface in one dimension.**  The constructor accepts it, but no run with it gets to the end of the first evaluation, for any material, network and location. -/
theorem x_boundary_line (strtod : String → L) (helium : Bool) (o : Opts) (h : Handlers L) (v : String) (r : List String) (hd : o.dim = 1) (hg : o.grain = "X" :: v :: r) :
    (r = [] → ∃ b, boundaries strtod o.dim o.grain = .ok b) ∧ run strtod helium o ≠ .ok h := by
  refine ⟨fun e => ⟨_, by rw [hg, e]; rfl⟩, fun hr => ?_⟩
  obtain ⟨hm, hb, -⟩ := (run_ok_iff strtod helium o h (by omega)).mp hr
  obtain ⟨k, d, b, -, -, hbo, -, ha, -⟩ := (make_iff strtod o h).mp hm
  rw [hg, boundaries_some strtod o.dim "X" v r .x rfl, bind_ok_iff] at hbo
  obtain ⟨l, -, e⟩ := hbo
  have := hb .x (strtod v) o.dim (by rw [ha, ← Res.ok.inj e]; simp)
  simp only [Axis.least] at this
  omega

/-- **C101, violated: a `Z` boundary in two dimensions.**  The constructor accepts it, though its message says that it cannot be used in two dimensions; the first evaluation throws. -/
theorem z_boundary_plane :
    make lengthOf (sample "W100" 2 ["Z", "12."]) = .ok { diffusion := .d2, advection := [.surface .w100, .boundary .z 3 2], flux := .w100, soret := true } ∧
    run lengthOf true (sample "W100" 2 ["Z", "12."]) = .throws := ⟨by decide +kernel, by decide +kernel⟩

/-- **C101, violated: grain boundaries in another material.**  The constructor accepts them, and the initialisation uses a null pointer. -/
theorem boundary_other_material :
    run lengthOf true (sample "Fe" 2 ["Y", "12."]) = .undefined ∧ run lengthOf true (sample "Fuel" 3 ["X", "5"]) = .undefined ∧
    run lengthOf true (sample "AlphaZr" 1 ["X", "5"]) = .undefined ∧ run lengthOf true (sample "800H" 1 ["X", "5"]) = .undefined := by
  refine ⟨?_, ?_, ?_, ?_⟩ <;> decide +kernel

/-- **C101, violated: a letter without location.** -/
theorem boundary_no_location : make lengthOf (sample "W100" 2 ["Y", "12", "Y"]) = .undefined := by decide +kernel

/-- **C101, violated: processes that a material does not have.**  `soret` for all but `W100`, and `advec` for the materials without a surface handler, change nothing, without a message. -/
theorem process_ignored (strtod : String → L) (o : Opts) (s : Bool) :
    (o.material ≠ "W100" → make strtod { o with soret := s } = make strtod o) ∧
    (o.material ∉ ["W100", "W110", "W111", "W211"] → make strtod { o with advec := s } = make strtod o) := by
  constructor
  · intro hne
    unfold make
    show (generate materials o.material).bind _ = _
    cases hk : generate materials o.material with
    | throws => rfl
    | undefined => rfl
    | ok k =>
      have : k.soret = false := by
        have hm := (materials_known o.material).1.mp ⟨k, hk⟩
        generalize o.material = name at hk hm hne
        simp only [help, List.mem_cons, List.not_mem_nil, or_false] at hm
        rcases hm with rfl | rfl | rfl | rfl | rfl | rfl | rfl | rfl | rfl
        all_goals
          (simp [generate, materials, List.lookup_cons] at hk hne
           try (subst hk; rfl))
      simp only [Res.bind, construct, this, Bool.and_false]
  · intro hne
    unfold make
    show (generate materials o.material).bind _ = _
    cases hk : generate materials o.material with
    | throws => rfl
    | undefined => rfl
    | ok k =>
      have : k.surface = false := by
        have hm := (materials_known o.material).1.mp ⟨k, hk⟩
        generalize o.material = name at hk hm hne
        simp only [help, List.mem_cons, List.not_mem_nil, or_false] at hm
        rcases hm with rfl | rfl | rfl | rfl | rfl | rfl | rfl | rfl | rfl
        all_goals
          (simp [generate, materials, List.lookup_cons] at hk hne
           try (subst hk; rfl))
      simp only [Res.bind, construct, this, Bool.and_false]

/-- **C101, violated: Soret diffusion.**  The process has an effect only for `W100` in one dimension. -/
theorem soret_used_iff (strtod : String → L) (o : Opts) (h : Handlers L) (hm : make strtod o = .ok h) : soretUsed o.dim h = true ↔ o.soret = true ∧ o.material = "W100" ∧ o.dim = 1 := by
  obtain ⟨k, d, b, hk, -, -, -, -, -, hs⟩ := (make_iff strtod o h).mp hm
  have hw : k = .w100 ↔ o.material = "W100" := by
    have hm := (materials_known o.material).1.mp ⟨k, hk⟩
    generalize o.material = name at hk hm
    simp only [help, List.mem_cons, List.not_mem_nil, or_false] at hm
    rcases hm with rfl | rfl | rfl | rfl | rfl | rfl | rfl | rfl | rfl
    all_goals
      (simp [generate, materials, List.lookup_cons] at hk
       subst hk; simp)
  simp only [soretUsed, hs, Bool.and_eq_true, decide_eq_true_eq, hw]
  tauto

/-- **C101.**  Without dimension the boundaries are made and never used: the run goes on with the handlers, for every network. -/
theorem boundary_zero_dimensions (strtod : String → L) (helium : Bool) (o : Opts) (hd : o.dim = 0) : run strtod helium o = make strtod o := by
  unfold run
  cases hn : generate networks o.material with
  | ok n =>
    simp only [Res.bind]
    cases make strtod o <;> simp [hd]
  | throws =>
    unfold make
    cases hk : generate materials o.material with
    | throws => rfl
    | undefined => unfold generate at hk; split at hk <;> cases hk
    | ok k =>
      obtain ⟨n, hn'⟩ := (materials_known o.material).2.1.mpr ((materials_known o.material).1.mp ⟨k, hk⟩)
      rw [hn] at hn'; cases hn'
  | undefined => unfold generate at hn; split at hn <;> cases hn

/-- Non-vacuity: boundaries of both kinds in three dimensions, and a plain run in one. -/
example : run lengthOf true (sample "W110" 3 ["X", "1", "Z", "12", "Y", "123"]) =
    .ok { diffusion := .d3, advection := [.surface .w110, .boundary .x 1 3, .boundary .z 2 3, .boundary .y 3 3], flux := .w110, soret := false } := by decide +kernel

example : run lengthOf false { sample "Fuel" 1 [] with profile := "flux.dat" } = .ok { diffusion := .d1, advection := [.dummy], flux := .custom, soret := false } := by decide +kernel

example : run lengthOf true (sample "W100" 1 ["X", "5"]) = .throws ∧ run lengthOf true (sample "Fe" 0 ["X", "5"]) = .ok { diffusion := .dummy, advection := [.dummy, .boundary .x 1 0], flux := .fe, soret := false } :=
  ⟨by decide +kernel, by decide +kernel⟩

example : boundaries lengthOf 1 ["X", "5", "Y", "7"] = .throws ∧ boundaries lengthOf 3 ["W", "5"] = .throws := ⟨by decide +kernel, by decide +kernel⟩

end Xolotl.Options.Material
