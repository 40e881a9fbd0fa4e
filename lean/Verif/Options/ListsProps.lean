import Verif.Options.Lists
import Verif.Util.TokenizerProps
import Mathlib.Algebra.Order.Floor.Semiring
import Mathlib.Data.Rat.Floor
import Mathlib.Data.List.GetD
import Mathlib.Tactic.NormNum
import Mathlib.Tactic.Linarith
import Mathlib.Algebra.BigOperators.Group.List.Basic

/-!
# Properties of options that are lists of values
-/

set_option linter.unusedSectionVars false

namespace Xolotl.Options.Lists

open Xolotl.Util

/-! ### Arrays -/

theorem fill_steps {α : Type*} (a p : List α) (n : ℕ) (hn : n ≤ p.length) (hp : p.length ≤ a.length) :
    (List.range n).foldl (assignAt p) a = p.take n ++ a.drop n := by
  induction n with
  | zero => simp
  | succ n ih =>
    rw [List.range_succ, List.foldl_append, ih (by omega)]
    simp only [List.foldl_cons, List.foldl_nil]
    have hn' : n < p.length := by omega
    unfold assignAt
    rw [List.getElem?_eq_getElem hn']
    simp only
    apply List.ext_getElem?
    intro i
    rw [List.getElem?_set, List.getElem?_append, List.getElem?_append]
    simp only [List.length_take, List.length_append, List.length_drop, List.getElem?_take, List.getElem?_drop]
    rcases lt_trichotomy n i with h | h | h
    · rw [if_neg (by omega), if_neg (by omega), if_neg (by omega)]
      congr 1
      omega
    · subst h
      rw [if_pos rfl, if_pos (by omega), if_pos (by omega), if_pos (by omega), List.getElem?_eq_getElem hn']
    · rw [if_neg (by omega), if_pos (by omega), if_pos (by omega), if_pos (by omega), if_pos (by omega)]

/-- Assigning the given values to the front of an array. -/
theorem fill_eq {α : Type*} (a p : List α) (hp : p.length ≤ a.length) : fill a p = p ++ a.drop p.length := by
  rw [fill, fill_steps a p _ le_rfl hp, List.take_length]

/-- **Temperature parameters.**  At most two values: they replace the first ones and the others keep what they were.  More are rejected. -/
theorem temp_spec {K : Type*} (a p : List K) (ha : a.length = 2) :
    setTemp a p = if p.length ≤ 2 then .ok (p ++ a.drop p.length) else .threw := by
  unfold setTemp
  by_cases h : p.length ≤ 2
  · rw [if_neg (by omega), if_pos h, fill_eq a p (by omega)]
  · rw [if_pos (by omega), if_neg h]

example : setTemp [0, 0] [(1000 : ℤ)] = .ok [1000, 0] := by rw [temp_spec _ _ rfl]; rfl

/-- **Grid parameters**, at most six. -/
theorem grid_spec {K : Type*} (a p : List K) (ha : a.length = 6) :
    setGrid a p = if p.length ≤ 6 then .ok (p ++ a.drop p.length) else .threw := by
  unfold setGrid
  by_cases h : p.length ≤ 6
  · rw [if_neg (by omega), if_pos h, fill_eq a p (by omega)]
  · rw [if_pos (by omega), if_neg h]

example : setGrid [0, 0, 0, 0, 0, 0] [(50 : ℤ), 1] = .ok [50, 1, 0, 0, 0, 0] := by rw [grid_spec _ _ rfl]; rfl

/-- The boundaries in the order they are given in. -/
def Sides.list (o : Sides) : List ℤ := [o.left, o.right, o.bottom, o.top, o.front, o.back]

/-- **Boundaries.**  From two values on, the sides take the values in order and the others keep what they were; further values are ignored. -/
theorem boundaries_spec (o : Sides) (p : List ℤ) (hp : 2 ≤ p.length) :
    (setBoundaries o p).list = (p ++ o.list.drop p.length).take 6 := by
  obtain ⟨l, r, b, t, f, k⟩ := o
  match p, hp with
  | [_, _], _ => rfl
  | [_, _, _], _ => rfl
  | [_, _, _, _], _ => rfl
  | [_, _, _, _, _], _ => rfl
  | [_, _, _, _, _, _], _ => rfl
  | a :: b :: c :: d :: e :: g :: h :: r, _ =>
    unfold setBoundaries
    rw [if_neg (by simp)]
    simp [Sides.list]

/-- **Finding.**  A single value is dropped without notice. -/
theorem boundaries_single (o : Sides) (p : List ℤ) (hp : p.length < 2) : setBoundaries o p = o := if_pos hp

example : (setBoundaries ⟨1, 1, 1, 1, 1, 1⟩ [0, 1, 0]).list = [0, 1, 0, 1, 1, 1] ∧ setBoundaries ⟨1, 1, 1, 1, 1, 1⟩ [0] = ⟨1, 1, 1, 1, 1, 1⟩ := by decide

/-! ### Time steps, pulses, groups -/

section
variable {K : Type*} [Field K] [LinearOrder K] [IsStrictOrderedRing K] [FloorRing K]

/-- **Coupled time steps.**  The call returns exactly for six values whose last one is positive (and small enough), and then every value is kept, the last one cut to a whole number. -/
theorem coupling_spec (p : List K) (c : Coupling K) :
    setCoupling p = .ok c ↔ ∃ n : K, p = [c.initial, c.max, c.growth, c.start, c.stop, n] ∧ 0 < n ∧ c.steps < 2 ^ 32 ∧ (c.steps : K) ≤ n ∧ n < c.steps + 1 := by
  constructor
  · intro h
    unfold setCoupling at h
    split_ifs at h with h1 h2 h3
    match p, not_not.1 h1 with
    | [a, b, d, e, f, g], _ =>
      simp only [List.getD_cons_zero, List.getD_cons_succ, Res.ok.injEq] at h h2 h3
      subst h
      have hg : 0 < g := not_le.1 h2
      have h0 : 0 ≤ ⌊g⌋ := Int.floor_nonneg.2 hg.le
      have hc : ((⌊g⌋.toNat : ℕ) : K) = (⌊g⌋ : K) := by
        have : ((⌊g⌋.toNat : ℕ) : ℤ) = ⌊g⌋ := Int.toNat_of_nonneg h0
        exact_mod_cast congrArg (fun z : ℤ => (z : K)) this
      have hs : ⌊g⌋.toNat < 2 ^ 32 := by unfold ids at h3; omega
      refine ⟨g, rfl, hg, hs, ?_, ?_⟩
      · simp only [hc]
        exact Int.floor_le g
      · simp only [hc]
        exact Int.lt_floor_add_one g
  · rintro ⟨n, rfl, hn, hs, h1, h2⟩
    obtain ⟨a, b, d, e, f, s⟩ := c
    simp only at *
    have hf : ⌊n⌋ = (s : ℤ) := by
      rw [Int.floor_eq_iff]
      push_cast
      exact ⟨h1, h2⟩
    unfold setCoupling
    rw [if_neg (by simp)]
    simp only [List.getD_cons_zero, List.getD_cons_succ]
    rw [if_neg (not_le.2 hn), hf, if_pos (by unfold ids; omega)]
    simp

/-- Any other number of values, and a last value that is not positive, are rejected. -/
theorem coupling_rejects (p : List K) : setCoupling p = .threw ↔ p.length ≠ 6 ∨ p.getD 5 0 ≤ 0 := by
  unfold setCoupling
  split_ifs with h1 h2 h3 <;> simp_all

/-- **Finding.**  A number of steps between zero and one passes the check and becomes zero steps. -/
theorem steps_zero {n : K} (h0 : 0 < n) (h1 : n < 1) (a b d e f : K) : setCoupling [a, b, d, e, f, n] = .ok ⟨a, b, d, e, f, 0⟩ := by
  rw [coupling_spec]
  exact ⟨n, rfl, h0, by norm_num, by simpa using h0.le, by simpa using h1⟩

end

example : setCoupling [(1 : ℚ), 10, 2, 0, 100, 5] = .ok ⟨1, 10, 2, 0, 100, 5⟩ := by
  rw [coupling_spec]
  exact ⟨5, rfl, by norm_num, by norm_num, by norm_num, by norm_num⟩

/-- **Pulses.**  The first two values are used; with fewer the call reads past the end. -/
theorem pulse_spec {K : Type*} (a b : K) (r : List K) : setPulse (a :: b :: r) = .ok (a, b) := rfl

/-- **Finding.**  With one value or none the call reads past the end. -/
theorem pulse_undefined {K : Type*} (p : List K) : setPulse p = .undefined ↔ p.length < 2 := by
  match p with
  | [] => simp [setPulse, at?, Res.bind]
  | [a] => simp [setPulse, at?, Res.bind]
  | a :: b :: r => simp [setPulse, at?, Res.bind]

/-- **Groups.**  Two values leave the second width as it was, three set it, further ones are ignored. -/
theorem grouping_spec (o : Grouping) (m a : ℤ) (r : List ℤ) : setGrouping o (m :: a :: r) = .ok ⟨m, a, r.headD o.b⟩ := by
  cases r <;> simp [setGrouping, at?, Res.bind]

/-- **Finding.**  With one value or none the call reads past the end. -/
theorem grouping_undefined (o : Grouping) (p : List ℤ) : setGrouping o p = .undefined ↔ p.length < 2 := by
  match p with
  | [] => simp [setGrouping, at?, Res.bind]
  | [a] => simp [setGrouping, at?, Res.bind]
  | a :: b :: r => simp [grouping_spec]

example : setGrouping ⟨100, 1, 0⟩ [30, 4] = .ok ⟨30, 4, 0⟩ := rfl

/-! ### Minimum sizes -/

theorem setRadius_eq (o : List ℕ) (p : List ℤ) : setRadius o p = o ++ p.map toSize := by
  unfold setRadius
  induction p generalizing o with
  | nil => simp
  | cons z p ih => rw [List.foldl_cons, ih]; simp

/-- Several calls add up. -/
theorem setRadius_calls (ps : List (List ℤ)) : ps.foldl setRadius [] = ps.flatten.map toSize := by
  have h : ∀ o, ps.foldl setRadius o = o ++ ps.flatten.map toSize := by
    induction ps with
    | nil => simp
    | cons p ps ih => intro o; rw [List.foldl_cons, ih, setRadius_eq]; simp
  rw [h, List.nil_append]

theorem toSize_nonneg {z : ℤ} (h : 0 ≤ z) (hm : z < 2 ^ 64) : (toSize z : ℤ) = z := by
  unfold toSize
  rw [Int.emod_eq_of_lt h hm, Int.toNat_of_nonneg h]

theorem minSizes_steps (cut : ℕ → ℕ) (s n : ℕ) (o : List ℕ) (hn : n ≤ s) (i : ℕ) :
    ((List.range n).foldl (fun a i => a.set i (cut (o.getD i 0))) (List.replicate s 1))[i]? =
      if i < s then some (if i < n then cut (o.getD i 0) else 1) else none := by
  induction n with
  | zero =>
    simp only [List.range_zero, List.foldl_nil, List.getElem?_replicate, Nat.not_lt_zero, if_false]
  | succ n ih =>
    rw [List.range_succ, List.foldl_append]
    simp only [List.foldl_cons, List.foldl_nil, List.getElem?_set]
    have hl : ((List.range n).foldl (fun a i => a.set i (cut (o.getD i 0))) (List.replicate s 1)).length = s := by
      clear * -
      induction n with
      | zero => simp
      | succ n ih => rw [List.range_succ, List.foldl_append]; simpa using ih
    rw [hl, ih (by omega)]
    by_cases h : n = i
    · subst h
      rw [if_pos rfl, if_pos (by omega), if_pos (by omega), if_pos (by omega)]
    · rw [if_neg h]
      by_cases h1 : i < s
      · rw [if_pos h1, if_pos h1]
        by_cases h2 : i < n
        · rw [if_pos h2, if_pos (by omega)]
        · rw [if_neg h2, if_neg (by omega)]
      · rw [if_neg h1, if_neg h1]

/-- **Minimum sizes.**  A species has the value given for it, and one if none is given; values beyond the species are ignored. -/
theorem minSizes_spec (cut : ℕ → ℕ) (s : ℕ) (p : List ℤ) (i : ℕ) (hi : i < s) :
    (minSizes cut s (setRadius [] p))[i]? = some (match p[i]? with | some z => cut (toSize z) | none => 1) := by
  unfold minSizes
  rw [minSizes_steps cut s _ _ (by omega) i, if_pos hi, setRadius_eq, List.nil_append, List.length_map]
  by_cases h : i < p.length
  · rw [if_pos (by omega), List.getElem?_eq_getElem h]
    simp [h]
  · rw [if_neg (by omega), List.getElem?_eq_none (by omega)]

/-- The network and the solver use the same sizes for values of an `int` that are not negative. -/
theorem minSizes_agree (s : ℕ) (p : List ℤ) (hp : ∀ z ∈ p, 0 ≤ z ∧ z < 2 ^ 31) (i : ℕ) (hi : i < s) :
    (minSizes (· % 2 ^ 32) s (setRadius [] p))[i]? = (minSizes id s (setRadius [] p))[i]? := by
  rw [minSizes_spec _ s p i hi, minSizes_spec _ s p i hi]
  by_cases h : i < p.length
  · rw [List.getElem?_eq_getElem h]
    have := hp _ (List.getElem_mem h)
    have hz : (toSize p[i] : ℤ) = p[i] := toSize_nonneg this.1 (by omega)
    simp only [id, Option.some.injEq]
    omega
  · rw [List.getElem?_eq_none (by omega)]

example : minSizes id 4 (setRadius [] [3, 5]) = [3, 5, 1, 1] := by decide

/-! ### Random numbers -/

/-- A token made of digits. -/
def Digits (l : List Char) : Prop := l ≠ [] ∧ ∀ c ∈ l, Tokenizer.isDigit c = true

theorem digits_token {l : List Char} (h : Digits l) : Tokenizer.IsToken l := by
  refine ⟨h.1, fun hb => ?_⟩
  have := h.2 ' ' hb
  revert this
  decide

theorem take_digits {l : List Char} (h : ∀ c ∈ l, Tokenizer.isDigit c = true) : l.takeWhile Tokenizer.isDigit = l ∧ l.dropWhile Tokenizer.isDigit = [] := by
  induction l with
  | nil => simp
  | cons c l ih =>
    have hc := h c (by simp)
    have := ih fun d hd => h d (by simp [hd])
    simp [hc, this.1, this.2]

theorem strtoul_digits {l : List Char} (h : Digits l) : strtoul l = (min (Tokenizer.value l) (2 ^ 64 - 1), []) := by
  obtain ⟨c, r, rfl⟩ := List.exists_cons_of_ne_nil h.1
  have hc := Tokenizer.digit_facts (h.2 c (by simp))
  have hs : (c :: r).dropWhile Tokenizer.space = c :: r := by rw [List.dropWhile_cons_of_neg (by simp [hc.1])]
  have hg : Tokenizer.sign (c :: r) = (false, c :: r) := by
    unfold Tokenizer.sign
    split
    · next heq => exact absurd (List.cons.inj heq).1 hc.2.1
    · next heq => exact absurd (List.cons.inj heq).1 hc.2.2
    · rfl
  have ht : (c :: r).takeWhile Tokenizer.isDigit = c :: r := (take_digits h.2).1
  have hd : (c :: r).dropWhile Tokenizer.isDigit = [] := (take_digits h.2).2
  unfold strtoul
  simp only [hs, hg, ht, hd]
  rw [if_neg (by simp)]
  split_ifs with h1 h2
  · rw [min_eq_right (by omega)]
  · simp at h2
  · rw [min_eq_left (by omega)]

/-- **Seed.**  A number is the seed, at most the largest `unsigned long`, modulo the range of `unsigned int`; the word `print` in front asks for printing. -/
theorem rng_seed (o : Rng) {d : List Char} (hd : Digits d) :
    setRng o d = .ok ⟨false, some (min (Tokenizer.value d) (2 ^ 64 - 1) % 2 ^ 32)⟩ ∧
      setRng o (Tokenizer.join ["print".toList, d]) = .ok ⟨true, some (min (Tokenizer.value d) (2 ^ 64 - 1) % 2 ^ 32)⟩ ∧
      setRng o "print".toList = .ok ⟨true, o.seed⟩ := by
  have hp : d ≠ "print".toList := by
    rintro rfl
    have := hd.2 'p' (by decide)
    revert this
    decide
  have hpt : Tokenizer.IsToken "print".toList := ⟨by decide, by decide⟩
  have t1 : Tokenizer.tokens d = [d] := Tokenizer.tokens_join (ts := [d]) (by simpa using digits_token hd)
  have t2 : Tokenizer.tokens (Tokenizer.join ["print".toList, d]) = ["print".toList, d] :=
    Tokenizer.tokens_join (by simpa using ⟨hpt, digits_token hd⟩)
  have t3 : Tokenizer.tokens "print".toList = ["print".toList] := Tokenizer.tokens_join (ts := ["print".toList]) (by simpa using hpt)
  refine ⟨?_, ?_, ?_⟩
  · unfold setRng
    simp only [t1, at?, List.getElem?_cons_zero, Res.bind, hp, if_false, strtoul_digits hd, ne_eq, not_true, decide_false]
  · unfold setRng
    simp only [t2, at?, List.getElem?_cons_zero, List.getElem?_cons_succ, Res.bind, if_true, strtoul_digits hd, ne_eq, not_true, if_false, decide_true]
  · unfold setRng
    simp only [t3, at?, List.getElem?_cons_zero, List.getElem?_cons_succ, List.getElem?_nil, Res.bind, if_true, decide_true]

/-- Without any word the call reads past the end. -/
theorem rng_undefined (o : Rng) (s : List Char) : setRng o s = .undefined ↔ ∀ c ∈ s, c = ' ' := by
  have key : Tokenizer.tokens s = [] ↔ ∀ c ∈ s, c = ' ' := by
    constructor
    · intro h
      have := Tokenizer.tokens_flatten s
      rw [h, List.flatten_nil, eq_comm, List.filter_eq_nil_iff] at this
      intro c hc
      simpa using this c hc
    · intro h
      exact Tokenizer.tokens_blank h
  rw [← key]
  unfold setRng
  cases h : Tokenizer.tokens s with
  | nil => simp [at?, Res.bind]
  | cons t r =>
    simp only [at?, List.getElem?_cons_zero, Res.bind, reduceCtorEq, iff_false]
    split
    · simp
    · split_ifs <;> simp

/-- **Finding.**  The message says the seed must not be negative, but a negative one is accepted; one too large for `unsigned int` is cut. -/
theorem rng_negative (o : Rng) : setRng o "-1".toList = .ok ⟨false, some (2 ^ 32 - 1)⟩ ∧ setRng o "4294967296".toList = .ok ⟨false, some 0⟩ := by
  have h1 : Tokenizer.tokens "-1".toList = ["-1".toList] := by decide +kernel
  have h2 : Tokenizer.tokens "4294967296".toList = ["4294967296".toList] := by decide +kernel
  have s1 : strtoul "-1".toList = (2 ^ 64 - 1, []) := by decide +kernel
  have s2 : strtoul "4294967296".toList = (2 ^ 32, []) := by decide +kernel
  constructor
  · unfold setRng
    simp only [h1]
    rw [show at? ["-1".toList] 0 = .ok "-1".toList from rfl]
    simp only [Res.bind]
    rw [if_neg (by decide)]
    simp only [List.getElem?_cons_zero, s1]
    rw [if_neg (by simp), show decide (_ = "print".toList) = false from by decide]
    norm_num
  · unfold setRng
    simp only [h2]
    rw [show at? ["4294967296".toList] 0 = .ok "4294967296".toList from rfl]
    simp only [Res.bind]
    rw [if_neg (by decide)]
    simp only [List.getElem?_cons_zero, s2]
    rw [if_neg (by simp), show decide (_ = "print".toList) = false from by decide]
    norm_num

/-- Trailing characters are rejected. -/
theorem rng_rejects (o : Rng) : setRng o "12x".toList = .threw ∧ setRng o "seed".toList = .threw := by
  have h1 : Tokenizer.tokens "12x".toList = ["12x".toList] := by decide +kernel
  have h2 : Tokenizer.tokens "seed".toList = ["seed".toList] := by decide +kernel
  have s1 : (strtoul "12x".toList).2 ≠ [] := by decide +kernel
  have s2 : (strtoul "seed".toList).2 ≠ [] := by decide +kernel
  constructor
  · unfold setRng
    simp only [h1]
    rw [show at? ["12x".toList] 0 = .ok "12x".toList from rfl]
    simp only [Res.bind]
    rw [if_neg (by decide)]
    simp only [List.getElem?_cons_zero, if_pos s1]
  · unfold setRng
    simp only [h2]
    rw [show at? ["seed".toList] 0 = .ok "seed".toList from rfl]
    simp only [Res.bind]
    rw [if_neg (by decide)]
    simp only [List.getElem?_cons_zero, if_pos s2]

/-- **Ranks have different seeds**, and a given seed makes every run the same. -/
theorem rankSeed_distinct (o : Rng) (t r r' : ℕ) (h : r < 2 ^ 32) (h' : r' < 2 ^ 32) (e : rankSeed o t r = rankSeed o t r') : r = r' := by
  unfold rankSeed at e
  omega

theorem rankSeed_reproducible (b : Bool) (s t t' r : ℕ) : rankSeed ⟨b, some s⟩ t r = rankSeed ⟨b, some s⟩ t' r := rfl

/-- The seed of a rank is the sum of the given seed, or the time, and the rank, modulo the range of `unsigned int`. -/
theorem rankSeed_value (b : Bool) (s t r : ℕ) : rankSeed ⟨b, some s⟩ t r = (s + r) % 4294967296 ∧ rankSeed ⟨b, none⟩ t r = (t + r) % 4294967296 := by
  unfold rankSeed
  constructor
  · norm_num
  · dsimp only; omega

/-! ### JSON -/

/-- A token that writes an integer. -/
inductive Writes : List Char → ℤ → Prop
  | pos {d} : Digits d → Writes d (Tokenizer.value d)
  | neg {d} : Digits d → Writes ('-' :: d) (-(Tokenizer.value d : ℤ))

theorem writes_token {t : List Char} {z : ℤ} (h : Writes t z) : Tokenizer.IsToken t := by
  cases h with
  | pos hd => exact digits_token hd
  | neg hd =>
    refine ⟨by simp, ?_⟩
    simp only [List.mem_cons, not_or]
    exact ⟨by decide, (digits_token hd).2⟩

theorem writes_extract {t : List Char} {z : ℤ} (h : Writes t z) (h1 : Tokenizer.intMin ≤ z) (h2 : z ≤ Tokenizer.intMax) : Tokenizer.extract t = z := by
  cases h with
  | pos hd =>
    have := Tokenizer.extract_digits (r := []) hd.1 hd.2 (by simp) h2
    simpa using this
  | @neg d hd =>
    have := Tokenizer.extract_minus (ds := d) (r := []) hd.2 (by simp) (by simp only [Tokenizer.intMin, Tokenizer.intMax] at *; omega)
    simpa using this

theorem writes_strict {t : List Char} {z : ℤ} (h : Writes t z) (h1 : Tokenizer.intMin ≤ z) (h2 : z ≤ Tokenizer.intMax) : strict t = some z := by
  cases h with
  | pos hd =>
    obtain ⟨c, r, rfl⟩ := List.exists_cons_of_ne_nil hd.1
    have hc := Tokenizer.digit_facts (hd.2 c (by simp))
    have hs : (c :: r).dropWhile Tokenizer.space = c :: r := by rw [List.dropWhile_cons_of_neg (by simp [hc.1])]
    have hg : Tokenizer.sign (c :: r) = (false, c :: r) := by
      unfold Tokenizer.sign
      split
      · next heq => exact absurd (List.cons.inj heq).1 hc.2.1
      · next heq => exact absurd (List.cons.inj heq).1 hc.2.2
      · rfl
    have ht : (c :: r).takeWhile Tokenizer.isDigit = c :: r := (take_digits hd.2).1
    have hdr : (c :: r).dropWhile Tokenizer.isDigit = [] := (take_digits hd.2).2
    unfold strict
    simp only [hs, hg, ht, hdr, Bool.false_eq_true, if_false, List.dropWhile_nil, if_true]
    rw [if_neg]
    rintro (h | h | h)
    · cases h
    · omega
    · omega
  | @neg d hd =>
    have hs : ('-' :: d).dropWhile Tokenizer.space = '-' :: d := by rw [List.dropWhile_cons_of_neg (by decide)]
    have hg : Tokenizer.sign ('-' :: d) = (true, d) := rfl
    have ht : d.takeWhile Tokenizer.isDigit = d := (take_digits hd.2).1
    have hdr : d.dropWhile Tokenizer.isDigit = [] := (take_digits hd.2).2
    unfold strict
    simp only [hs, hg, ht, hdr, if_true, List.dropWhile_nil]
    rw [if_neg]
    rintro (h | h | h)
    · exact hd.1 h
    · omega
    · omega

/-- **Both ways of writing a list agree.**  Integers in the range of `int`, written as a JSON list or as a text with blanks between them, reach the setter as the same list. -/
theorem forms_agree {ts : List (List Char)} {zs : List ℤ} (h : List.Forall₂ Writes ts zs) (hr : ∀ z ∈ zs, Tokenizer.intMin ≤ z ∧ z ≤ Tokenizer.intMax) (data : List Char) :
    intsOf ⟨Tokenizer.join ts, []⟩ = .ok zs ∧ (ts ≠ [] → intsOf ⟨data, ts⟩ = .ok zs) := by
  constructor
  · unfold intsOf
    rw [if_pos rfl]
    unfold Tokenizer.ints
    have ht : ∀ t ∈ ts, Tokenizer.IsToken t := by
      clear hr
      induction h with
      | nil => simp
      | cons h1 _ ih => simpa using ⟨writes_token h1, ih⟩
    rw [Tokenizer.tokens_join ht]
    congr 1
    clear ht
    induction h with
    | nil => rfl
    | cons h1 _ ih =>
      have h0 := hr _ (List.mem_cons_self ..)
      rw [List.map_cons, writes_extract h1 h0.1 h0.2, ih fun z hz => hr z (List.mem_cons_of_mem _ hz)]
  · intro hne
    unfold intsOf
    rw [if_neg hne]
    clear hne
    induction h with
    | nil => rfl
    | cons h1 _ ih =>
      have h0 := hr _ (List.mem_cons_self ..)
      simp only [asVector, writes_strict h1 h0.1 h0.2, orThrow, Res.bind, ih fun z hz => hr z (List.mem_cons_of_mem _ hz)]

example : List.Forall₂ Writes ["30".toList, "-4".toList] [30, -4] :=
  .cons (.pos ⟨by decide, by decide⟩) (.cons (.neg ⟨by decide, by decide⟩) .nil)

/-- **Finding.**  What is not a number is rejected in a list and becomes zero in a text. -/
theorem forms_differ : intsOf ⟨[], ["1".toList, "x".toList]⟩ = .threw ∧ intsOf ⟨"1 x".toList, []⟩ = .ok [1, 0] := by
  constructor
  · rfl
  · simp only [intsOf, if_true]
    congr 1
    decide +kernel

/-- A single value is set if it can be read. -/
theorem checkSet_read {α : Type*} {parse : List Char → Option α} {n : Node} {a : α} (h : parse n.data = some a) (old : α) :
    checkSet parse (some n) old = a := by
  unfold checkSet
  simp [h]

/-- An absent value leaves the default. -/
theorem checkSet_absent {α : Type*} (parse : List Char → Option α) (old : α) : checkSet parse none old = old := rfl

/-- **Finding.**  A value that cannot be read leaves the default as well, without notice; so does a list in the place of a value. -/
theorem checkSet_ignored (n : Node) (h : strict n.data = none) (old : ℤ) : checkSet strict (some n) old = old := by
  unfold checkSet
  simp [h]

example : checkSet strict (some ⟨"10nm".toList, []⟩) 325 = 325 ∧ checkSet strict (some ⟨[], ["10".toList]⟩) 325 = 325 := by decide

theorem append_args (a : List Char) (l : List (List Char)) (ha : a ≠ []) : l.foldl appendArg a = a ++ (l.map fun b => ' ' :: b).flatten := by
  induction l generalizing a with
  | nil => simp
  | cons b l ih =>
    rw [List.foldl_cons, ih _ (by simp [appendArg, ha])]
    simp [appendArg, ha]

/-- **Arguments for the solver library** given as a JSON list are all passed on, in order: the library sees the words of each. -/
theorem petsc_words (data : List Char) (l : List (List Char)) : Tokenizer.tokens (petscArgs [] ⟨data, l⟩) = (l.map Tokenizer.tokens).flatten := by
  have key : ∀ (l : List (List Char)) (a : List Char), Tokenizer.tokens (a ++ (l.map fun b => ' ' :: b).flatten) = Tokenizer.tokens a ++ (l.map Tokenizer.tokens).flatten := by
    intro l
    induction l with
    | nil => simp
    | cons b l ih =>
      intro a
      rw [List.map_cons, List.flatten_cons, List.map_cons, List.flatten_cons]
      have e : a ++ (' ' :: b ++ (l.map fun b => ' ' :: b).flatten) = a ++ ' ' :: (b ++ (l.map fun b => ' ' :: b).flatten) := by simp
      rw [e, Tokenizer.tokens_append, ih b]
  unfold petscArgs
  simp only
  induction l with
  | nil =>
    simp only [List.foldl_nil, List.map_nil, List.flatten_nil]
    exact Tokenizer.tokens_blank (s := []) (by intro c hc; cases hc)
  | cons b l ih =>
    rw [List.foldl_cons]
    by_cases hb : b = []
    · subst hb
      rw [show appendArg [] [] = [] from rfl, ih, List.map_cons, List.flatten_cons]
      have : Tokenizer.tokens [] = [] := Tokenizer.tokens_blank (s := []) (by intro c hc; cases hc)
      rw [this, List.nil_append]
    · have e : appendArg [] b = b := rfl
      rw [e, append_args _ _ hb, key, List.map_cons, List.flatten_cons]

/-- **Finding.**  Given as one text, as in the other kind of parameter file, they are dropped without notice. -/
theorem petsc_text_lost (data : List Char) : petscArgs [] ⟨data, []⟩ = [] := rfl

/-! ### Initial concentrations -/

section
variable {K : Type*}

/-- What the user means by three words: the cluster of so many of one species, and a number.  A negative amount is taken modulo the range of `AmountType`. -/
def Means (e : Reader K) (s a v : List Char) (c : ℕ) (x : K) : Prop :=
  ∃ (k : ℕ) (z : ℤ) (n : ℕ), e.species s = some k ∧ e.stoi a = some z ∧ n < 4294967296 ∧ (z - n) % 4294967296 = 0 ∧ e.find ((List.replicate e.count 0).set k n) = some c ∧ e.stod v = some x

theorem comp_eq (m k : ℕ) (z : ℤ) (n : ℕ) (h : n < 4294967296) (hz : (z - n) % 4294967296 = 0) : comp m k z = (List.replicate m 0).set k n := by
  unfold comp
  congr 1
  norm_num
  omega

theorem comp_ex (m k : ℕ) (z : ℤ) : ∃ n : ℕ, n < 4294967296 ∧ (z - n) % 4294967296 = 0 ∧ comp m k z = (List.replicate m 0).set k n :=
  ⟨(z % 2 ^ 32).toNat, by norm_num; omega, by norm_num; omega, rfl⟩

theorem cluster_ok (e : Reader K) (s a : List Char) (c : ℕ) :
    cluster e s a = .ok c ↔ ∃ k z, e.species s = some k ∧ e.stoi a = some z ∧ e.find (comp e.count k z) = some c := by
  unfold cluster
  cases h1 : e.species s with
  | none => simp [orThrow, Res.bind]
  | some k =>
    cases h2 : e.stoi a with
    | none => simp [orThrow, Res.bind]
    | some z =>
      simp only [orThrow, Res.bind, Option.some.injEq, exists_and_left, exists_eq_left']
      cases h3 : e.find (comp e.count k z) <;> simp

theorem cluster_never (e : Reader K) (s a : List Char) : cluster e s a ≠ .undefined := by
  unfold cluster
  cases h1 : e.species s with
  | none => simp [orThrow, Res.bind]
  | some k =>
    cases h2 : e.stoi a with
    | none => simp [orThrow, Res.bind]
    | some z =>
      simp only [orThrow, Res.bind]
      cases h3 : e.find (comp e.count k z) <;> simp

/-- A text of triples, and what they mean. -/
inductive Triples (e : Reader K) : List (List Char) → List (ℕ × K) → Prop
  | nil : Triples e [] []
  | cons {s a v c x ts l} : Means e s a v c x → Triples e ts l → Triples e (s :: a :: v :: ts) ((c, x) :: l)

/-- **Initial concentrations are read exactly**: the list is accepted if and only if it consists of triples that all mean a cluster of the network and a number, and then each is recorded, in order. -/
theorem initial_spec (e : Reader K) (ts : List (List Char)) (l : List (ℕ × K)) : initial e ts = .ok l ↔ Triples e ts l := by
  constructor
  · intro h
    induction ts using initial.induct generalizing l with
    | case1 =>
      simp only [initial, Res.ok.injEq] at h
      subst h
      exact .nil
    | case2 s =>
      simp only [initial] at h
      cases h1 : e.species s <;> simp [h1, orThrow, Res.bind] at h
    | case3 s a =>
      simp only [initial] at h
      cases h1 : cluster e s a <;> simp [h1, Res.bind] at h
    | case4 s a v r ih =>
      simp only [initial] at h
      cases h1 : cluster e s a with
      | threw => simp [h1, Res.bind] at h
      | undefined => simp [h1, Res.bind] at h
      | ok c =>
        obtain ⟨k, z, e1, e2, e3⟩ := (cluster_ok e s a c).1 h1
        cases h2 : e.stod v with
        | none => simp [h1, h2, orThrow, Res.bind] at h
        | some x =>
          cases h3 : initial e r with
          | threw => simp [h1, h2, h3, orThrow, Res.bind] at h
          | undefined => simp [h1, h2, h3, orThrow, Res.bind] at h
          | ok m =>
            simp only [h1, h2, h3, orThrow, Res.bind, Res.ok.injEq] at h
            subst h
            obtain ⟨n, n1, n2, n3⟩ := comp_ex e.count k z
            exact .cons ⟨k, z, n, e1, e2, n1, n2, n3 ▸ e3, h2⟩ (ih m h3)
  · intro h
    induction h with
    | nil => rfl
    | cons hm _ ih =>
      obtain ⟨k, z, n, e1, e2, n1, n2, e3, e4⟩ := hm
      rw [← comp_eq _ _ z n n1 n2] at e3
      simp only [initial, (cluster_ok e _ _ _).2 ⟨k, z, e1, e2, e3⟩, e4, ih, orThrow, Res.bind]

/-- Complete triples never read past the end: what is wrong in them is reported. -/
theorem initial_complete (e : Reader K) (ts : List (List Char)) (h : ts.length % 3 = 0) : initial e ts ≠ .undefined := by
  induction ts using initial.induct with
  | case1 => simp [initial]
  | case2 s => simp at h
  | case3 s a => simp at h
  | case4 s a v r ih =>
    simp only [initial]
    have hc := cluster_never e s a
    cases h1 : cluster e s a with
    | threw => simp [Res.bind]
    | undefined => exact absurd h1 hc
    | ok c =>
      have := ih (by simp only [List.length_cons] at h; omega)
      cases h2 : e.stod v with
      | none => simp [orThrow, Res.bind]
      | some x =>
        cases h3 : initial e r with
        | threw => simp [orThrow, Res.bind]
        | ok m => simp [orThrow, Res.bind]
        | undefined => exact absurd h3 this

/-- **Finding.**  With a word missing at the end, valid so far, the loop reads past the end. -/
theorem initial_missing (e : Reader K) {ts : List (List Char)} {l : List (ℕ × K)} (ht : Triples e ts l) {s a : List Char} {k : ℕ} {z : ℤ} {c : ℕ}
    (h1 : e.species s = some k) (h2 : e.stoi a = some z) (h3 : e.find (comp e.count k z) = some c) :
    initial e (ts ++ [s]) = .undefined ∧ initial e (ts ++ [s, a]) = .undefined := by
  induction ht with
  | nil =>
    constructor
    · simp [initial, h1, orThrow, Res.bind]
    · simp [initial, (cluster_ok e s a c).2 ⟨k, z, h1, h2, h3⟩, Res.bind]
  | cons hm _ ih =>
    obtain ⟨k', z', n', e1, e2, n1, n2, e3, e4⟩ := hm
    rw [← comp_eq _ _ z' n' n1 n2] at e3
    simp only [List.cons_append, initial, (cluster_ok e _ _ _).2 ⟨k', z', e1, e2, e3⟩, e4, ih.1, ih.2, orThrow, Res.bind, and_self]

theorem place_length [Zero K] (dof : ℕ) (l : List (ℕ × K)) : (place dof l).length = dof := by
  unfold place
  have : ∀ c : List K, (l.foldl (fun c p => c.set p.1 p.2) c).length = c.length := by
    induction l with
    | nil => simp
    | cons p l ih => intro c; rw [List.foldl_cons, ih]; simp
  rw [this, List.length_replicate]

/-- **A new point** has, for each cluster, the concentration that was requested last for it, and zero if none was. -/
theorem place_spec [Zero K] (dof : ℕ) (l : List (ℕ × K)) (i : ℕ) (hi : i < dof) :
    (place dof l)[i]? = some ((l.reverse.find? fun p => p.1 == i).elim 0 Prod.snd) := by
  unfold place
  have key : ∀ m : List (ℕ × K), (m.foldr (fun p c => c.set p.1 p.2) (List.replicate dof (0 : K))).length = dof ∧
      (m.foldr (fun p c => c.set p.1 p.2) (List.replicate dof (0 : K)))[i]? = some ((m.find? fun p => p.1 == i).elim 0 Prod.snd) := by
    intro m
    induction m with
    | nil => simp [hi]
    | cons p m ih =>
      obtain ⟨h1, h2⟩ := ih
      refine ⟨by simpa using h1, ?_⟩
      rw [List.foldr_cons, List.getElem?_set, h1]
      by_cases hp : p.1 = i
      · rw [if_pos hp, if_pos (by omega), List.find?_cons_of_pos (by simpa using hp)]
        rfl
      · rw [if_neg hp, h2, List.find?_cons_of_neg (by simpa using hp)]
  have := (key l.reverse).2
  rw [List.foldr_reverse] at this
  exact this

/-- Requests for different clusters all take effect. -/
theorem place_distinct [Zero K] (dof : ℕ) (l : List (ℕ × K)) (hd : (l.map Prod.fst).Nodup) {c : ℕ} {x : K} (h : (c, x) ∈ l) (hc : c < dof) :
    (place dof l)[c]? = some x := by
  rw [place_spec dof l c hc]
  have hf : (l.reverse.find? fun p => p.1 == c) = some (c, x) := by
    have hd' : (l.reverse.map Prod.fst).Nodup := ((List.reverse_perm l).map Prod.fst).nodup_iff.2 hd
    have hm : (c, x) ∈ l.reverse := List.mem_reverse.2 h
    revert hd' hm
    generalize l.reverse = m
    intro hd' hm
    induction m with
    | nil => cases hm
    | cons p m ih =>
      rw [List.map_cons, List.nodup_cons] at hd'
      rcases List.mem_cons.1 hm with rfl | hm
      · exact List.find?_cons_of_pos (by simp)
      · have hne : p.1 ≠ c := by
          rintro rfl
          exact hd'.1 (List.mem_map.2 ⟨_, hm, rfl⟩)
        rw [List.find?_cons_of_neg (by simpa using hne)]
        exact ih hd'.2 hm
  rw [hf]
  rfl

/-- **Finding.**  Two requests that mean the same cluster, as compositions in one group do, do not add up: the first is lost. -/
theorem place_lost [Zero K] (dof c : ℕ) (x y : K) (hc : c < dof) : (place dof [(c, x), (c, y)])[c]? = some y := by
  rw [place_spec dof _ c hc]
  simp

/-- **Where it applies.**  Every point between the boundaries starts with the requested concentrations, unless the run is a restart; all other points start empty. -/
theorem point_spec [Zero K] (dof n left right i : ℕ) (l : List (ℕ × K)) (h : right ≤ n) :
    (point dof n left right i false l = if left ≤ i ∧ i + right < n then place dof l else List.replicate dof 0) ∧
      point dof n left right i true l = List.replicate dof 0 := by
  unfold point
  constructor
  · by_cases h1 : left ≤ i ∧ i + right < n
    · rw [if_pos h1, if_pos ⟨h1.1, rfl, by omega⟩]
    · rw [if_neg h1, if_neg (by rintro ⟨a, -, b⟩; exact h1 ⟨a, by omega⟩)]
  · rw [if_neg (by simp)]

end

/-- A reader with two species, whose clusters of one kind up to four and of the other up to two exist. -/
def small : Reader ℤ where
  species := fun s => if s = "V".toList then some 0 else if s = "I".toList then some 1 else none
  stoi := strict
  stod := strict
  find := fun c => if c = [1, 0] then some 0 else if c = [0, 1] then some 1 else none
  count := 2

example : Triples small ["V".toList, "1".toList, "7".toList, "I".toList, "1".toList, "9".toList] [(0, 7), (1, 9)] :=
  .cons ⟨0, 1, 1, rfl, by decide, by decide, by decide, rfl, by decide⟩ (.cons ⟨1, 1, 1, rfl, by decide, by decide, by decide, rfl, by decide⟩ .nil)

example : place 3 [(0, (7 : ℤ)), (1, 9)] = [7, 9, 0] := by decide

/-! ### Safeguards -/

/-- **Combinations of processes.**  Initialisation goes on exactly if processes tied to a free surface come with one, attenuation comes with modified trap mutation and modified trap mutation with reactions. -/
theorem admitted_iff (left : ℤ) (u : Used) :
    admitted left u = true ↔ (u.advec ∨ u.modifiedTM ∨ u.movingSurface ∨ u.bursting → left ≠ 0) ∧ (u.attenuation → u.modifiedTM) ∧ (u.modifiedTM → u.reaction) := by
  unfold admitted
  obtain ⟨r, a, m, s, b, t⟩ := u
  by_cases h : left = 0 <;> cases r <;> cases a <;> cases m <;> cases s <;> cases b <;> cases t <;> simp [h]

/-- **Finding.**  A boundary that is neither free (1) nor reflecting (0) is taken as it is. -/
theorem admitted_other : admitted 2 ⟨true, true, true, true, true, true⟩ = true ∧ (setBoundaries ⟨1, 1, 1, 1, 1, 1⟩ [-1, 7]).list = [-1, 7, 1, 1, 1, 1] := by decide

example : admitted 1 ⟨true, true, true, false, true, true⟩ = true ∧ admitted 0 ⟨true, false, false, true, false, false⟩ = false := by decide

end Xolotl.Options.Lists
