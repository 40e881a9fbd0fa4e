import Verif.Network.Sizes
import Mathlib.Tactic.Ring

set_option linter.unusedSectionVars false

/-!
# Properties of the network sizes
-/

namespace Xolotl.Network.Sizes

/-- The loop ends with `k` exactly when `k` is the least exponent whose power reaches the bound. -/
theorem loop_iff (w n k : ℕ) : Loop w n 0 k ↔ n ≤ w ^ k ∧ ∀ i < k, w ^ i < n := by
  have gen : ∀ i k, Loop w n i k ↔ i ≤ k ∧ n ≤ w ^ k ∧ ∀ j, i ≤ j → j < k → w ^ j < n := by
    intro i k
    constructor
    · intro h
      induction h with
      | stop h => exact ⟨le_refl _, not_lt.mp h, fun j h1 h2 => absurd h1 (not_le.mpr h2)⟩
      | @step i k h _ ih =>
        refine ⟨by omega, ih.2.1, fun j h1 h2 => ?_⟩
        rcases Nat.eq_or_lt_of_le h1 with rfl | h1
        · exact h
        · exact ih.2.2 j h1 h2
    · rintro ⟨h1, h2, h3⟩
      obtain ⟨d, rfl⟩ := Nat.exists_eq_add_of_le h1
      clear h1
      induction d generalizing i with
      | zero => exact .stop (not_lt.mpr h2)
      | succ d ih =>
        refine .step (h3 i (le_refl _) (by omega)) ?_
        have := ih (i + 1) (by rwa [show i + 1 + d = i + (d + 1) by omega]) (fun j a b => h3 j (by omega) (by omega))
        rwa [show i + 1 + d = i + (d + 1) by omega] at this
  rw [gen]
  simp

/-- **The loop ends exactly when the width is at least 2 or the bound is at most 1.** -/
theorem loop_ends (w n : ℕ) : (∃ k, Loop w n 0 k) ↔ 2 ≤ w ∨ n ≤ 1 := by
  constructor
  · rintro ⟨k, h⟩
    obtain ⟨h1, h2⟩ := (loop_iff w n k).mp h
    by_contra hc
    have hw : w ≤ 1 := by omega
    have hp : w ^ k ≤ 1 := (Nat.pow_le_pow_left hw k).trans_eq (one_pow k)
    omega
  · intro h
    by_cases hn : n ≤ 1
    · exact ⟨0, .stop (by simpa using hn)⟩
    · have hw : 1 < w := by omega
      exact ⟨Nat.clog w n, (loop_iff _ _ _).mpr ⟨Nat.le_pow_clog hw n, fun i hi => Nat.pow_lt_of_lt_clog hi⟩⟩

/-- The computed adaptation is the loop followed by the conversion of `pow(w, i) - 1`. -/
theorem adapt_eq (w m k s : ℕ) : adapt w m = some (k, s) ↔ Loop w (inc m) 0 k ∧ s = w ^ k - 1 ∧ s < word := by
  have uniq : ∀ k', Loop w (inc m) 0 k' → 2 ≤ w ∨ inc m ≤ 1 → Nat.clog w (inc m) = k' := by
    intro k' hl hw
    obtain ⟨h1, h2⟩ := (loop_iff _ _ _).mp hl
    by_cases hn : inc m ≤ 1
    · rw [Nat.clog_of_right_le_one hn]
      rcases Nat.eq_zero_or_pos k' with h | h
      · exact h.symm
      · have := h2 0 h
        simp at this
        omega
    · have hw : 1 < w := by omega
      apply le_antisymm
      · exact (Nat.clog_le_iff_le_pow hw).mpr h1
      · by_contra hc
        have := h2 _ (not_le.mp hc)
        have := Nat.le_pow_clog hw (inc m)
        omega
  constructor
  · intro h
    unfold adapt at h
    split at h
    · rename_i hw
      dsimp only at h
      split at h
      · rename_i hs
        obtain ⟨k', hk'⟩ := (loop_ends w (inc m)).mpr hw
        have hu := uniq k' hk' hw
        simp only [Option.some.injEq, Prod.mk.injEq] at h
        obtain ⟨rfl, rfl⟩ := h
        exact ⟨by rw [hu]; exact hk', rfl, hs⟩
      · simp at h
    · simp at h
  · rintro ⟨h1, rfl, h3⟩
    have hw := (loop_ends w (inc m)).mp ⟨k, h1⟩
    have hu := uniq k h1 hw
    unfold adapt
    rw [if_pos hw]
    dsimp only
    rw [hu, if_pos h3]

/-- The sizes that do not wrap. -/
theorem inc_eq {m : ℕ} (h : m + 1 < word) : inc m = m + 1 := Nat.mod_eq_of_lt h

/-- **Rounding up: the new size is the smallest power of the width, minus one, that is not below the request.** -/
theorem adapt_least {w m k s : ℕ} (hm : m + 1 < word) (h : adapt w m = some (k, s)) :
    m ≤ s ∧ s + 1 = w ^ k ∧ ∀ j, m + 1 ≤ w ^ j → k ≤ j ∧ s + 1 ≤ w ^ j := by
  obtain ⟨hl, rfl, _⟩ := (adapt_eq _ _ _ _).mp h
  obtain ⟨h1, h2⟩ := (loop_iff _ _ _).mp hl
  rw [inc_eq hm] at h1 h2
  have hs : w ^ k - 1 + 1 = w ^ k := by omega
  refine ⟨by omega, hs, fun j hj => ?_⟩
  have hkj : k ≤ j := by
    by_contra hc
    have := h2 j (not_le.mp hc)
    omega
  refine ⟨hkj, ?_⟩
  rw [hs]
  by_cases hw : w = 0
  · subst hw
    rcases Nat.eq_zero_or_pos j with h | h
    · subst h
      have : k = 0 := by omega
      rw [this]
    · rw [zero_pow (by omega)] at hj
      omega
  · exact Nat.pow_le_pow_right (by omega) hkj

/-- **The adaptation ends exactly when the width is at least 2 or the request is 0**; its result is converted without loss when the power fits. -/
theorem adapt_defined {w m : ℕ} (hm : m + 1 < word) :
    (∃ k, Loop w (inc m) 0 k) ↔ 2 ≤ w ∨ m = 0 := by
  rw [loop_ends, inc_eq hm]
  omega

/-- A width of at least two and a request below `2^32 / w` give a size. -/
theorem adapt_some {w m : ℕ} (hw : 2 ≤ w) (hm : (m + 1) * w ≤ word) : ∃ k s, adapt w m = some (k, s) := by
  have hm' : m + 1 < word := by
    have : (m + 1) * 2 ≤ (m + 1) * w := Nat.mul_le_mul_left _ hw
    omega
  obtain ⟨k, hk⟩ := (adapt_defined (w := w) hm').mpr (Or.inl hw)
  refine ⟨k, w ^ k - 1, (adapt_eq _ _ _ _).mpr ⟨hk, rfl, ?_⟩⟩
  obtain ⟨h1, h2⟩ := (loop_iff _ _ _).mp hk
  rw [inc_eq hm'] at h1 h2
  have hp : w ^ k ≤ word := by
    rcases Nat.eq_zero_or_pos k with h | h
    · subst h
      simp [word]
    · obtain ⟨k, rfl⟩ : ∃ k', k = k' + 1 := ⟨k - 1, by omega⟩
      have := h2 k (by omega)
      rw [pow_succ]
      exact (Nat.mul_le_mul_right w this.le).trans hm
  have : 0 < w ^ k := by omega
  omega

example : adapt 4 20 = some (3, 63) := by decide +kernel
example : adapt 1 20 = none := by decide +kernel
example : adapt 4 0 = some (0, 0) := by decide +kernel

/-- Adapting twice is adapting once. -/
theorem adapt_twice {w m k s : ℕ} (hm : m + 1 < word) (hs : s + 1 < word) (h : adapt w m = some (k, s)) :
    adapt w s = some (k, s) := by
  obtain ⟨h1, h2, h3⟩ := adapt_least hm h
  obtain ⟨hl, h4, h5⟩ := (adapt_eq _ _ _ _).mp h
  obtain ⟨h6, h7⟩ := (loop_iff _ _ _).mp hl
  rw [inc_eq hm] at h6 h7
  refine (adapt_eq _ _ _ _).mpr ⟨(loop_iff _ _ _).mpr ⟨?_, ?_⟩, h4, h5⟩
  · rw [inc_eq hs]
    omega
  · intro i hi
    rw [inc_eq hs]
    have := h7 i hi
    omega

/-- The largest request wraps and gives size 0. -/
theorem adapt_wrap (w : ℕ) : adapt w (word - 1) = some (0, 0) := by
  refine (adapt_eq _ _ _ _).mpr ⟨(loop_iff _ _ _).mpr ⟨?_, fun i hi => absurd hi (by omega)⟩, by simp, by decide⟩
  have : inc (word - 1) = 0 := by decide
  rw [this]
  exact Nat.zero_le _

/-! ### Sizes and ratios fit -/

/-- A species of size `size` can be subdivided by the ratios of its column: the rows but the last, then the last row as often as needed. -/
def Fits (size : ℕ) (col : List ℕ) : Prop :=
  ∃ front last k, col = front ++ [last] ∧ size + 1 = front.prod * last ^ k

/-- Every species of the network can be subdivided. -/
def AllFit (net : Net) : Prop :=
  ∀ a (h : a < net.sizes.length), Fits (net.sizes[a]) (net.ratios.map fun r => r.getD a 0)

theorem fits_one {size w k : ℕ} (h : size + 1 = w ^ k) : Fits size [w] := ⟨[], w, k, rfl, by simpa using h⟩

theorem fits_full {size : ℕ} (h : size + 1 < word) : Fits size [inc size] := ⟨[], inc size, 1, rfl, by simp [inc_eq h]⟩

theorem zrAxis_spec {m s r : ℕ} (hm : m + 1 < word) (h : zrAxis m = some (s, r)) :
    m ≤ s ∧ (∃ k, s + 1 = r ^ k) ∧ (0 < m → r = 2 ∧ ∃ k, adapt 2 m = some (k, s)) ∧ (m = 0 → s = 0 ∧ r = 1) := by
  unfold zrAxis at h
  split at h
  · rename_i h0
    rw [Option.map_eq_some_iff] at h
    obtain ⟨⟨k, s'⟩, ha, he⟩ := h
    simp only [Prod.mk.injEq] at he
    obtain ⟨rfl, rfl⟩ := he
    obtain ⟨h1, h2, _⟩ := adapt_least hm ha
    exact ⟨h1, ⟨k, h2⟩, fun _ => ⟨rfl, k, ha⟩, fun h => absurd h (by omega)⟩
  · simp only [Option.some.injEq, Prod.mk.injEq] at h
    obtain ⟨rfl, rfl⟩ := h
    have : m = 0 := by omega
    subst this
    exact ⟨le_refl _, ⟨0, rfl⟩, fun h => absurd h (by omega), fun _ => ⟨rfl, rfl⟩⟩

/-- `s` is the request `m` rounded up to a power of `w`, minus one. -/
def Rounded (w m s : ℕ) : Prop := m ≤ s ∧ (∃ k, s + 1 = w ^ k) ∧ ∀ j, m + 1 ≤ w ^ j → s + 1 ≤ w ^ j

theorem adapt_rounded {w m k s : ℕ} (hm : m + 1 < word) (h : adapt w m = some (k, s)) : Rounded w m s :=
  have a := adapt_least hm h
  ⟨a.1, ⟨k, a.2.1⟩, fun j hj => (a.2.2 j hj).2⟩

theorem rounded_zero (w : ℕ) : Rounded w 0 0 := ⟨le_refl _, ⟨0, rfl⟩, fun _ h => h⟩

theorem adapt_zero (w : ℕ) : adapt w 0 = some (0, 0) := by
  refine (adapt_eq _ _ _ _).mpr ⟨(loop_iff _ _ _).mpr ⟨?_, fun i hi => absurd hi (by omega)⟩, by simp, by decide⟩
  have : inc 0 = 1 := by decide
  rw [this]
  simp

theorem allFit_three {a b c x y z : ℕ} (ha : Fits a [x]) (hb : Fits b [y]) (hc : Fits c [z]) : AllFit ⟨[a, b, c], [[x, y, z]]⟩ := by
  intro i hi
  match i, hi with
  | 0, _ => exact ha
  | 1, _ => exact hb
  | 2, _ => exact hc

/-- Zirconium: always defined; every size is rounded up to a power of two, and the ratio is 2, or 1 for a species that is absent. -/
theorem zr_sizes (o : Opts) (hv : o.v < 2 ^ 31) (hi : o.i < 2 ^ 31) (hb : o.imp < 2 ^ 31) :
    ∃ v b i rv rb ri, zr o = some ⟨[v, b, i], [[rv, rb, ri]]⟩ ∧ Rounded 2 o.v v ∧ Rounded 2 o.imp b ∧ Rounded 2 o.i i ∧
      rv = (if o.v = 0 then 1 else 2) ∧ rb = (if o.imp = 0 then 1 else 2) ∧ ri = (if o.i = 0 then 1 else 2) ∧
      AllFit ⟨[v, b, i], [[rv, rb, ri]]⟩ := by
  have ax : ∀ m < 2 ^ 31, ∃ s k, zrAxis m = some (s, if m = 0 then 1 else 2) ∧ Rounded 2 m s ∧ adapt 2 s = some (k, s) ∧
      Fits s [if m = 0 then 1 else 2] := by
    intro m hm
    have hw : m + 1 < word := by simp only [word]; omega
    by_cases h0 : m = 0
    · subst h0
      exact ⟨0, 0, rfl, rounded_zero 2, adapt_zero 2, fits_one (k := 0) rfl⟩
    · obtain ⟨k, s, h⟩ := adapt_some (w := 2) (m := m) (le_refl _) (by simp only [word]; omega)
      have hl := adapt_least hw h
      have hs : s + 1 < word := by
        have := (hl.2.2 31 (by omega)).2
        simp only [word]
        omega
      refine ⟨s, k, ?_, adapt_rounded hw h, adapt_twice hw hs h, ?_⟩
      · unfold zrAxis
        rw [if_pos (by omega), h, if_neg h0]
        rfl
      · rw [if_neg h0]
        exact fits_one hl.2.1
  obtain ⟨v, kv, hv1, hv2, hv3, hv4⟩ := ax _ hv
  obtain ⟨i, ki, hi1, hi2, hi3, hi4⟩ := ax _ hi
  obtain ⟨b, kb, hb1, hb2, hb3, hb4⟩ := ax _ hb
  refine ⟨v, b, i, _, _, _, ?_, hv2, hb2, hi2, rfl, rfl, rfl, allFit_three hv4 hb4 hi4⟩
  unfold zr
  rw [hv1, hi1, hb1]
  dsimp only [bind, Option.bind]
  rw [hv3, hi3]
  rfl

example : zr ⟨3, 0, 0, 100, 0, 0, 0, 0, 0, 0⟩ = some ⟨[127, 3, 0], [[2, 2, 1]]⟩ := by decide +kernel

/-- Nuclear fuel and iron without grouping: the requested sizes, one region per size. -/
theorem gasV_plain (o : Opts) (h : o.v < o.gmin) (hx : o.imp + 1 < word) (hv : o.v + 1 < word) (hi : o.i + 1 < word) :
    gasV o = some ⟨[o.imp, o.v, o.i], [[o.imp + 1, o.v + 1, o.i + 1]]⟩ := by
  unfold gasV
  rw [if_pos h, inc_eq hx, inc_eq hv, inc_eq hi]

/-- Nuclear fuel and iron with grouping: gas and vacancy sizes are rounded up with their widths, the interstitial size is kept, and the ratios fit. -/
theorem gasV_grouped (o : Opts) {net : Net} (h : o.gmin ≤ o.v) (hx : o.imp + 1 < word) (hv : o.v + 1 < word) (hi : o.i + 1 < word)
    (hn : gasV o = some net) :
    ∃ g v, net = ⟨[g, v, o.i], [[o.wA, o.wB, o.i + 1]]⟩ ∧ Rounded o.wA o.imp g ∧ Rounded o.wB o.v v ∧ AllFit net := by
  unfold gasV at hn
  rw [if_neg (by omega)] at hn
  cases hg : adapt o.wA o.imp with
  | none => simp [hg] at hn
  | some g =>
    cases hv' : adapt o.wB o.v with
    | none => simp [hg, hv'] at hn
    | some v =>
      simp only [hg, hv', bind, Option.bind, pure, Option.some.injEq] at hn
      subst hn
      refine ⟨g.2, v.2, by rw [inc_eq hi], adapt_rounded hx hg, adapt_rounded hv hv', ?_⟩
      exact allFit_three (fits_one (adapt_least hx hg).2.1) (fits_one (adapt_least hv hv').2.1) (fits_full hi)

example : gasV ⟨100, 0, 0, 9, 1, 9, 0, 5, 4, 3⟩ = some ⟨[255, 26, 1], [[4, 3, 2]]⟩ := by decide +kernel

/-- Alloy: loop and void sizes are rounded up with the width, also when grouping is off; no loops of a kind that is absent. -/
theorem alloy_sizes (o : Opts) {net : Net} (hx : o.imp + 1 < word) (hd : o.d + 1 < word) (hn : alloy o = some net) :
    ∃ s void ratios, net = ⟨[o.v, void, if o.v = 0 then 0 else s, o.i, if o.i = 0 then 0 else s, if o.i = 0 then 0 else s], ratios⟩ ∧
      Rounded o.wA o.imp s ∧ Rounded o.wA o.d void := by
  unfold alloy at hn
  cases hg : adapt o.wA o.imp with
  | none => simp [hg] at hn
  | some g =>
    cases hv' : adapt o.wA o.d with
    | none => simp [hg, hv'] at hn
    | some v =>
      simp only [hg, hv', bind, Option.bind, pure, Option.some.injEq] at hn
      subst hn
      exact ⟨g.2, v.2, _, rfl, adapt_rounded hx hg, adapt_rounded hd hv'⟩

/-- Alloy: the ratios fit the sizes when no voids are requested without vacancies. -/
theorem alloy_fits_partial (o : Opts) {net : Net} (hx : o.imp + 1 < word) (hd : o.d + 1 < word) (hv : o.v + 1 < word) (hi : o.i + 1 < word)
    (h0 : o.v = 0 → o.d = 0) (hn : alloy o = some net) : AllFit net := by
  unfold alloy at hn
  cases hg : adapt o.wA o.imp with
  | none => simp [hg] at hn
  | some g =>
    cases hv' : adapt o.wA o.d with
    | none => simp [hg, hv'] at hn
    | some v =>
      simp only [hg, hv', bind, Option.bind, pure, Option.some.injEq] at hn
      subst hn
      have f1 := adapt_least hx hg
      have f2 := adapt_least hd hv'
      intro i hi'
      match i, hi' with
      | 0, _ => exact fits_full hv
      | 1, _ =>
        change Fits v.2 [if o.v = 0 then 1 else o.wA]
        split
        · rename_i h
          rw [h0 h, adapt_zero] at hv'
          cases hv'
          exact fits_one (k := 0) rfl
        · exact fits_one f2.2.1
      | 2, _ =>
        change Fits (if o.v = 0 then 0 else g.2) [if o.v = 0 then 1 else o.wA]
        split
        · exact fits_one (k := 0) rfl
        · exact fits_one f1.2.1
      | 3, _ => exact fits_full hi
      | 4, _ | 5, _ =>
        change Fits (if o.i = 0 then 0 else g.2) [if o.i = 0 then 1 else o.wA]
        split
        · exact fits_one (k := 0) rfl
        · exact fits_one f1.2.1

example : alloy ⟨10, 20, 0, 4, 4, 4, 0, 0, 4, 0⟩ = some ⟨[4, 63, 15, 4, 15, 15], [[5, 4, 4, 5, 4, 4]]⟩ := by decide +kernel

/-- **Finding.** Alloy without vacancies but with voids: the void axis has four sizes and ratio 1, which never subdivides it. -/
theorem alloy_void_misfit : ∃ net, alloy ⟨3, 3, 0, 0, 4, 0, 0, 0, 4, 0⟩ = some net ∧ ¬AllFit net := by
  refine ⟨⟨[0, 3, 0, 4, 3, 3], [[1, 1, 1, 5, 4, 4]]⟩, by decide +kernel, fun h => ?_⟩
  obtain ⟨front, last, k, hc, hs⟩ := h 1 (by decide)
  change [1] = front ++ [last] at hc
  obtain ⟨rfl, hl⟩ : front = [] ∧ [1] = [last] := by
    cases front with
    | nil => exact ⟨rfl, hc⟩
    | cons x xs =>
      have := congrArg List.length hc
      simp at this
  cases hl
  simp at hs

/-- **Finding.** Alloy never ends with the default width 1, whatever the loop size requested. -/
theorem alloy_default_width (o : Opts) (h : o.wA = 1) (h0 : 0 < o.imp) (hx : o.imp + 1 < word) : alloy o = none ∧ ¬∃ k, Loop o.wA (inc o.imp) 0 k := by
  have hno : ¬∃ k, Loop o.wA (inc o.imp) 0 k := by
    rw [adapt_defined hx]
    omega
  refine ⟨?_, hno⟩
  have : adapt o.wA o.imp = none := by
    unfold adapt
    rw [if_neg]
    rw [inc_eq hx]
    omega
  unfold alloy
  rw [this]
  rfl

/-! ### Plasma-surface networks -/

theorem adapt_clog {w m k s : ℕ} (h : adapt w m = some (k, s)) : k = Nat.clog w (inc m) := by
  unfold adapt at h
  split at h
  · dsimp only at h
    split at h
    · simp only [Option.some.injEq, Prod.mk.injEq] at h
      exact h.1.symm
    · simp at h
  · simp at h

theorem clog_le_32 (w m : ℕ) : Nat.clog w (inc m) ≤ 32 := by
  by_cases hw : 1 < w
  · rw [Nat.clog_le_iff_le_pow hw]
    have h1 : inc m < word := Nat.mod_lt _ (by decide)
    have h2 : 2 ^ 32 ≤ w ^ 32 := Nat.pow_le_pow_left hw 32
    simp only [word] at h1
    omega
  · rw [Nat.clog_of_left_le_one (by omega)]
    omega

/-- What the generator has established before it chooses the species list. -/
structure Facts (o : Opts) (p : Psi) : Prop where
  he : ∃ k, p.he + 1 = p.wHe ^ k
  heDiv : 0 < o.heMax → 0 < o.gmin → p.wHe ∣ p.he + 1
  d : ∃ k, p.d + 1 = p.wD ^ k
  t : ∃ k, p.t + 1 = p.wT ^ k
  v : ∃ kp kv, p.v + 1 = p.wV ^ kp ∧ kv ≤ kp ∧ p.delta = kp - kv ∧ kp ≤ 32
  vDiv : 0 < o.gmin → p.wV ∣ p.v + 1
  same : o.pureV = o.v → p.delta = 0
  i : ∃ k, p.i + 1 = p.wI ^ k
  small : p.he < word ∧ p.v < word ∧ p.i < word

theorem adapt_dvd {w m k s : ℕ} (hm : m + 1 < word) (h0 : 0 < m) (h : adapt w m = some (k, s)) : w ∣ s + 1 := by
  obtain ⟨h1, h2, _⟩ := adapt_least hm h
  rw [h2]
  rcases Nat.eq_zero_or_pos k with rfl | hk
  · simp at h2
    omega
  · exact dvd_pow_self w (by omega)

/-- The requests of the options stay in range. -/
structure InRange (o : Opts) : Prop where
  imp : o.imp + 1 < word
  d : o.d + 1 < word
  t : o.t + 1 < word
  v : o.v + 1 < word
  i : o.i + 1 < word
  pureV : o.pureV + 1 < word
  heMax : o.heMax + 1 < word

theorem start_range {o : Opts} (h : InRange o) :
    (psiStart o).he + 1 < word ∧ (psiStart o).d + 1 < word ∧ (psiStart o).t + 1 < word := by
  obtain ⟨h1, h2, h3, h4, h5, h6, h7⟩ := h
  refine ⟨?_, ?_, ?_⟩ <;> dsimp only [psiStart] <;> split <;> (try assumption) <;> split <;> (try assumption) <;> (simp only [word] at *; omega)

/-- The facts hold after both adaptations, when the mixed vacancy range is not larger than the pure one. -/
theorem facts {o : Opts} {p : Psi} (hr : InRange o) (hv : o.v ≤ o.pureV)
    (h : (psiVacancy o (psiStart o)).bind (psiInterstitial o) = some p) : Facts o p := by
  obtain ⟨r1, r2, r3⟩ := start_range hr
  have hpv : (psiStart o).v = o.pureV := rfl
  have hpi : (psiStart o).i = o.i := rfl
  cases hq : psiVacancy o (psiStart o) with
  | none => simp [hq] at h
  | some q =>
    rw [hq, Option.bind_some] at h
    -- everything but the interstitials
    have hF : (∃ k, q.he + 1 = q.wHe ^ k) ∧ (0 < o.heMax → 0 < o.gmin → q.wHe ∣ q.he + 1) ∧ (∃ k, q.d + 1 = q.wD ^ k) ∧
        (∃ k, q.t + 1 = q.wT ^ k) ∧ (∃ kp kv, q.v + 1 = q.wV ^ kp ∧ kv ≤ kp ∧ q.delta = kp - kv ∧ kp ≤ 32) ∧
        (0 < o.gmin → q.wV ∣ q.v + 1) ∧ (o.pureV = o.v → q.delta = 0) ∧ q.i = o.i ∧ q.he < word ∧ q.v < word := by
      unfold psiVacancy at hq
      split at hq
      · simp only [Option.some.injEq] at hq
        subst hq
        dsimp only
        rw [inc_eq r1, inc_eq r2, inc_eq r3, hpv, inc_eq hr.pureV]
        refine ⟨⟨1, by simp⟩, fun _ _ => dvd_refl _, ⟨1, by simp⟩, ⟨1, by simp⟩, ⟨1, 1, by simp, le_refl _, rfl, by omega⟩, fun _ => dvd_refl _, fun _ => rfl, rfl, ?_, ?_⟩
        · omega
        · have := hr.pureV
          omega
      · rename_i hg
        have hg' : o.gmin ≤ o.pureV := not_lt.mp hg
        cases h1 : adapt (psiStart o).wHe (psiStart o).he with
        | none => simp [h1] at hq
        | some he =>
          cases h2 : adapt (psiStart o).wD (psiStart o).d with
          | none => simp [h1, h2] at hq
          | some d =>
            cases h3 : adapt (psiStart o).wT (psiStart o).t with
            | none => simp [h1, h2, h3] at hq
            | some t =>
              cases h4 : adapt (psiStart o).wV (psiStart o).v with
              | none => simp [h1, h2, h3, h4] at hq
              | some v =>
                simp only [h1, h2, h3, h4, bind, Option.bind] at hq
                split at hq
                · simp only [pure, Option.some.injEq] at hq
                  subst hq
                  dsimp only
                  have l1 := adapt_least r1 h1
                  have l2 := adapt_least r2 h2
                  have l3 := adapt_least r3 h3
                  have l4 := adapt_least (by rw [hpv]; exact hr.pureV) h4
                  have c4 := adapt_clog h4
                  have hle : Nat.clog (psiStart o).wV (inc o.v) ≤ v.1 := by
                    rw [c4]
                    apply Nat.clog_mono_right
                    rw [inc_eq hr.v, hpv, inc_eq hr.pureV]
                    omega
                  have h32 : v.1 ≤ 32 := by
                    rw [c4]
                    exact clog_le_32 _ _
                  have hdel : (v.1 + word - Nat.clog (psiStart o).wV (inc o.v)) % word = v.1 - Nat.clog (psiStart o).wV (inc o.v) := by
                    rw [show v.1 + word - Nat.clog (psiStart o).wV (inc o.v) = (v.1 - Nat.clog (psiStart o).wV (inc o.v)) + word by omega,
                      Nat.add_mod_right]
                    apply Nat.mod_eq_of_lt
                    simp only [word]
                    omega
                  refine ⟨⟨_, l1.2.1⟩, ?_, ⟨_, l2.2.1⟩, ⟨_, l3.2.1⟩, ⟨_, _, l4.2.1, hle, hdel, h32⟩, ?_, ?_, rfl, ?_, ?_⟩
                  · intro hh hp
                    by_cases hi0 : o.imp = 0
                    · have : (psiStart o).wHe = 1 := by simp [psiStart, hi0]
                      rw [this]
                      exact one_dvd _
                    · refine adapt_dvd r1 ?_ h1
                      have : (psiStart o).he = o.heMax := by
                        simp only [psiStart, if_neg hi0]
                        rw [if_neg (by omega)]
                      omega
                  · intro hp
                    exact adapt_dvd (by rw [hpv]; exact hr.pureV) (by rw [hpv]; omega) h4
                  · intro he
                    rw [hdel, c4, hpv, he]
                    omega
                  · exact ((adapt_eq _ _ _ _).mp h1).2.2
                  · exact ((adapt_eq _ _ _ _).mp h4).2.2
                · simp at hq
    obtain ⟨f1, f2, f3, f4, f5, f6, f7, f8, f9, f10⟩ := hF
    unfold psiInterstitial at h
    split at h
    · simp only [Option.some.injEq] at h
      subst h
      have hi := hr.i
      refine ⟨f1, f2, f3, f4, f5, f6, f7, ⟨1, ?_⟩, f9, f10, ?_⟩
      · dsimp only
        rw [f8, inc_eq hi]
        simp
      · dsimp only
        omega
    · rw [Option.map_eq_some_iff] at h
      obtain ⟨r, ha, rfl⟩ := h
      refine ⟨f1, f2, f3, f4, f5, f6, f7, ⟨r.1, ?_⟩, f9, f10, ?_⟩
      · exact (adapt_least (by rw [f8]; exact hr.i) ha).2.1
      · exact ((adapt_eq _ _ _ _).mp ha).2.2

theorem fits_rows {size c w k delta : ℕ} (h : size + 1 = c ^ delta * w ^ k) : Fits size (List.replicate delta c ++ [w]) :=
  ⟨List.replicate delta c, w, k, rfl, by simpa using h⟩

theorem insertRows_eq {delta : ℕ} (h : delta ≤ 32) (row : List ℕ) (rows : List (List ℕ)) :
    insertRows delta row rows = some (List.replicate delta row ++ rows) := by
  unfold insertRows
  rw [if_pos (by omega)]

/-- **The subdivision ratios of a plasma-surface network fit its sizes**, when the mixed vacancy range is not larger than the pure one and, for helium networks with separate interstitials, both ranges are equal. -/
theorem psi_fits_partial {o : Opts} {net : Net} (hr : InRange o) (hv : o.v ≤ o.pureV) (hh : 0 < o.heMax) (hsz : ∀ s ∈ net.sizes, s + 1 < word)
    (hcase : o.pureV = o.v ∨ 4 ≤ net.sizes.length ∨ o.gmin ≤ net.sizes.getLast?.getD 0) (h : psi o = some net) : AllFit net := by
  have h' : ∃ p, (psiVacancy o (psiStart o)).bind (psiInterstitial o) = some p ∧ psiNet o p = some net := by
    unfold psi at h
    cases hq : psiVacancy o (psiStart o) with
    | none => simp [hq] at h
    | some q =>
      cases hp : psiInterstitial o q with
      | none => simp [hq, hp] at h
      | some p =>
        refine ⟨p, by rw [Option.bind_some, hp], ?_⟩
        simpa [hq, hp] using h
  obtain ⟨p, hp, hn⟩ := h'
  have F := facts hr hv hp
  obtain ⟨kHe, eHe⟩ := F.he
  obtain ⟨kD, eD⟩ := F.d
  obtain ⟨kT, eT⟩ := F.t
  obtain ⟨kI, eI⟩ := F.i
  obtain ⟨kp, kv, eV, hkv, hdel, h32⟩ := F.v
  have fV : p.v + 1 = p.wV ^ p.delta * p.wV ^ kv := by
    rw [eV, hdel, ← pow_add]
    congr 1
    omega
  have f1 : ∀ {s w k : ℕ}, s + 1 = w ^ k → s + 1 = 1 ^ p.delta * w ^ k := fun h => by simpa using h
  have hd : p.delta ≤ 32 := by omega
  unfold psiNet at hn
  split at hn
  · simp only [Option.some.injEq] at hn
    subst hn
    exact allFit_three (fits_one (k := 0) rfl) (fits_one eV) (fits_one eI)
  · split at hn
    · rw [insertRows_eq hd] at hn
      simp only [Option.map_some, Option.some.injEq] at hn
      subst hn
      intro a ha
      dsimp only
      rw [List.map_append, List.map_replicate]
      match a, ha with
      | 0, _ => exact fits_rows (f1 eHe)
      | 1, _ => exact fits_rows (f1 eD)
      | 2, _ => exact fits_rows (f1 eT)
      | 3, _ => exact fits_rows fV
      | 4, _ => exact fits_rows (f1 eI)
    · split at hn
      · rw [insertRows_eq hd] at hn
        simp only [Option.map_some, Option.some.injEq] at hn
        subst hn
        intro a ha
        dsimp only
        rw [List.map_append, List.map_replicate]
        match a, ha with
        | 0, _ => exact fits_rows (f1 eHe)
        | 1, _ => exact fits_rows (f1 eD)
        | 2, _ => exact fits_rows fV
        | 3, _ => exact fits_rows (f1 eI)
      · split at hn
        · rw [insertRows_eq hd] at hn
          simp only [Option.map_some, Option.some.injEq] at hn
          subst hn
          intro a ha
          dsimp only
          rw [List.map_append, List.map_replicate]
          match a, ha with
          | 0, _ => exact fits_rows (f1 eHe)
          | 1, _ => exact fits_rows (f1 eT)
          | 2, _ => exact fits_rows fV
          | 3, _ => exact fits_rows (f1 eI)
        · split at hn
          · rename_i hlt
            split at hn
            · simp at hn
            · rename_i hw
              rw [insertRows_eq hd] at hn
              simp only [Option.map_some, Option.some.injEq] at hn
              subst hn
              have hpe : o.pureV = o.v := by
                rcases hcase with h | h | h
                · exact h
                · simp at h
                · exact absurd h (by simpa using hlt)
              have hd0 := F.same hpe
              have hg : 0 < o.gmin := by omega
              have dHe := F.heDiv hh hg
              have dV := F.vDiv hg
              have sHe : p.he + 1 < word := hsz _ (by simp)
              have sV : p.v + 1 < word := hsz _ (by simp)
              have sI : p.i + 1 < word := hsz _ (by simp)
              rw [hd0, inc_eq sHe, inc_eq sV, inc_eq sI]
              intro a ha
              match a, ha with
              | 0, _ => exact ⟨[(p.he + 1) / p.wHe], p.wHe, 1, rfl, by simp [Nat.div_mul_cancel dHe]⟩
              | 1, _ => exact ⟨[(p.v + 1) / p.wV], p.wV, 1, rfl, by simp [Nat.div_mul_cancel dV]⟩
              | 2, _ => exact ⟨[p.i + 1], 1, 1, rfl, by simp⟩
          · rw [insertRows_eq hd] at hn
            simp only [Option.map_some, Option.some.injEq] at hn
            subst hn
            intro a ha
            dsimp only
            rw [List.map_append, List.map_replicate]
            match a, ha with
            | 0, _ => exact fits_rows (f1 eHe)
            | 1, _ => exact fits_rows fV
            | 2, _ => exact fits_rows (f1 eI)

example : psi ⟨8, 0, 0, 50, 6, 50, 200, 20, 4, 4⟩ = some ⟨[255, 63, 6], [[64, 16, 7], [4, 4, 1]]⟩ := by decide +kernel
example : psi ⟨8, 1, 1, 10, 6, 100, 50, 20, 4, 4⟩ =
    some ⟨[63, 63, 63, 255, 6], [[1, 1, 1, 4, 1], [1, 1, 1, 4, 1], [4, 4, 4, 4, 7]]⟩ := by decide +kernel

/-- The vacancy size of the network, whatever the species list: the pure-vacancy request, rounded up when grouping is on. -/
theorem psi_vacancy {o : Opts} {net : Net} (hr : InRange o) (h : psi o = some net) :
    ∃ pre v i, net.sizes = pre ++ [v, i] ∧
      (if o.gmin ≤ o.pureV then Rounded o.wB o.pureV v else v = o.pureV) ∧
      (if o.gmin < o.i then Rounded o.wB o.i i else i = o.i) := by
  unfold psi at h
  cases hq : psiVacancy o (psiStart o) with
  | none => simp [hq] at h
  | some q =>
    cases hp : psiInterstitial o q with
    | none => simp [hq, hp] at h
    | some p =>
      simp only [hq, hp, bind, Option.bind] at h
      have hqv : (if o.gmin ≤ o.pureV then Rounded o.wB o.pureV q.v else q.v = o.pureV) ∧ q.i = o.i ∧ q.wI = o.wB := by
        unfold psiVacancy at hq
        split at hq
        · rename_i hg
          simp only [Option.some.injEq] at hq
          subst hq
          rw [if_neg (not_le.mpr (show o.pureV < o.gmin from hg))]
          exact ⟨rfl, rfl, rfl⟩
        · rename_i hg
          cases h1 : adapt (psiStart o).wHe (psiStart o).he with
          | none => simp [h1] at hq
          | some he =>
            cases h2 : adapt (psiStart o).wD (psiStart o).d with
            | none => simp [h1, h2] at hq
            | some d =>
              cases h3 : adapt (psiStart o).wT (psiStart o).t with
              | none => simp [h1, h2, h3] at hq
              | some t =>
                cases h4 : adapt (psiStart o).wV (psiStart o).v with
                | none => simp [h1, h2, h3, h4] at hq
                | some v =>
                  simp only [h1, h2, h3, h4, bind, Option.bind] at hq
                  split at hq
                  · simp only [pure, Option.some.injEq] at hq
                    subst hq
                    rw [if_pos (not_lt.mp (show ¬o.pureV < o.gmin from hg))]
                    exact ⟨adapt_rounded hr.pureV h4, rfl, rfl⟩
                  · simp at hq
      obtain ⟨hv, hi, hw⟩ := hqv
      have hpv : p.v = q.v ∧ (if o.gmin < o.i then Rounded o.wB o.i p.i else p.i = o.i) := by
        unfold psiInterstitial at hp
        split at hp
        · rename_i hg
          simp only [Option.some.injEq] at hp
          subst hp
          rw [hi] at hg
          rw [if_neg (not_lt.mpr hg)]
          exact ⟨rfl, hi⟩
        · rename_i hg
          rw [Option.map_eq_some_iff] at hp
          obtain ⟨r, ha, rfl⟩ := hp
          rw [hi] at hg
          rw [if_pos (not_le.mp hg)]
          rw [hi, hw] at ha
          exact ⟨rfl, adapt_rounded hr.i ha⟩
      have hs : ∃ pre, net.sizes = pre ++ [p.v, p.i] := by
        have hrow : ∀ {delta row rows s n}, (insertRows delta row rows).map (fun r => (⟨s, r⟩ : Net)) = some n → n.sizes = s := by
          intro delta row rows s n h
          rw [Option.map_eq_some_iff] at h
          obtain ⟨r, _, rfl⟩ := h
          rfl
        unfold psiNet at h
        split at h
        · simp only [Option.some.injEq] at h
          subst h
          exact ⟨[0], rfl⟩
        · split at h
          · exact ⟨[p.he, p.d, p.t], hrow h⟩
          · split at h
            · exact ⟨[p.he, p.d], hrow h⟩
            · split at h
              · exact ⟨[p.he, p.t], hrow h⟩
              · split at h
                · split at h
                  · simp at h
                  · exact ⟨[p.he], hrow h⟩
                · exact ⟨[p.he], hrow h⟩
      obtain ⟨pre, hs⟩ := hs
      exact ⟨pre, p.v, p.i, hs, by rw [hpv.1]; exact hv, hpv.2⟩

/-- The gas size of the network: the amount of helium the largest mixed vacancy cluster can hold, rounded up when grouping is on. -/
theorem psi_helium {o : Opts} {net : Net} (hr : InRange o) (himp : 0 < o.imp) (hp0 : 0 < o.pureV) (h : psi o = some net) :
    ∃ he rest, net.sizes = he :: rest ∧ (if o.gmin ≤ o.pureV then Rounded o.wA o.heMax he else he = o.heMax) := by
  have hst : (psiStart o).he = o.heMax ∧ (psiStart o).wHe = o.wA := by
    constructor
    · simp only [psiStart]
      rw [if_neg (by omega), if_neg (by omega)]
    · simp only [psiStart]
      rw [if_neg (by omega)]
  unfold psi at h
  cases hq : psiVacancy o (psiStart o) with
  | none => simp [hq] at h
  | some q =>
    cases hp : psiInterstitial o q with
    | none => simp [hq, hp] at h
    | some p =>
      simp only [hq, hp, bind, Option.bind] at h
      have hqv : if o.gmin ≤ o.pureV then Rounded o.wA o.heMax q.he else q.he = o.heMax := by
        unfold psiVacancy at hq
        split at hq
        · rename_i hg
          simp only [Option.some.injEq] at hq
          subst hq
          rw [if_neg (not_le.mpr (show o.pureV < o.gmin from hg))]
          exact hst.1
        · rename_i hg
          cases h1 : adapt (psiStart o).wHe (psiStart o).he with
          | none => simp [h1] at hq
          | some he =>
            cases h2 : adapt (psiStart o).wD (psiStart o).d with
            | none => simp [h1, h2] at hq
            | some d =>
              cases h3 : adapt (psiStart o).wT (psiStart o).t with
              | none => simp [h1, h2, h3] at hq
              | some t =>
                cases h4 : adapt (psiStart o).wV (psiStart o).v with
                | none => simp [h1, h2, h3, h4] at hq
                | some v =>
                  simp only [h1, h2, h3, h4, bind, Option.bind] at hq
                  split at hq
                  · simp only [pure, Option.some.injEq] at hq
                    subst hq
                    rw [if_pos (not_lt.mp (show ¬o.pureV < o.gmin from hg))]
                    rw [hst.1, hst.2] at h1
                    exact adapt_rounded hr.heMax h1
                  · simp at hq
      have hpv : p.he = q.he := by
        unfold psiInterstitial at hp
        split at hp
        · simp only [Option.some.injEq] at hp
          subst hp
          rfl
        · rw [Option.map_eq_some_iff] at hp
          obtain ⟨r, _, rfl⟩ := hp
          rfl
      rw [← hpv] at hqv
      have hrow : ∀ {delta row rows s n}, (insertRows delta row rows).map (fun r => (⟨s, r⟩ : Net)) = some n → n.sizes = s := by
        intro delta row rows s n h
        rw [Option.map_eq_some_iff] at h
        obtain ⟨r, _, rfl⟩ := h
        rfl
      unfold psiNet at h
      split at h
      · omega
      · split at h
        · exact ⟨p.he, _, hrow h, hqv⟩
        · split at h
          · exact ⟨p.he, _, hrow h, hqv⟩
          · split at h
            · exact ⟨p.he, _, hrow h, hqv⟩
            · split at h
              · split at h
                · simp at h
                · exact ⟨p.he, _, hrow h, hqv⟩
              · exact ⟨p.he, _, hrow h, hqv⟩

/-- The deuterium and tritium sizes of the network, next to helium and next to vacancies: two thirds of the helium size, rounded up when grouping is on; a size of zero drops the species. -/
theorem psi_hydrogen {o : Opts} {net : Net} (hr : InRange o) (himp : 0 < o.imp) (hd0 : 0 < o.d) (ht0 : 0 < o.t) (hp0 : 0 < o.pureV)
    (h : psi o = some net) :
    ∃ d t, (if o.gmin ≤ o.pureV then Rounded o.wA (2 * o.heMax / 3) d ∧ Rounded o.wA (2 * o.heMax / 3) t
        else d = 2 * o.heMax / 3 ∧ t = 2 * o.heMax / 3) ∧
      (0 < d → net.sizes[1]? = some d) ∧ (0 < t → net.sizes.reverse[2]? = some t) := by
  have hsd : (psiStart o).d = 2 * o.heMax / 3 ∧ (psiStart o).wD = o.wA := by
    constructor <;> simp only [psiStart]
    · rw [if_neg (by omega), if_neg (by omega)]
    · rw [if_neg (by omega)]
  have hst : (psiStart o).t = 2 * o.heMax / 3 ∧ (psiStart o).wT = o.wA := by
    constructor <;> simp only [psiStart]
    · rw [if_neg (by omega), if_neg (by omega)]
    · rw [if_neg (by omega)]
  have hrange : 2 * o.heMax / 3 + 1 < word := by
    have := hr.heMax
    omega
  unfold psi at h
  cases hq : psiVacancy o (psiStart o) with
  | none => simp [hq] at h
  | some q =>
    cases hp : psiInterstitial o q with
    | none => simp [hq, hp] at h
    | some p =>
      simp only [hq, hp, bind, Option.bind] at h
      have hqv : if o.gmin ≤ o.pureV then Rounded o.wA (2 * o.heMax / 3) q.d ∧ Rounded o.wA (2 * o.heMax / 3) q.t
          else q.d = 2 * o.heMax / 3 ∧ q.t = 2 * o.heMax / 3 := by
        unfold psiVacancy at hq
        split at hq
        · rename_i hg
          simp only [Option.some.injEq] at hq
          subst hq
          rw [if_neg (not_le.mpr (show o.pureV < o.gmin from hg))]
          exact ⟨hsd.1, hst.1⟩
        · rename_i hg
          cases h1 : adapt (psiStart o).wHe (psiStart o).he with
          | none => simp [h1] at hq
          | some he =>
            cases h2 : adapt (psiStart o).wD (psiStart o).d with
            | none => simp [h1, h2] at hq
            | some d =>
              cases h3 : adapt (psiStart o).wT (psiStart o).t with
              | none => simp [h1, h2, h3] at hq
              | some t =>
                cases h4 : adapt (psiStart o).wV (psiStart o).v with
                | none => simp [h1, h2, h3, h4] at hq
                | some v =>
                  simp only [h1, h2, h3, h4, bind, Option.bind] at hq
                  split at hq
                  · simp only [pure, Option.some.injEq] at hq
                    subst hq
                    rw [if_pos (not_lt.mp (show ¬o.pureV < o.gmin from hg))]
                    rw [hsd.1, hsd.2] at h2
                    rw [hst.1, hst.2] at h3
                    exact ⟨adapt_rounded hrange h2, adapt_rounded hrange h3⟩
                  · simp at hq
      have hpv : p.d = q.d ∧ p.t = q.t := by
        unfold psiInterstitial at hp
        split at hp
        · simp only [Option.some.injEq] at hp
          subst hp
          exact ⟨rfl, rfl⟩
        · rw [Option.map_eq_some_iff] at hp
          obtain ⟨r, _, rfl⟩ := hp
          exact ⟨rfl, rfl⟩
      rw [← hpv.1, ← hpv.2] at hqv
      refine ⟨p.d, p.t, hqv, ?_⟩
      have hrow : ∀ {delta row rows s n}, (insertRows delta row rows).map (fun r => (⟨s, r⟩ : Net)) = some n → n.sizes = s := by
        intro delta row rows s n h
        rw [Option.map_eq_some_iff] at h
        obtain ⟨r, _, rfl⟩ := h
        rfl
      unfold psiNet at h
      split at h
      · omega
      · split at h
        · rw [hrow h]
          exact ⟨fun _ => rfl, fun _ => rfl⟩
        · split at h
          · rw [hrow h]
            exact ⟨fun _ => rfl, fun _ => by omega⟩
          · split at h
            · rw [hrow h]
              exact ⟨fun _ => by omega, fun _ => rfl⟩
            · exact ⟨fun _ => by omega, fun _ => by omega⟩

/-- **No extra vacancy refinement when the two vacancy ranges are equal.** -/
theorem psi_no_extra {o : Opts} {net : Net} (hr : InRange o) (hv : o.pureV = o.v) (h : psi o = some net) :
    net.ratios.length ≤ 2 ∧ (4 ≤ net.sizes.length → net.ratios.length = 1) := by
  unfold psi at h
  cases hq : psiVacancy o (psiStart o) with
  | none => simp [hq] at h
  | some q =>
    cases hp : psiInterstitial o q with
    | none => simp [hq, hp] at h
    | some p =>
      have F := facts hr hv.ge (by rw [hq, Option.bind_some, hp])
      simp only [hq, hp, bind, Option.bind] at h
      have hd := F.same hv
      unfold psiNet at h
      have h0 : ∀ row rows, insertRows p.delta row rows = some rows := by
        intro row rows
        rw [insertRows_eq (by omega), hd]
        simp
      simp only [h0, Option.map_some] at h
      split at h
      · cases h
        simp
      · split at h
        · cases h
          simp
        · split at h
          · cases h
            simp
          · split at h
            · cases h
              simp
            · split at h
              · split at h
                · simp at h
                · cases h
                  simp
              · cases h
                simp

/-- **C38.** A network is built whenever both widths are at least 2, the mixed range of vacancies is not larger than the pure one, and the requests stay in range when rounded up. -/
theorem psi_defined (o : Opts) (hA : 2 ≤ o.wA) (hB : 2 ≤ o.wB) (hv : o.v ≤ o.pureV) (himp : (o.imp + 1) * o.wA ≤ word) (hd : (o.d + 1) * o.wA ≤ word) (ht : (o.t + 1) * o.wA ≤ word)
    (hhe : (o.heMax + 1) * o.wA ≤ word) (hpv : (o.pureV + 1) * o.wB ≤ word) (hi : (o.i + 1) * o.wB ≤ word) : ∃ net, psi o = some net := by
  have lt : ∀ m w, 2 ≤ w → (m + 1) * w ≤ word → m + 1 < word := by
    intro m w h1 h2
    have : (m + 1) * 2 ≤ (m + 1) * w := Nat.mul_le_mul_left _ h1
    omega
  have hr : InRange o := ⟨lt _ _ hA himp, lt _ _ hA hd, lt _ _ hA ht, by have := lt _ _ hB hpv; omega, lt _ _ hB hi, lt _ _ hB hpv, lt _ _ hA hhe⟩
  have ad : ∀ (x m : ℕ), (x = 0 → m = 0) → (m + 1) * o.wA ≤ word → ∃ r, adapt (if x = 0 then 1 else o.wA) m = some r := by
    intro x m h0 hm
    split_ifs with hx
    · rw [h0 hx, adapt_zero]; exact ⟨_, rfl⟩
    · obtain ⟨k, s, e⟩ := adapt_some hA hm; exact ⟨_, e⟩
  have h23 : (2 * o.heMax / 3 + 1) * o.wA ≤ word := le_trans (Nat.mul_le_mul_right _ (by omega)) hhe
  obtain ⟨rhe, e1⟩ := ad o.imp (psiStart o).he (by intro h; simp only [psiStart, h]; split <;> rfl) (by simp only [psiStart]; split_ifs <;> first | assumption | (have := lt _ _ hA himp; simp only [Nat.zero_add, Nat.one_mul]; exact le_trans (Nat.le_mul_of_pos_left _ (Nat.succ_pos _)) himp))
  obtain ⟨rd, e2⟩ := ad o.d (psiStart o).d (by intro h; simp only [psiStart, h]; split <;> rfl) (by simp only [psiStart]; split_ifs <;> first | assumption | (simp only [Nat.zero_add, Nat.one_mul]; exact le_trans (Nat.le_mul_of_pos_left _ (Nat.succ_pos _)) himp))
  obtain ⟨rt, e3⟩ := ad o.t (psiStart o).t (by intro h; simp only [psiStart, h]; split <;> rfl) (by simp only [psiStart]; split_ifs <;> first | assumption | (simp only [Nat.zero_add, Nat.one_mul]; exact le_trans (Nat.le_mul_of_pos_left _ (Nat.succ_pos _)) himp))
  obtain ⟨kv, sv, e4⟩ := adapt_some hB hpv
  have hq : ∃ q, psiVacancy o (psiStart o) = some q ∧ q.i = o.i ∧ q.wI = o.wB ∧ q.wHe ≠ 0 ∧ q.wV ≠ 0 := by
    unfold psiVacancy
    by_cases hg : (psiStart o).v < o.gmin
    · rw [if_pos hg]
      refine ⟨_, rfl, rfl, rfl, ?_, ?_⟩
      · dsimp only; rw [inc_eq (start_range hr).1]; omega
      · dsimp only; rw [show (psiStart o).v = o.pureV from rfl, inc_eq hr.pureV]; omega
    · have e1' : adapt (psiStart o).wHe (psiStart o).he = some rhe := e1
      have e2' : adapt (psiStart o).wD (psiStart o).d = some rd := e2
      have e3' : adapt (psiStart o).wT (psiStart o).t = some rt := e3
      have e4' : adapt (psiStart o).wV (psiStart o).v = some (kv, sv) := e4
      rw [if_neg hg, e1', e2', e3', e4']
      simp only [Option.bind_eq_bind, Option.bind_some]
      rw [if_pos (show 2 ≤ (psiStart o).wV ∨ inc o.v ≤ 1 from Or.inl hB)]
      refine ⟨_, rfl, rfl, rfl, ?_, ?_⟩
      · change (if o.imp = 0 then 1 else o.wA) ≠ 0; split_ifs <;> omega
      · change o.wB ≠ 0; omega
  obtain ⟨q, eq, qi, qw, q1, q2⟩ := hq
  have hp : ∃ p, psiInterstitial o q = some p ∧ p.wHe ≠ 0 ∧ p.wV ≠ 0 := by
    unfold psiInterstitial
    split_ifs with hg
    · exact ⟨_, rfl, q1, q2⟩
    · obtain ⟨k, s, e⟩ := adapt_some hB hi
      rw [qi, qw, e]
      exact ⟨_, rfl, q1, q2⟩
  obtain ⟨p, ep, p1, p2⟩ := hp
  have hf := facts hr hv (p := p) (by rw [eq]; exact ep)
  obtain ⟨kp, kv', -, -, hdel, h32⟩ := hf.v
  have ins : ∀ row rows, insertRows p.delta row rows = some (List.replicate p.delta row ++ rows) := fun row rows => insertRows_eq (by omega) row rows
  unfold psi
  rw [eq]
  simp only [Option.bind_eq_bind, Option.bind_some]
  rw [ep, Option.bind_some]
  unfold psiNet
  simp only [ins, Option.map_some]
  split_ifs with c1 c2 c3 c4 c5 c6
  · exact ⟨_, rfl⟩
  · exact ⟨_, rfl⟩
  · exact ⟨_, rfl⟩
  · exact ⟨_, rfl⟩
  · rcases c6 with h | h
    · exact absurd h p1
    · exact absurd h p2
  · exact ⟨_, rfl⟩
  · exact ⟨_, rfl⟩

/-- Width 1 is enough without vacancies; with width 0 the network divides by zero. -/
example : psi ⟨0, 0, 0, 0, 0, 0, 0, 0, 1, 1⟩ = some ⟨[0, 0, 0], [[1, 1, 1]]⟩ ∧ psi ⟨8, 0, 0, 0, 0, 3, 0, 1, 0, 4⟩ = none ∧
    psi ⟨8, 0, 0, 0, 0, 3, 0, 1, 1, 4⟩ = some ⟨[0, 3, 0], [[1, 4, 1], [1, 1, 1], [1, 4, 1]]⟩ := by decide +kernel

/-- **C38.** With helium, the network has an axis for deuterium exactly if deuterium is requested, and one for tritium exactly if tritium is. -/
theorem psi_species {o : Opts} {net : Net} (hr : InRange o) (himp : 0 < o.imp) (hp0 : 0 < o.pureV) (hh : 2 ≤ o.heMax) (h : psi o = some net) :
    net.sizes.length = 3 + (if 0 < o.d then 1 else 0) + if 0 < o.t then 1 else 0 := by
  obtain ⟨r1, r2, r3⟩ := start_range hr
  have keep : ∀ {w m k s}, m + 1 < word → adapt w m = some (k, s) → (0 < s ↔ 0 < m) := by
    intro w m k s hm ha
    constructor
    · intro hs
      by_contra h0
      have : m = 0 := by omega
      subst this
      rw [adapt_zero] at ha
      simp only [Option.some.injEq, Prod.mk.injEq] at ha
      omega
    · intro h0
      have := (adapt_least hm ha).1
      omega
  have sd : 0 < (psiStart o).d ↔ 0 < o.d := by simp only [psiStart]; rw [if_neg (by omega)]; split_ifs <;> omega
  have st : 0 < (psiStart o).t ↔ 0 < o.t := by simp only [psiStart]; rw [if_neg (by omega)]; split_ifs <;> omega
  unfold psi at h
  cases hq : psiVacancy o (psiStart o) with
  | none => simp [hq] at h
  | some q =>
    cases hp : psiInterstitial o q with
    | none => simp [hq, hp] at h
    | some p =>
      simp only [hq, hp, bind, Option.bind] at h
      have hqd : (0 < q.d ↔ 0 < o.d) ∧ (0 < q.t ↔ 0 < o.t) := by
        unfold psiVacancy at hq
        split at hq
        · simp only [Option.some.injEq] at hq
          subst hq
          exact ⟨sd, st⟩
        · cases h1 : adapt (psiStart o).wHe (psiStart o).he with
          | none => simp [h1] at hq
          | some he =>
            cases h2 : adapt (psiStart o).wD (psiStart o).d with
            | none => simp [h1, h2] at hq
            | some d =>
              cases h3 : adapt (psiStart o).wT (psiStart o).t with
              | none => simp [h1, h2, h3] at hq
              | some t =>
                cases h4 : adapt (psiStart o).wV (psiStart o).v with
                | none => simp [h1, h2, h3, h4] at hq
                | some v =>
                  simp only [h1, h2, h3, h4, bind, Option.bind] at hq
                  split at hq
                  · simp only [pure, Option.some.injEq] at hq
                    subst hq
                    exact ⟨(keep r2 h2).trans sd, (keep r3 h3).trans st⟩
                  · simp at hq
      have hpd : p.d = q.d ∧ p.t = q.t := by
        unfold psiInterstitial at hp
        split at hp
        · simp only [Option.some.injEq] at hp; subst hp; exact ⟨rfl, rfl⟩
        · rw [Option.map_eq_some_iff] at hp
          obtain ⟨r, -, rfl⟩ := hp
          exact ⟨rfl, rfl⟩
      simp only [← hqd.1, ← hqd.2, ← hpd.1, ← hpd.2]
      have hrow : ∀ {delta row rows s n}, (insertRows delta row rows).map (fun r => (⟨s, r⟩ : Net)) = some n → n.sizes = s := by
        intro delta row rows s n h
        rw [Option.map_eq_some_iff] at h
        obtain ⟨r, _, rfl⟩ := h
        rfl
      unfold psiNet at h
      rw [if_neg (by omega)] at h
      split_ifs at h with c1 c2 c3 c4 c5
      · rw [hrow h, if_pos c1.1, if_pos c1.2]; rfl
      · rw [hrow h, if_pos c2, if_neg (by tauto)]; rfl
      · rw [hrow h, if_neg c2, if_pos c3]; rfl
      · rw [hrow h, if_neg c2, if_neg c3]; rfl
      · rw [hrow h, if_neg c2, if_neg c3]; rfl

example : (psi ⟨8, 0, 1, 10, 6, 10, 50, 20, 4, 4⟩).map (·.sizes) = some [50, 33, 10, 6] ∧ (psi ⟨8, 1, 0, 10, 6, 10, 50, 20, 4, 4⟩).map (·.sizes) = some [50, 33, 10, 6] := by decide +kernel

/-- **Finding.** A pure-vacancy range smaller than the mixed one wraps the number of extra refinements, and no network is built. -/
theorem psi_wrap : psi ⟨8, 0, 0, 50, 6, 10, 200, 5, 4, 4⟩ = none := by decide +kernel

/-- **Finding.** Helium network with separate interstitials and a larger pure-vacancy range: the vacancy axis is subdivided beyond single sizes. -/
theorem psi_overrefined : ∃ net, psi ⟨8, 0, 0, 10, 6, 100, 50, 20, 4, 4⟩ = some net ∧ ¬AllFit net := by
  refine ⟨⟨[63, 255, 6], [[1, 4, 1], [1, 4, 1], [16, 64, 7], [4, 4, 1]]⟩, by decide +kernel, fun h => ?_⟩
  obtain ⟨front, last, k, hc, hs⟩ := h 1 (by decide)
  change [4, 4, 64] ++ [4] = front ++ [last] at hc
  obtain ⟨rfl, hl⟩ := List.append_inj' hc rfl
  cases hl
  have : 0 < 4 ^ k := Nat.pow_pos (by decide)
  simp at hs
  omega

/-- **Finding.** Deuterium and tritium requested without helium are dropped when vacancies and interstitials are both grouped. -/
theorem psi_hydrogen_dropped : psi ⟨0, 1, 1, 20, 6, 20, 98, 2, 4, 4⟩ = some ⟨[0, 63, 15], [[1, 4, 4]]⟩ ∧
    psi ⟨0, 1, 1, 20, 6, 20, 98, 30, 4, 4⟩ = some ⟨[0, 65, 65, 20, 6], [[1, 66, 66, 21, 7]]⟩ := by
  constructor <;> decide +kernel

/-- **Finding.** Grouping without a second width never ends as soon as a vacancy is requested. -/
theorem psi_no_width {o : Opts} (h : o.wB ≤ 1) (hg : o.gmin ≤ o.pureV) (h0 : 0 < o.pureV) (hp : o.pureV + 1 < word) :
    psi o = none ∧ ¬∃ k, Loop o.wB (inc o.pureV) 0 k := by
  have hno : ¬∃ k, Loop o.wB (inc o.pureV) 0 k := by
    rw [adapt_defined hp]
    omega
  refine ⟨?_, hno⟩
  have ha : adapt (psiStart o).wV (psiStart o).v = none := by
    change adapt o.wB o.pureV = none
    unfold adapt
    rw [if_neg]
    rw [inc_eq hp]
    omega
  have hv : psiVacancy o (psiStart o) = none := by
    unfold psiVacancy
    rw [if_neg (by change ¬o.pureV < o.gmin; omega)]
    rw [ha]
    cases adapt (psiStart o).wHe (psiStart o).he with
    | none => rfl
    | some _ =>
      cases adapt (psiStart o).wD (psiStart o).d with
      | none => rfl
      | some _ =>
        cases adapt (psiStart o).wT (psiStart o).t with
        | none => rfl
        | some _ => rfl
  unfold psi
  rw [hv]
  rfl

end Xolotl.Network.Sizes
