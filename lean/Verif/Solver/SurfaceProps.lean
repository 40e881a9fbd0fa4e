import Verif.Solver.Surface
import Verif.Solver.MoveProps
import Mathlib.Tactic.Linarith
import Mathlib.Tactic.Ring
import Mathlib.Tactic.NormNum
import Mathlib.Tactic.FinCases

set_option linter.unusedSectionVars false

/-!
# C70 — the surface in two and three dimensions
-/

namespace Xolotl.Solver.Surface

open Xolotl.Solver.Move (getD_lt some_getD grow used)

variable {K : Type*} [Field K] [LinearOrder K] [IsStrictOrderedRing K]

/-! ### Helpers -/

theorem dec_pos (bits p : ℕ) (h1 : 1 ≤ p) (h2 : p < 2 ^ bits) : dec bits p = p - 1 := by
  unfold dec
  rw [show p + (2 ^ bits - 1) = (p - 1) + 2 ^ bits by omega, Nat.add_mod_right, Nat.mod_eq_of_lt (by omega)]

theorem dec_zero (bits : ℕ) : dec bits 0 = 2 ^ bits - 1 := by
  have : 0 < 2 ^ bits := Nat.two_pow_pos bits
  unfold dec; rw [zero_add, Nat.mod_eq_of_lt (by omega)]

theorem first_eq (c : Par K) (pos : ℕ) (h : pos + c.left < 2 ^ c.bits) : first c pos = pos + c.left := Nat.mod_eq_of_lt h

/-- The point above the first one, also when the position wraps. -/
theorem first_dec (c : Par K) (pos : ℕ) (h1 : 1 ≤ pos + c.left) (h : pos + c.left < 2 ^ c.bits) : first c (dec c.bits pos) = pos + c.left - 1 := by
  have h0 : 0 < 2 ^ c.bits := Nat.two_pow_pos _
  unfold first dec
  rw [Nat.mod_add_mod, show pos + (2 ^ c.bits - 1) + c.left = (pos + c.left - 1) + 2 ^ c.bits by omega, Nat.add_mod_right, Nat.mod_eq_of_lt (by omega)]

theorem cell_eq (c : Par K) (g : List K) (i j : ℕ) (hi : i < g.length) (hj : j < g.length) :
    cell c g i j = some (c.density * (g.getD i 0 - g.getD j 0) * c.area) := by
  unfold cell; rw [some_getD g i hi, some_getD g j hj]; rfl

theorem cell_none (c : Par K) (g : List K) (i j : ℕ) (h : g.length ≤ j) : cell c g i j = none := by
  unfold cell
  rw [List.getElem?_eq_none h]
  cases g[i]? <;> rfl

/-! ### Moving up -/

/-- The guard that is to keep the surface inside the grid holds always. -/
theorem roomAbove_true (c : Par K) (pos : ℕ) : roomAbove c pos = true := decide_eq_true (Nat.zero_le _)

/-- Where the surface stops: it moves up `k` points; every point moved costs the content of its cell, the account covered every one of them and does not cover the next. -/
theorem up_done (c : Par K) (g : List K) (hleft : c.left ≤ 1) (n : K) :
    ∀ (fuel m pos count : ℕ), pos + c.left = m → 1 ≤ m → m < g.length → g.length ≤ 2 ^ c.bits → m < fuel → n ≤ c.density * (g.getD m 0 - g.getD 0 0) * c.area →
      ∃ k, k < m ∧ up c g fuel n (c.density * (g.getD m 0 - g.getD (m - 1) 0) * c.area) pos count = .done (n - c.density * (g.getD m 0 - g.getD (m - k) 0) * c.area, pos - k, count + k) ∧
        k ≤ pos ∧ n ≤ c.density * (g.getD m 0 - g.getD (m - k - 1) 0) * c.area ∧ ∀ j < k, c.density * (g.getD m 0 - g.getD (m - j - 1) 0) * c.area < n := by
  intro fuel
  induction fuel generalizing n with
  | zero => intro m pos count _ _ _ _ hf; omega
  | succ fuel ih =>
    intro m pos count hm h1 hlen hbits hf hn
    unfold up
    rw [roomAbove_true]
    by_cases hthr : n > c.density * (g.getD m 0 - g.getD (m - 1) 0) * c.area
    · rw [if_pos ⟨hthr, rfl⟩]
      have hm2 : 2 ≤ m := by
        by_contra hlt
        obtain rfl : m = 1 := by omega
        exact absurd hn (not_le.mpr hthr)
      rw [first_dec c pos (by omega) (by omega), hm, dec_pos c.bits (m - 1) (by omega) (by omega), dec_pos c.bits pos (by omega) (by omega),
        cell_eq c g (m - 1) (m - 1 - 1) (by omega) (by omega)]
      dsimp only
      obtain ⟨k, hk, he, hkp, hle, hall⟩ := ih (n - c.density * (g.getD m 0 - g.getD (m - 1) 0) * c.area) (m - 1) (pos - 1) (count + 1) (by omega) (by omega) (by omega) hbits (by omega)
        (by have : c.density * (g.getD m 0 - g.getD 0 0) * c.area = c.density * (g.getD m 0 - g.getD (m - 1) 0) * c.area + c.density * (g.getD (m - 1) 0 - g.getD 0 0) * c.area := by ring
            linarith)
      refine ⟨k + 1, by omega, ?_, by omega, ?_, ?_⟩
      · rw [he, show m - 1 - k = m - (k + 1) by omega, show pos - 1 - k = pos - (k + 1) by omega, show count + 1 + k = count + (k + 1) by omega]
        congr 2; ring
      · rw [show m - (k + 1) - 1 = m - 1 - k - 1 by omega]
        have : c.density * (g.getD m 0 - g.getD (m - 1 - k - 1) 0) * c.area =
          c.density * (g.getD m 0 - g.getD (m - 1) 0) * c.area + c.density * (g.getD (m - 1) 0 - g.getD (m - 1 - k - 1) 0) * c.area := by ring
        linarith
      · intro j hj
        rcases Nat.eq_zero_or_pos j with rfl | hj0
        · simpa using hthr
        · have h := hall (j - 1) (by omega)
          rw [show m - 1 - (j - 1) - 1 = m - j - 1 by omega] at h
          have : c.density * (g.getD m 0 - g.getD (m - j - 1) 0) * c.area =
            c.density * (g.getD m 0 - g.getD (m - 1) 0) * c.area + c.density * (g.getD (m - 1) 0 - g.getD (m - j - 1) 0) * c.area := by ring
          linarith
    · rw [if_neg (fun h => hthr h.1)]
      refine ⟨0, by omega, ?_, by omega, ?_, by omega⟩
      · simp
      · simpa using not_lt.mp hthr

/-- The loop reads in front of the grid as soon as the account is more than what is above the surface. -/
theorem up_outside (c : Par K) (g : List K) (n : K) (hleft : c.left ≤ 1) (hcell : ∀ i j, i < j → j < g.length → 0 < c.density * (g.getD j 0 - g.getD i 0) * c.area) :
    ∀ (fuel m pos count : ℕ), pos + c.left = m → 1 ≤ m → m < g.length → g.length < 2 ^ c.bits → m < fuel → c.density * (g.getD m 0 - g.getD 0 0) * c.area < n →
      up c g fuel n (c.density * (g.getD m 0 - g.getD (m - 1) 0) * c.area) pos count = .outside := by
  intro fuel
  induction fuel generalizing n with
  | zero => intro m pos count _ _ _ _ hf; omega
  | succ fuel ih =>
    intro m pos count hm h1 hlen hbits hf hn
    unfold up
    rw [roomAbove_true]
    have hsplit : c.density * (g.getD m 0 - g.getD 0 0) * c.area =
      c.density * (g.getD m 0 - g.getD (m - 1) 0) * c.area + c.density * (g.getD (m - 1) 0 - g.getD 0 0) * c.area := by ring
    rcases Nat.lt_or_ge m 2 with hlt | hge
    · obtain rfl : m = 1 := by omega
      rw [if_pos ⟨by simpa using hn, rfl⟩, first_dec c pos (by omega) (by omega), hm, dec_zero, cell_none c g _ _ (by omega)]
    · have h0 := hcell 0 (m - 1) (by omega) (by omega)
      rw [if_pos ⟨by linarith, rfl⟩, first_dec c pos (by omega) (by omega), hm, dec_pos c.bits (m - 1) (by omega) (by omega), dec_pos c.bits pos (by omega) (by omega),
        cell_eq c g (m - 1) (m - 1 - 1) (by omega) (by omega)]
      dsimp only
      exact ih _ (m - 1) (pos - 1) (count + 1) (by omega) (by omega) (by omega) hbits (by omega) (by linarith)

theorem cell_pos (c : Par K) (hd : 0 < c.density * c.area) (g : List K) (hg : g.Pairwise (· < ·)) (i j : ℕ) (hij : i < j) (hj : j < g.length) :
    0 < c.density * (g.getD j 0 - g.getD i 0) * c.area := by
  have h := getD_lt g hg i j hij hj
  have : c.density * (g.getD j 0 - g.getD i 0) * c.area = c.density * c.area * (g.getD j 0 - g.getD i 0) := by ring
  rw [this]; exact mul_pos hd (by linarith)

/-! ### One line -/

theorem line_unfold (c : Par K) (g : List K) (fuel : ℕ) (n : K) (pos : ℕ) (h1 : 1 ≤ pos + c.left) (hlen : pos + c.left < g.length) (hbits : g.length ≤ 2 ^ c.bits) :
    line c g fuel n pos =
      if n > c.density * (g.getD (pos + c.left) 0 - g.getD (pos + c.left - 1) 0) * c.area then
        match up c g fuel n (c.density * (g.getD (pos + c.left) 0 - g.getD (pos + c.left - 1) 0) * c.area) pos 0 with
        | .done r => .done (if first c r.2.1 < 2 then .leaves r.1 r.2.2 else .stays r.1 r.2.1)
        | .outside => .outside
        | .running => .running
      else if n < -(c.density * (g.getD (pos + c.left) 0 - g.getD (pos + c.left - 1) 0) * c.area) / 10 then
        match back c g fuel n pos with
        | .done r => .done (.stays r.1 r.2)
        | .outside => .outside
        | .running => .running
      else .done (.stays n pos) := by
  unfold line
  rw [first_eq c pos (by omega), dec_pos c.bits _ (by omega) (by omega), cell_eq c g _ _ hlen (by omega)]
  rfl

/-- What a growing line does, exactly: it moves up the number `k` of points that the account covers; if it ends at the second point of the grid or below, this is its new position, if it ends at the first it asks for `k` points and keeps its position; if the account covers all points it reads in front of the grid. -/
theorem line_grows (c : Par K) (hd : 0 < c.density * c.area) (g : List K) (hg : g.Pairwise (· < ·)) (hleft : c.left ≤ 1) (fuel : ℕ) (n : K) (pos : ℕ) (h1 : 1 ≤ pos + c.left) (hlen : pos + c.left < g.length)
    (hbits : g.length < 2 ^ c.bits) (hf : pos + c.left < fuel) (hn : c.density * (g.getD (pos + c.left) 0 - g.getD (pos + c.left - 1) 0) * c.area < n) :
    (c.density * (g.getD (pos + c.left) 0 - g.getD 0 0) * c.area < n ∧ line c g fuel n pos = .outside) ∨
    ∃ k, 1 ≤ k ∧ k ≤ pos ∧ k < pos + c.left ∧ n ≤ c.density * (g.getD (pos + c.left) 0 - g.getD (pos + c.left - k - 1) 0) * c.area ∧
      c.density * (g.getD (pos + c.left) 0 - g.getD (pos + c.left - k) 0) * c.area < n ∧
      line c g fuel n pos = .done (if pos + c.left - k = 1 then .leaves (n - c.density * (g.getD (pos + c.left) 0 - g.getD (pos + c.left - k) 0) * c.area) k
        else .stays (n - c.density * (g.getD (pos + c.left) 0 - g.getD (pos + c.left - k) 0) * c.area) (pos - k)) := by
  rw [line_unfold c g fuel n pos h1 hlen hbits.le, if_pos hn]
  rcases lt_or_ge (c.density * (g.getD (pos + c.left) 0 - g.getD 0 0) * c.area) n with h | h
  · left
    rw [up_outside c g n hleft (cell_pos c hd g hg) fuel (pos + c.left) pos 0 rfl h1 hlen hbits hf h]
    exact ⟨h, rfl⟩
  · right
    obtain ⟨k, hk, he, hkp, hle, hall⟩ := up_done c g hleft n fuel (pos + c.left) pos 0 rfl h1 hlen hbits.le hf h
    have hk1 : 1 ≤ k := by
      rcases Nat.eq_zero_or_pos k with rfl | hk0
      · exact absurd hle (not_le.mpr (by simpa using hn))
      · exact hk0
    refine ⟨k, hk1, hkp, hk, hle, ?_, ?_⟩
    · have := hall (k - 1) (by omega)
      rwa [show pos + c.left - (k - 1) - 1 = pos + c.left - k by omega] at this
    · rw [he]
      dsimp only
      rw [first_eq c (pos - k) (by omega), show pos - k + c.left = pos + c.left - k by omega, Nat.zero_add]
      by_cases h2 : pos + c.left - k = 1
      · rw [if_pos (by omega), if_pos h2]
      · rw [if_neg (by omega), if_neg h2]

/-- At the top of the grid, where every line begins, growth always reads in front of the grid. -/
theorem top_outside (c : Par K) (hd : 0 < c.density * c.area) (g : List K) (hg : g.Pairwise (· < ·)) (hleft : c.left ≤ 1) (fuel : ℕ) (n : K) (pos : ℕ) (h1 : pos + c.left = 1) (hlen : 1 < g.length)
    (hbits : g.length < 2 ^ c.bits) (hf : 1 < fuel) (hn : c.density * (g.getD 1 0 - g.getD 0 0) * c.area < n) : line c g fuel n pos = .outside := by
  rcases line_grows c hd g hg hleft fuel n pos (by omega) (by omega) hbits (by omega) (by rw [h1]; exact hn) with h | ⟨k, hk1, _, hk, _⟩
  · exact h.2
  · omega

/-- The grid of the examples. -/
def exGrid : List ℚ := [0, 1, 2, 3, 4, 5, 6]

/-- The parameters of the examples. -/
def exPar : Par ℚ := ⟨1, 1, 0, 0, 1, 32⟩

example : line exPar exGrid 10 (3 / 2) 0 = .outside := by decide +kernel
example : line exPar exGrid 10 (5 / 2) 3 = .done (.stays (1 / 2) 1) := by decide +kernel
example : line exPar exGrid 10 (7 / 2) 3 = .done (.leaves (1 / 2) 3) := by decide +kernel
example : line exPar exGrid 10 (9 / 2) 3 = .outside := by decide +kernel
example : line exPar exGrid 10 (-3 / 2) 1 = .done (.stays (1 / 2) 3) := by decide +kernel

/-- Moving back: the loop ends with an account that is not negative, each point adds the content of its cell, and without the last cell the account would still be negative; or it reads behind the grid. -/
theorem back_done (c : Par K) (g : List K) : ∀ (fuel : ℕ) (n : K) (pos : ℕ), pos + c.left < g.length → g.length < fuel + (pos + c.left) →
    back c g fuel n pos = .outside ∨
      ∃ k, pos + c.left + k < g.length ∧ back c g fuel n pos = .done (n + c.density * (g.getD (pos + c.left + k) 0 - g.getD (pos + c.left) 0) * c.area, pos + k) ∧
        0 ≤ n + c.density * (g.getD (pos + c.left + k) 0 - g.getD (pos + c.left) 0) * c.area ∧ ∀ j < k, n + c.density * (g.getD (pos + c.left + j) 0 - g.getD (pos + c.left) 0) * c.area < 0 := by
  intro fuel
  induction fuel with
  | zero => intro n pos _ _; omega
  | succ fuel ih =>
    intro n pos hlen hf
    unfold back
    by_cases hn : n < 0
    · rw [if_pos hn]
      rcases Nat.lt_or_ge (pos + c.left + 1) g.length with h | h
      · rw [cell_eq c g _ _ h hlen]
        dsimp only
        rcases ih (n + c.density * (g.getD (pos + c.left + 1) 0 - g.getD (pos + c.left) 0) * c.area) (pos + 1) (by omega) (by omega) with ho | ⟨k, hk, he, h0, hall⟩
        · exact .inl ho
        · right
          have e : ∀ j, pos + 1 + c.left + j = pos + c.left + (j + 1) := by omega
          have e0 : pos + 1 + c.left = pos + c.left + 1 := by omega
          rw [e] at hk h0 he
          rw [e0] at he h0
          have hr : ∀ x : K, n + c.density * (g.getD (pos + c.left + 1) 0 - g.getD (pos + c.left) 0) * c.area + c.density * (x - g.getD (pos + c.left + 1) 0) * c.area =
            n + c.density * (x - g.getD (pos + c.left) 0) * c.area := by intro x; ring
          refine ⟨k + 1, hk, ?_, ?_, ?_⟩
          · rw [he, hr, show pos + 1 + k = pos + (k + 1) by omega]
          · rwa [hr] at h0
          · intro j hj
            rcases Nat.eq_zero_or_pos j with rfl | hj0
            · simpa using hn
            · have h := hall (j - 1) (by omega)
              rwa [e, e0, hr, show j - 1 + 1 = j by omega] at h
      · have : cell c g (pos + c.left + 1) (pos + c.left) = none := by unfold cell; rw [List.getElem?_eq_none h]; rfl
        rw [this]; exact .inl rfl
    · rw [if_neg hn]
      exact .inr ⟨0, hlen, by simp, by simpa using not_lt.mp hn, by omega⟩

/-- A line whose position is stored keeps its atoms: what it loses or gains in the account is in the material, and its material stays inside the grid. -/
theorem line_atoms (c : Par K) (hd : 0 < c.density * c.area) (g : List K) (hg : g.Pairwise (· < ·)) (hleft : c.left ≤ 1) (fuel : ℕ) (n n' : K) (pos pos' : ℕ) (h1 : 1 ≤ pos + c.left)
    (hlen : pos + c.left < g.length) (hbits : g.length < 2 ^ c.bits) (hf : g.length < fuel) (h : line c g fuel n pos = .done (.stays n' pos')) :
    atoms c g n' pos' = atoms c g n pos ∧ 1 ≤ pos' + c.left ∧ pos' + c.left < g.length := by
  have key : ∀ i : ℕ, ∀ x : K, x = n - c.density * (g.getD (pos + c.left) 0 - g.getD i 0) * c.area → x + c.density * (g.getD (g.length - 2) 0 - g.getD i 0) * c.area =
      n + c.density * (g.getD (g.length - 2) 0 - g.getD (pos + c.left) 0) * c.area := by rintro i x rfl; ring
  by_cases hn : c.density * (g.getD (pos + c.left) 0 - g.getD (pos + c.left - 1) 0) * c.area < n
  · rcases line_grows c hd g hg hleft fuel n pos h1 hlen hbits (by omega) hn with ho | ⟨k, hk1, hkp, hk, _, _, he⟩
    · rw [ho.2] at h; cases h
    · rw [he] at h
      by_cases h2 : pos + c.left - k = 1
      · rw [if_pos h2] at h; cases h
      · rw [if_neg h2] at h
        injection h with h; injection h with hn' hp'
        subst hp'
        refine ⟨?_, by omega, by omega⟩
        unfold atoms thick
        rw [show pos - k + c.left = pos + c.left - k by omega]
        exact key _ _ hn'.symm
  · rw [line_unfold c g fuel n pos h1 hlen hbits.le, if_neg hn] at h
    by_cases hb : n < -(c.density * (g.getD (pos + c.left) 0 - g.getD (pos + c.left - 1) 0) * c.area) / 10
    · rw [if_pos hb] at h
      rcases back_done c g fuel n pos hlen (by omega) with ho | ⟨k, hk, he, _, _⟩
      · rw [ho] at h; cases h
      · rw [he] at h
        injection h with h; injection h with hn' hp'
        dsimp only at hn' hp'
        subst hp'
        refine ⟨?_, by omega, by omega⟩
        unfold atoms thick
        rw [show pos + k + c.left = pos + c.left + k by omega, ← hn']; ring
    · rw [if_neg hb] at h
      injection h with h; injection h with hn' hp'
      subst hn' hp'
      exact ⟨rfl, h1, hlen⟩

example : atoms exPar exGrid (5 / 2) 3 = 7 / 2 ∧ atoms exPar exGrid (1 / 2) 1 = 7 / 2 := by decide +kernel

/-- A line that does not move has an account between a tenth of the cell above (negative) and the cell above; a line that moved back has an account that is not negative and would be without the last cell. -/
theorem line_stays (c : Par K) (hd : 0 < c.density * c.area) (g : List K) (hg : g.Pairwise (· < ·)) (hleft : c.left ≤ 1) (fuel : ℕ) (n n' : K) (pos pos' : ℕ) (h1 : 1 ≤ pos + c.left)
    (hlen : pos + c.left < g.length) (hbits : g.length < 2 ^ c.bits) (hf : g.length < fuel) (h : line c g fuel n pos = .done (.stays n' pos')) :
    (pos' < pos ∧ 0 < n' ∧ n' ≤ c.density * (g.getD (pos' + c.left) 0 - g.getD (pos' + c.left - 1) 0) * c.area) ∨
    (pos' = pos ∧ n' = n ∧ n ≤ c.density * (g.getD (pos + c.left) 0 - g.getD (pos + c.left - 1) 0) * c.area ∧ -(c.density * (g.getD (pos + c.left) 0 - g.getD (pos + c.left - 1) 0) * c.area) / 10 ≤ n) ∨
    (pos < pos' ∧ 0 ≤ n' ∧ n' < c.density * (g.getD (pos' + c.left) 0 - g.getD (pos' + c.left - 1) 0) * c.area) := by
  by_cases hn : c.density * (g.getD (pos + c.left) 0 - g.getD (pos + c.left - 1) 0) * c.area < n
  · left
    rcases line_grows c hd g hg hleft fuel n pos h1 hlen hbits (by omega) hn with ho | ⟨k, hk1, hkp, hk, hle, hlt, he⟩
    · rw [ho.2] at h; cases h
    · rw [he] at h
      by_cases h2 : pos + c.left - k = 1
      · rw [if_pos h2] at h; cases h
      · rw [if_neg h2] at h
        injection h with h; injection h with hn' hp'
        subst hp'
        rw [show pos - k + c.left = pos + c.left - k by omega, ← hn']
        refine ⟨by omega, by linarith, ?_⟩
        have : c.density * (g.getD (pos + c.left) 0 - g.getD (pos + c.left - k - 1) 0) * c.area =
          c.density * (g.getD (pos + c.left) 0 - g.getD (pos + c.left - k) 0) * c.area + c.density * (g.getD (pos + c.left - k) 0 - g.getD (pos + c.left - k - 1) 0) * c.area := by ring
        linarith
  · right
    rw [line_unfold c g fuel n pos h1 hlen hbits.le, if_neg hn] at h
    by_cases hb : n < -(c.density * (g.getD (pos + c.left) 0 - g.getD (pos + c.left - 1) 0) * c.area) / 10
    · right
      have hneg : n < 0 := by
        have := cell_pos c hd g hg (pos + c.left - 1) (pos + c.left) (by omega) hlen
        linarith
      rw [if_pos hb] at h
      rcases back_done c g fuel n pos hlen (by omega) with ho | ⟨k, hk, he, h0, hall⟩
      · rw [ho] at h; cases h
      · rw [he] at h
        injection h with h; injection h with hn' hp'
        dsimp only at hn' hp'
        subst hp'
        have hk1 : 1 ≤ k := by
          rcases Nat.eq_zero_or_pos k with rfl | hk0
          · simp only [sub_self, mul_zero, zero_mul, add_zero] at h0; exact absurd h0 (not_le.mpr hneg)
          · exact hk0
        have hlast := hall (k - 1) (by omega)
        rw [show pos + k + c.left = pos + c.left + k by omega, ← hn']
        refine ⟨by omega, h0, ?_⟩
        rw [show pos + c.left + k - 1 = pos + c.left + (k - 1) by omega]
        have : c.density * (g.getD (pos + c.left + k) 0 - g.getD (pos + c.left) 0) * c.area =
          c.density * (g.getD (pos + c.left + (k - 1)) 0 - g.getD (pos + c.left) 0) * c.area + c.density * (g.getD (pos + c.left + k) 0 - g.getD (pos + c.left + (k - 1)) 0) * c.area := by ring
        linarith
    · left
      rw [if_neg hb] at h
      injection h with h; injection h with hn' hp'
      exact ⟨hp'.symm, hn'.symm, not_lt.mp hn, not_lt.mp hb⟩

/-! ### All lines -/

/-- Every line keeps its atoms in a sweep that no line leaves. -/
theorem sweep_atoms (c : Par K) (hd : 0 < c.density * c.area) (g : List K) (hg : g.Pairwise (· < ·)) (hleft : c.left ≤ 1) (hbits : g.length < 2 ^ c.bits) (fuel : ℕ) (hf : g.length < fuel) :
    ∀ (ls r : List (K × ℕ)), (∀ l ∈ ls, 1 ≤ l.2 + c.left ∧ l.2 + c.left < g.length) → sweep c g fuel ls = .done (r, none) →
      r.map (fun l => atoms c g l.1 l.2) = ls.map (fun l => atoms c g l.1 l.2) ∧ ∀ l ∈ r, 1 ≤ l.2 + c.left ∧ l.2 + c.left < g.length := by
  intro ls
  induction ls with
  | nil => intro r _ h; simp only [sweep, Loop.done.injEq, Prod.mk.injEq, and_true] at h; subst h; simp
  | cons l ls ih =>
    intro r hpos h
    unfold sweep at h
    cases hl : line c g fuel l.1 l.2 with
    | outside => rw [hl] at h; cases h
    | running => rw [hl] at h; cases h
    | done m =>
      rw [hl] at h
      cases m with
      | leaves n count => simp at h
      | stays n pos =>
        dsimp only at h
        cases hs : sweep c g fuel ls with
        | outside => rw [hs] at h; cases h
        | running => rw [hs] at h; cases h
        | done q =>
          rw [hs] at h
          obtain ⟨q1, q2⟩ := q
          simp only [Loop.done.injEq, Prod.mk.injEq] at h
          obtain ⟨rfl, rfl⟩ := h
          have h0 := hpos l (by simp)
          obtain ⟨ha, hb⟩ := line_atoms c hd g hg hleft fuel l.1 n l.2 pos h0.1 h0.2 hbits hf hl
          obtain ⟨hc, hd'⟩ := ih q1 (fun x hx => hpos x (by simp [hx])) hs
          refine ⟨by simp only [List.map_cons, hc, ha], ?_⟩
          intro x hx
          rcases List.mem_cons.mp hx with rfl | hx
          · exact hb
          · exact hd' x hx

/-- A sweep that a line leaves: the lines before it have moved (and keep their atoms), the lines after it have not been looked at, and the line itself has paid for `count` points that it has not got. -/
theorem sweep_left (c : Par K) (hd : 0 < c.density * c.area) (g : List K) (hg : g.Pairwise (· < ·)) (hleft : c.left ≤ 1) (hbits : g.length < 2 ^ c.bits) (fuel : ℕ) (hf : g.length < fuel) (count : ℕ) :
    ∀ (ls r : List (K × ℕ)), (∀ l ∈ ls, 1 ≤ l.2 + c.left ∧ l.2 + c.left < g.length) → sweep c g fuel ls = .done (r, some count) →
      ∃ before moved l rest, ls = before ++ l :: rest ∧ sweep c g fuel before = .done (moved, none) ∧ count + 1 = l.2 + c.left ∧ 1 ≤ count ∧
        r = moved ++ (l.1 - c.density * (g.getD (l.2 + c.left) 0 - g.getD 1 0) * c.area, l.2) :: rest := by
  intro ls
  induction ls with
  | nil => intro r _ h; simp [sweep] at h
  | cons l ls ih =>
    intro r hpos h
    have h0 := hpos l (by simp)
    unfold sweep at h
    cases hl : line c g fuel l.1 l.2 with
    | outside => rw [hl] at h; cases h
    | running => rw [hl] at h; cases h
    | done m =>
      rw [hl] at h
      cases m with
      | leaves n k =>
        simp only [Loop.done.injEq, Prod.mk.injEq, Option.some.injEq] at h
        obtain ⟨rfl, rfl⟩ := h
        have hn : c.density * (g.getD (l.2 + c.left) 0 - g.getD (l.2 + c.left - 1) 0) * c.area < l.1 := by
          by_contra hn
          rw [line_unfold c g fuel l.1 l.2 h0.1 h0.2 hbits.le, if_neg hn] at hl
          split_ifs at hl with hb
          · cases hbk : back c g fuel l.1 l.2 with
            | done q => rw [hbk] at hl; cases hl
            | outside => rw [hbk] at hl; cases hl
            | running => rw [hbk] at hl; cases hl
          · cases hl
        rcases line_grows c hd g hg hleft fuel l.1 l.2 h0.1 h0.2 hbits (by omega) hn with ho | ⟨j, hj1, hjp, hj, _, _, he⟩
        · rw [ho.2] at hl; cases hl
        · rw [he] at hl
          by_cases h2 : l.2 + c.left - j = 1
          · rw [if_pos h2, h2] at hl
            injection hl with hl; injection hl with hn' hk'
            subst hk'
            exact ⟨[], [], l, ls, rfl, rfl, by omega, hj1, by simp [hn'.symm]⟩
          · rw [if_neg h2] at hl; cases hl
      | stays n pos =>
        dsimp only at h
        cases hs : sweep c g fuel ls with
        | outside => rw [hs] at h; cases h
        | running => rw [hs] at h; cases h
        | done q =>
          rw [hs] at h
          obtain ⟨q1, q2⟩ := q
          simp only [Loop.done.injEq, Prod.mk.injEq] at h
          obtain ⟨rfl, rfl⟩ := h
          obtain ⟨before, moved, x, rest, e1, e2, e3, e4, e5⟩ := ih q1 (fun x hx => hpos x (by simp [hx])) hs
          refine ⟨l :: before, (n, pos) :: moved, x, rest, by rw [e1]; rfl, ?_, e3, e4, by rw [e5]; rfl⟩
          unfold sweep; rw [hl]; dsimp only; rw [e2]

example : sweep exPar exGrid 10 [(5 / 2, 3), (7 / 2, 3), (5, 4)] = .done ([(1 / 2, 1), (1 / 2, 3), (5, 4)], some 3) := by decide +kernel

/-! ### The smallest position -/

theorem foldl_min (l : List ℕ) : ∀ s, (l.foldl (fun m p => if p < m then p else m) s ≤ s ∧ ∀ p ∈ l, l.foldl (fun m p => if p < m then p else m) s ≤ p) ∧
    (l.foldl (fun m p => if p < m then p else m) s = s ∨ l.foldl (fun m p => if p < m then p else m) s ∈ l) := by
  induction l with
  | nil => intro s; simp
  | cons a l ih =>
    intro s
    obtain ⟨⟨h1, h2⟩, h3⟩ := ih (if a < s then a else s)
    rw [List.foldl_cons]
    have hle : (if a < s then a else s) ≤ s ∧ (if a < s then a else s) ≤ a := by split_ifs <;> omega
    refine ⟨⟨by omega, ?_⟩, ?_⟩
    · intro p hp
      rcases List.mem_cons.mp hp with rfl | hp
      · omega
      · exact h2 p hp
    · rcases h3 with h3 | h3
      · rw [h3]
        split_ifs
        · exact .inr (by simp)
        · exact .inl rfl
      · exact .inr (by simp [h3])

/-- In two dimensions the smallest position is found. -/
theorem minSurf_spec (positions : List ℕ) (m : ℕ) : minSurf positions = some m ↔ m ∈ positions ∧ ∀ p ∈ positions, m ≤ p := by
  cases positions with
  | nil => simp [minSurf]
  | cons a l =>
    have hm : minSurf (a :: l) = some ((a :: l).foldl (fun m p => if p < m then p else m) a) := rfl
    obtain ⟨⟨_, h2⟩, h3⟩ := foldl_min (a :: l) a
    have hmem : (a :: l).foldl (fun m p => if p < m then p else m) a ∈ a :: l := by
      rcases h3 with h3 | h3
      · rw [h3]; simp
      · exact h3
    rw [hm, Option.some.injEq]
    constructor
    · rintro rfl; exact ⟨hmem, h2⟩
    · rintro ⟨h4, h5⟩; exact le_antisymm (h2 m h4) (h5 _ hmem)

example : minSurf [3, 1, 2] = some 1 := by decide

/-- In three dimensions the search begins with a read outside the positions. -/
theorem minSurf3_outside (bits : ℕ) (positions : List (List ℕ)) (h : ∀ row ∈ positions, row.length < 2 ^ bits) : minSurf3 bits positions = none := by
  unfold minSurf3
  cases positions with
  | nil => rfl
  | cons row l =>
    have := h row (by simp)
    simp only [List.getElem?_cons_zero, Option.bind_eq_bind, Option.bind_some]
    rw [List.getElem?_eq_none (by omega)]; rfl

example : minSurf3 32 [[3, 1], [2, 2]] = none := minSurf3_outside 32 _ (by intro row h; fin_cases h <;> norm_num)

/-! ### Changing the grid -/

/-- The grid grown by `n` points: every line that keeps its position has the material of the first `n` cells more. -/
theorem grown_atoms (c : Par K) (g g' : List K) (hg : g.Pairwise (· < ·)) (h4 : 4 ≤ g.length) (n : ℕ) (hn1 : 1 ≤ n) (hn : n < g.length) (h : grow g n = some g') (a : K) (pos : ℕ) (hpos : pos + c.left + 2 < g.length) :
    atoms c g' a pos = atoms c g a pos + c.density * (g.getD n 0 - g.getD 0 0) * c.area := by
  obtain ⟨g'', hgr, hlen, hinc, htake, hused, _⟩ := Move.grow_spec g hg h4 n hn1 hn
  rw [h] at hgr; injection hgr with hgr; subst hgr
  have hsame : ∀ i, i < g.length - 2 → g'.getD i 0 = g.getD i 0 := by
    intro i hi
    have : (g'.take (g.length - 2))[i]? = (g.take (g.length - 2))[i]? := by rw [htake]
    rw [List.getElem?_take, List.getElem?_take, if_pos hi, if_pos hi] at this
    simp only [List.getD, this]
  have h0 := hsame 0 (by omega)
  have hp := hsame (pos + c.left) (by omega)
  unfold used at hused
  unfold atoms thick
  rw [hp]
  rw [h0] at hused
  have e : g'.getD (g'.length - 2) 0 = g.getD (g.length - 2) 0 + (g.getD n 0 - g.getD 0 0) := by linarith
  rw [e]; ring

/-- After a line has left the loop, the solver adds `count` points for all lines.  A line that has not been looked at, or has moved, gets the atoms of `count` cells for nothing. -/
theorem left_others (c : Par K) (hd : 0 < c.density * c.area) (g g' : List K) (hg : g.Pairwise (· < ·)) (h4 : 4 ≤ g.length) (count : ℕ) (hc1 : 1 ≤ count) (hc : count < g.length) (h : grow g count = some g') (a : K)
    (pos : ℕ) (hpos : pos + c.left + 2 < g.length) : atoms c g a pos < atoms c g' a pos := by
  rw [grown_atoms c g g' hg h4 count hc1 hc h a pos hpos]
  have := cell_pos c hd g hg 0 count (by omega) hc
  linarith

/-- The line that has left itself keeps its atoms exactly if the cells it paid for, those between the second point and its surface, are as thick as those the solver adds, the first ones of the grid. -/
theorem left_itself (c : Par K) (hd : 0 < c.density * c.area) (g g' : List K) (hg : g.Pairwise (· < ·)) (h4 : 4 ≤ g.length) (count pos : ℕ) (hc1 : 1 ≤ count) (hc : count + 1 = pos + c.left) (h : grow g count = some g') (a : K)
    (hpos : pos + c.left + 2 < g.length) :
    atoms c g' (a - c.density * (g.getD (pos + c.left) 0 - g.getD 1 0) * c.area) pos = atoms c g a pos ↔ g.getD (count + 1) 0 - g.getD 1 0 = g.getD count 0 - g.getD 0 0 := by
  rw [grown_atoms c g g' hg h4 count hc1 (by omega) h _ pos hpos, ← hc]
  unfold atoms
  constructor
  · intro he
    have : c.density * c.area * (g.getD (count + 1) 0 - g.getD 1 0) = c.density * c.area * (g.getD count 0 - g.getD 0 0) := by linarith
    exact mul_left_cancel₀ hd.ne' this
  · intro he
    rw [he]; ring

/-- When the surfaces of all lines have receded, the solver is given the number of points with the sign for growth: all lines get the atoms of that many cells. -/
theorem receded (c : Par K) (hd : 0 < c.density * c.area) (g g' : List K) (hg : g.Pairwise (· < ·)) (h4 : 4 ≤ g.length) (hleft : c.left ≤ 1) (hbits : g.length < 2 ^ c.bits) (fuel : ℕ) (hf : g.length < fuel) (ls r : List (K × ℕ))
    (hls : ∀ l ∈ ls, 1 ≤ l.2 + c.left ∧ l.2 + c.left < g.length) (m : ℕ) (hs : sweep c g fuel ls = .done (r, none)) (hp : post c g fuel ls = .done (r, some m))
    (hr : ∀ l ∈ r, l.2 + c.left + 2 < g.length) (h : Move.move g (m : ℤ) = some g') :
    (∀ l ∈ r, m ≤ l.2) ∧ 1 ≤ m ∧ r.map (fun l => atoms c g' l.1 l.2) = ls.map (fun l => atoms c g l.1 l.2 + c.density * (g.getD m 0 - g.getD 0 0) * c.area) ∧
      0 < c.density * (g.getD m 0 - g.getD 0 0) * c.area := by
  unfold post at hp
  rw [hs] at hp
  dsimp only at hp
  cases hm : minSurf (r.map Prod.snd) with
  | none => rw [hm] at hp; cases hp
  | some q =>
    rw [hm] at hp
    simp only [Loop.done.injEq, Prod.mk.injEq, true_and] at hp
    split_ifs at hp with hq
    injection hp with hp
    subst hp
    obtain ⟨hmem, hall⟩ := (minSurf_spec _ _).mp hm
    obtain ⟨l0, hl0, he0⟩ := List.mem_map.mp hmem
    have hql : q < g.length := by have := hr l0 hl0; omega
    have hgrow : grow g q = some g' := by
      unfold Move.move at h
      rw [if_pos (by exact_mod_cast hq)] at h
      simpa using h
    refine ⟨fun l hl => hall _ (List.mem_map_of_mem hl), hq, ?_, cell_pos c hd g hg 0 q hq hql⟩
    have hat := (sweep_atoms c hd g hg hleft hbits fuel hf ls r hls hs).1
    have h1 : r.map (fun l => atoms c g' l.1 l.2) = (r.map (fun l => atoms c g l.1 l.2)).map (· + c.density * (g.getD q 0 - g.getD 0 0) * c.area) := by
      rw [List.map_map]
      apply List.map_congr_left
      intro l hl
      exact grown_atoms c g g' hg h4 q hq hql hgrow l.1 l.2 (hr l hl)
    rw [h1, hat, List.map_map]; rfl

example : post exPar exGrid 10 [(-3 / 2, 0), (-1 / 2, 0)] = .done ([(1 / 2, 2), (1 / 2, 1)], some 1) := by decide +kernel

/-- Positions are not reset: as long as no line moves, every surface event asks for the same points again. -/
theorem receded_again (c : Par K) (g : List K) (fuel : ℕ) (ls : List (K × ℕ)) (m : ℕ) (hs : sweep c g fuel ls = .done (ls, none)) (hm : minSurf (ls.map Prod.snd) = some m) (h1 : 1 ≤ m) :
    post c g fuel ls = .done (ls, some m) := by
  unfold post
  rw [hs]; dsimp only
  rw [hm]; dsimp only
  rw [if_pos (show m > 0 from h1)]

example : post exPar exGrid 10 [(1 / 2, 2), (1 / 2, 1)] = .done ([(1 / 2, 2), (1 / 2, 1)], some 1) := by decide +kernel

/-! ### Reporting and moving -/

theorem reports_eq (c : Par K) (g : List K) (n : K) (pos : ℕ) (h1 : 1 ≤ pos + c.left) (hlen : pos + c.left + 1 < g.length) (hbits : g.length ≤ 2 ^ c.bits) :
    reports c g n pos = some (decide (c.density * (g.getD (pos + c.left) 0 - g.getD (pos + c.left - 1) 0) * c.area < n) ||
      decide (n < -(c.density * (g.getD (pos + c.left + 1) 0 - g.getD (pos + c.left) 0) * c.area) * (9 / 10))) := by
  unfold reports
  rw [first_eq c pos (by omega), dec_pos c.bits _ (by omega) (by omega), cell_eq c g _ _ (by omega) (by omega), cell_eq c g _ _ hlen (by omega)]
  rfl

/-- A line that reports an event moves, if the cell above the surface is at most nine times as thick as the one below. -/
theorem reported_moves_partial (c : Par K) (hd : 0 < c.density * c.area) (g : List K) (hg : g.Pairwise (· < ·)) (hleft : c.left ≤ 1) (fuel : ℕ) (n : K) (pos : ℕ) (h1 : 1 ≤ pos + c.left)
    (hlen : pos + c.left + 1 < g.length) (hbits : g.length < 2 ^ c.bits) (hf : g.length < fuel)
    (hthick : g.getD (pos + c.left) 0 - g.getD (pos + c.left - 1) 0 ≤ 9 * (g.getD (pos + c.left + 1) 0 - g.getD (pos + c.left) 0)) (h : reports c g n pos = some true) (n' : K) :
    line c g fuel n pos ≠ .done (.stays n' pos) := by
  intro hl
  rw [reports_eq c g n pos h1 hlen hbits.le] at h
  simp only [Option.some.injEq, Bool.or_eq_true, decide_eq_true_eq] at h
  have hu : c.density * (g.getD (pos + c.left) 0 - g.getD (pos + c.left - 1) 0) * c.area ≤ 9 * (c.density * (g.getD (pos + c.left + 1) 0 - g.getD (pos + c.left) 0) * c.area) := by
    have := mul_le_mul_of_nonneg_left hthick hd.le
    linarith
  rcases line_stays c hd g hg hleft fuel n n' pos pos h1 (by omega) hbits hf hl with h2 | h2 | h2
  · exact absurd h2.1 (lt_irrefl _)
  · rcases h with h | h <;> linarith [h2.2.2.1, h2.2.2.2]
  · exact absurd h2.1 (lt_irrefl _)

/-- Otherwise the event can happen and nothing move; the next event finds the same. -/
theorem reported_stays : ∃ (g : List ℚ) (n : ℚ), g.Pairwise (· < ·) ∧ reports ⟨1, 1, 0, 0, 1, 32⟩ g n 0 = some true ∧ line ⟨1, 1, 0, 0, 1, 32⟩ g 10 n 0 = .done (.stays n 0) :=
  ⟨[0, 10, 11, 12, 13], -95 / 100, by decide +kernel, by decide +kernel, by decide +kernel⟩

/-- A line is also moved back without its own report, if another line reports. -/
theorem moved_unreported : ∃ (g : List ℚ) (n : ℚ), g.Pairwise (· < ·) ∧ reports ⟨1, 1, 0, 0, 1, 32⟩ g n 0 = some false ∧ line ⟨1, 1, 0, 0, 1, 32⟩ g 10 n 0 = .done (.stays (8 / 10) 1) :=
  ⟨[0, 1, 2, 3, 4], -2 / 10, by decide +kernel, by decide +kernel, by decide +kernel⟩

/-! ### The account -/

/-- In two dimensions the account of a line is its area times that of one dimension. -/
theorem account2 (c : Par K) (f dt n : K) : arrive c true (c.area * f) dt (c.area * n) = c.area * (n + f * dt - c.yield * c.amp * dt) := by unfold arrive; simp; ring

/-- In three dimensions it is not, unless the area is 1 or nothing is sputtered. -/
theorem account3 (c : Par K) (f dt n : K) : arrive c false (c.area * f) dt (c.area * n) = c.area * (n + f * dt - c.yield * c.amp * dt) ↔ c.area = 1 ∨ c.yield * c.amp * dt = 0 := by
  unfold arrive
  simp only [Bool.false_eq_true, if_false, mul_one]
  constructor
  · intro h
    by_contra hne
    push Not at hne
    apply hne.1
    have : (c.area - 1) * (c.yield * c.amp * dt) = 0 := by linarith
    rcases mul_eq_zero.mp this with h | h
    · linarith
    · exact absurd h hne.2
  · rintro (h | h)
    · rw [h]; ring
    · rw [h]
      have : c.area * (n + f * dt - 0) = c.area * n + c.area * f * dt - 0 := by ring
      rw [this]

/-! ### Side faces -/

/-- Of a higher neighbour exactly one point is looked at, the one at the height of the surface. -/
theorem sides_one (bits xi : ℕ) (h1 : 1 ≤ xi) (h : xi < 2 ^ bits) (fuel : ℕ) : sides bits xi (fuel + 2) xi = .done [xi] := by
  have : sides bits xi (fuel + 1) (xi - 1) = .done [] := by unfold sides; rw [if_neg (by omega)]
  unfold sides
  rw [if_pos le_rfl, show (xi + (2 ^ bits - 1)) % 2 ^ bits = xi - 1 from dec_pos bits xi h1 h, this]

/-- These are all points of the neighbour that lie open, those below its surface down to the one of the line, exactly if the surfaces differ by one point. -/
theorem sides_all (bits left pos : ℕ) (hl : left < pos) (h : pos < 2 ^ bits) (fuel : ℕ) :
    (∃ l, sides bits pos (fuel + 2) pos = .done l ∧ ∀ p, p ∈ l ↔ left < p ∧ p ≤ pos) ↔ pos = left + 1 := by
  rw [sides_one bits pos (by omega) h fuel]
  constructor
  · rintro ⟨l, hl', hp⟩
    injection hl' with hl'
    subst hl'
    have := (hp (left + 1)).mpr ⟨by omega, by omega⟩
    simp at this; omega
  · rintro rfl
    exact ⟨_, rfl, fun p => by simp; omega⟩

example : sides 32 4 9 4 = .done [4] := by decide +kernel

/-! ### The points overwritten -/

/-- Moving up by `count` points gives the initial concentrations to exactly the points that have become material, and zeros to the new surface. -/
theorem filled_exact (pos : ℕ) : ∀ count i b, (i, b) ∈ filled pos count ↔ (b = true ∧ pos < i ∧ i ≤ pos + count) ∨ (b = false ∧ i = pos) := by
  intro count
  induction count with
  | zero => intro i b; simp [filled]; cases b <;> simp
  | succ k ih =>
    intro i b
    rw [filled, List.mem_cons, ih]
    simp only [Prod.mk.injEq]
    cases b <;> simp
    omega

/-- Moving back sets exactly the points to zero that are no longer material. -/
theorem emptied_exact (left pos pos' i : ℕ) (h : pos ≤ pos') : i ∈ emptied left pos pos' ↔ pos + left ≤ i ∧ i < pos' + left := by
  unfold emptied
  simp only [List.mem_map, List.mem_range'_1]
  constructor
  · rintro ⟨a, ha, rfl⟩; omega
  · rintro ⟨h1, h2⟩; exact ⟨i - left, by omega, by omega⟩

/-- The new points get the temperature of the old surface if it moved by the left offset; if it moved further, that of a point above the old surface. -/
theorem warm_spec (c : Par K) (pos k : ℕ) (hk : k ≤ pos) (h : pos + c.left < 2 ^ c.bits) : (warm c (pos - k) = pos ↔ k = c.left) ∧ (c.left < k → warm c (pos - k) < pos) := by
  unfold warm
  rw [first_eq c _ (by omega)]
  constructor
  · constructor <;> intro <;> omega
  · intro; omega

example : filled 2 2 = [(4, true), (3, true), (2, false)] ∧ emptied 1 2 4 = [3, 4] ∧ warm exPar 1 = 2 := by decide +kernel

end Xolotl.Solver.Surface
