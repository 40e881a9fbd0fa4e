import Verif.Solver.Columns
import Verif.Solver.RetentionProps
import Verif.Transport.AdvectionProps
import Mathlib.Tactic.LinearCombination
import Mathlib.Algebra.BigOperators.Field
import Mathlib.Algebra.Order.BigOperators.Ring.Finset
import Mathlib.Tactic.FieldSimp
import Mathlib.Tactic.Ring
import Mathlib.Tactic.NormNum
import Mathlib.Tactic.Linarith
import Mathlib.Tactic.Positivity

/-!
# Retention in two and three dimensions: theorems
-/

set_option linter.unusedSectionVars false

namespace Xolotl.Solver.Columns

open Retention Finset

variable {K : Type*} [Field K] [LinearOrder K] [IsStrictOrderedRing K]

/-! ### Sums around a circle -/

theorem sum_succ_mod (n : ℕ) (f : ℕ → K) : ∑ i ∈ range n, f ((i + 1) % n) = ∑ i ∈ range n, f i := by
  cases n with
  | zero => rfl
  | succ m =>
    rw [sum_range_succ, sum_range_succ' f, Nat.mod_self]
    congr 1
    exact sum_congr rfl fun i hi => by rw [Nat.mod_eq_of_lt (by have := mem_range.mp hi; omega)]

theorem pred_succ (n i : ℕ) (hi : i < n) : ((i + 1) % n + n - 1) % n = i := by
  by_cases h : i + 1 = n
  · rw [h, Nat.mod_self, zero_add, Nat.mod_eq_of_lt (by omega)]; omega
  · rw [Nat.mod_eq_of_lt (show i + 1 < n by omega), show i + 1 + n - 1 = i + n by omega, Nat.add_mod_right, Nat.mod_eq_of_lt hi]

theorem succ_pred (n i : ℕ) (hi : i < n) : ((i + n - 1) % n + 1) % n = i := by
  by_cases h : i = 0
  · subst h; rw [zero_add, Nat.mod_eq_of_lt (show n - 1 < n by omega), Nat.sub_add_cancel (by omega), Nat.mod_self]
  · rw [show i + n - 1 = (i - 1) + n by omega, Nat.add_mod_right, Nat.mod_eq_of_lt (show i - 1 < n by omega), Nat.sub_add_cancel (by omega), Nat.mod_eq_of_lt hi]

/-- Summation by parts: what the second difference takes from the points of a set is what is next to points outside. -/
theorem circle (n : ℕ) (d c : ℕ → K) (h : ∀ i < n, c i = d i * c i) :
    ∑ i ∈ range n, d i * (c ((i + n - 1) % n) + c ((i + 1) % n) - 2 * c i) = -∑ i ∈ range n, c i * (2 - d ((i + n - 1) % n) - d ((i + 1) % n)) := by
  have e1 : ∑ i ∈ range n, d i * c ((i + 1) % n) = ∑ i ∈ range n, c i * d ((i + n - 1) % n) := by
    rw [← sum_succ_mod n fun i => c i * d ((i + n - 1) % n)]
    exact sum_congr rfl fun i hi => by rw [pred_succ n i (mem_range.mp hi)]; ring
  have e2 : ∑ i ∈ range n, d i * c ((i + n - 1) % n) = ∑ i ∈ range n, c i * d ((i + 1) % n) := by
    rw [← sum_succ_mod n fun i => d i * c ((i + n - 1) % n)]
    exact sum_congr rfl fun i hi => by rw [pred_succ n i (mem_range.mp hi)]; ring
  have e3 : ∑ i ∈ range n, d i * c i = ∑ i ∈ range n, c i := sum_congr rfl fun i hi => (h i (mem_range.mp hi)).symm
  simp only [mul_sub, mul_add, sum_sub_distrib, sum_add_distrib]
  rw [e1, e2]
  have e4 : ∑ i ∈ range n, d i * (2 * c i) = 2 * ∑ i ∈ range n, c i := by rw [← e3, mul_sum]; exact sum_congr rfl fun i _ => by ring
  have e5 : ∑ i ∈ range n, c i * 2 = 2 * ∑ i ∈ range n, c i := by rw [mul_sum]; exact sum_congr rfl fun i _ => by ring
  rw [e4, e5]; ring

/-! ### What leaves the points inside -/

/-- The number of two neighbours that are not inside. -/
def missing (a b : Bool) : ℕ := (!a).toNat + (!b).toNat

theorem missing_cast (a b : Bool) : (missing a b : K) = 2 - (a.toNat : K) - (b.toNat : K) := by
  cases a <;> cases b <;> norm_num [missing]

def missX (g : Mesh K) (gb : List (ℕ × ℕ × ℕ)) (k j xi : ℕ) : ℕ := missing (inside g gb k j ((xi + g.nX - 1) % g.nX)) (inside g gb k j ((xi + 1) % g.nX))
def missY (g : Mesh K) (gb : List (ℕ × ℕ × ℕ)) (k j xi : ℕ) : ℕ := missing (inside g gb k ((j + g.nY - 1) % g.nY) xi) (inside g gb k ((j + 1) % g.nY) xi)
def missZ (g : Mesh K) (gb : List (ℕ × ℕ × ℕ)) (k j xi : ℕ) : ℕ := missing (inside g gb ((k + g.nZ - 1) % g.nZ) j xi) (inside g gb ((k + 1) % g.nZ) j xi)

/-- A run on a uniform grid with empty first and last points. -/
structure Uniform (g : Mesh K) (x0 h : K) : Prop where
  size : 3 ≤ g.nX
  grid : ∀ i, g.grid i = x0 + h * i
  hx : 0 < h
  hy : 0 < g.hy
  hz : 0 < g.hz
  left : g.leftOffset = 1
  right : g.rightOffset = 1

/-- A cluster of one species with the same coefficient everywhere, and none of it where the right-hand side is not computed. -/
structure Even (g : Mesh K) (gb : List (ℕ × ℕ × ℕ)) (m : Mover3 K) (D : K) : Prop where
  axis : ∃ q, axisOf m.comp = some q
  coef : ∀ i, m.coef i = D
  zero : ∀ k j xi, inside g gb k j xi = false → m.conc k j xi = 0

theorem inside_bounds (g : Mesh K) (gb : List (ℕ × ℕ × ℕ)) (hl : g.leftOffset = 1) (hr : g.rightOffset = 1) (k j xi : ℕ) (h : inside g gb k j xi = true) : g.surf k j + 1 ≤ xi ∧ xi + 2 ≤ g.nX := by
  simp only [inside, hl, hr, Bool.and_eq_true, Bool.not_eq_true', decide_eq_false_iff_not, not_or, not_lt] at h
  obtain ⟨⟨h1, h2, -⟩, -⟩ := h
  push_cast at h2
  omega

theorem hxL {g : Mesh K} {x0 h : K} (hg : Uniform g x0 h) (xi : ℕ) (hi : 1 ≤ xi) : Transport.hxLeft g.grid xi = h := by
  unfold Transport.hxLeft
  rw [if_neg (by omega), hg.grid, hg.grid]
  obtain ⟨m, rfl⟩ : ∃ m, xi = m + 1 := ⟨xi - 1, by omega⟩
  push_cast [Nat.add_sub_cancel]; ring

theorem hxR {g : Mesh K} {x0 h : K} (hg : Uniform g x0 h) (xi : ℕ) (hi : xi < g.nX) : Transport.hxRight g.nX g.grid xi = h := by
  unfold Transport.hxRight
  split
  · rw [hg.grid, hg.grid]; push_cast; ring
  · rw [if_pos (by omega), hg.grid, hg.grid]; push_cast; ring

/-- The rate at a point inside is the sum of three second differences. -/
theorem rate3_eq {g : Mesh K} {x0 h : K} (hg : Uniform g x0 h) (gb : List (ℕ × ℕ × ℕ)) {m : Mover3 K} {D : K} (hm : Even g gb m D) (k j xi : ℕ) (hx : xi < g.nX) :
    rate3 g gb m k j xi = ((inside g gb k j xi).toNat : K) * (D / (h * h) * (m.conc k j ((xi + g.nX - 1) % g.nX) + m.conc k j ((xi + 1) % g.nX) - 2 * m.conc k j xi)
      + D / (g.hy * g.hy) * (m.conc k ((j + g.nY - 1) % g.nY) xi + m.conc k ((j + 1) % g.nY) xi - 2 * m.conc k j xi)
      + D / (g.hz * g.hz) * (m.conc ((k + g.nZ - 1) % g.nZ) j xi + m.conc ((k + 1) % g.nZ) j xi - 2 * m.conc k j xi)) := by
  unfold rate3
  cases hin : inside g gb k j xi with
  | false => simp
  | true =>
    obtain ⟨b1, b2⟩ := inside_bounds g gb hg.left hg.right k j xi hin
    have hh := hg.hx.ne'
    have hy := hg.hy.ne'
    have hz := hg.hz.ne'
    rw [if_pos rfl, hxL hg xi (by omega), hxR hg xi hx, show xi + g.nX - 1 = (xi - 1) + g.nX by omega, Nat.add_mod_right, Nat.mod_eq_of_lt (show xi - 1 < g.nX by omega),
      Nat.mod_eq_of_lt (show xi + 1 < g.nX by omega)]
    simp only [Transport.conc3, hm.coef, Bool.toNat_true, Nat.cast_one, one_mul, sub_self, zero_mul, zero_div, add_zero, mul_one]
    rw [div_self hh]
    field_simp
    ring

theorem sum_move (f : ℕ → ℕ → ℕ → K) (a b c : ℕ) : ∑ k ∈ range a, ∑ j ∈ range b, ∑ xi ∈ range c, f k j xi = ∑ k ∈ range a, ∑ xi ∈ range c, ∑ j ∈ range b, f k j xi :=
  sum_congr rfl fun _ _ => sum_comm

theorem sum_move' (f : ℕ → ℕ → ℕ → K) (a b c : ℕ) : ∑ k ∈ range a, ∑ j ∈ range b, ∑ xi ∈ range c, f k j xi = ∑ j ∈ range b, ∑ xi ∈ range c, ∑ k ∈ range a, f k j xi := by
  rw [sum_comm]; exact sum_congr rfl fun _ _ => sum_comm

/-- Whatever the positions of the surface, the free sides and the points of grain boundaries: diffusion takes from the points inside exactly what stands next to points that are not. -/
theorem loss {g : Mesh K} {x0 h : K} (hg : Uniform g x0 h) (gb : List (ℕ × ℕ × ℕ)) {m : Mover3 K} {D : K} (hm : Even g gb m D) :
    overColumns g (fun k j => ∑ xi ∈ range g.nX, rate3 g gb m k j xi)
      = -overColumns g fun k j => ∑ xi ∈ range g.nX, D * m.conc k j xi * (missX g gb k j xi / (h * h) + missY g gb k j xi / (g.hy * g.hy) + missZ g gb k j xi / (g.hz * g.hz)) := by
  have z : ∀ k j xi, m.conc k j xi = ((inside g gb k j xi).toNat : K) * m.conc k j xi := by
    intro k j xi
    cases hin : inside g gb k j xi with
    | false => rw [hm.zero k j xi hin]; simp
    | true => simp
  unfold overColumns
  have ex : ∑ k ∈ range g.nZ, ∑ j ∈ range g.nY, ∑ xi ∈ range g.nX, ((inside g gb k j xi).toNat : K) * (m.conc k j ((xi + g.nX - 1) % g.nX) + m.conc k j ((xi + 1) % g.nX) - 2 * m.conc k j xi)
      = -∑ k ∈ range g.nZ, ∑ j ∈ range g.nY, ∑ xi ∈ range g.nX, m.conc k j xi * missX g gb k j xi := by
    rw [← sum_neg_distrib]; refine sum_congr rfl fun k _ => ?_
    rw [← sum_neg_distrib]; refine sum_congr rfl fun j _ => ?_
    rw [circle g.nX (fun xi => ((inside g gb k j xi).toNat : K)) (fun xi => m.conc k j xi) fun xi _ => z k j xi]
    simp only [missX, missing_cast]
  have ey : ∑ k ∈ range g.nZ, ∑ j ∈ range g.nY, ∑ xi ∈ range g.nX, ((inside g gb k j xi).toNat : K) * (m.conc k ((j + g.nY - 1) % g.nY) xi + m.conc k ((j + 1) % g.nY) xi - 2 * m.conc k j xi)
      = -∑ k ∈ range g.nZ, ∑ j ∈ range g.nY, ∑ xi ∈ range g.nX, m.conc k j xi * missY g gb k j xi := by
    refine (sum_move _ _ _ _).trans ?_
    rw [sum_move fun k j xi => m.conc k j xi * (missY g gb k j xi : K)]
    rw [← sum_neg_distrib]; refine sum_congr rfl fun k _ => ?_
    rw [← sum_neg_distrib]; refine sum_congr rfl fun xi _ => ?_
    rw [circle g.nY (fun j => ((inside g gb k j xi).toNat : K)) (fun j => m.conc k j xi) fun j _ => z k j xi]
    simp only [missY, missing_cast]
  have ez : ∑ k ∈ range g.nZ, ∑ j ∈ range g.nY, ∑ xi ∈ range g.nX, ((inside g gb k j xi).toNat : K) * (m.conc ((k + g.nZ - 1) % g.nZ) j xi + m.conc ((k + 1) % g.nZ) j xi - 2 * m.conc k j xi)
      = -∑ k ∈ range g.nZ, ∑ j ∈ range g.nY, ∑ xi ∈ range g.nX, m.conc k j xi * missZ g gb k j xi := by
    refine (sum_move' _ _ _ _).trans ?_
    rw [sum_move' fun k j xi => m.conc k j xi * (missZ g gb k j xi : K)]
    rw [← sum_neg_distrib]; refine sum_congr rfl fun j _ => ?_
    rw [← sum_neg_distrib]; refine sum_congr rfl fun xi _ => ?_
    rw [circle g.nZ (fun k => ((inside g gb k j xi).toNat : K)) (fun k => m.conc k j xi) fun k _ => z k j xi]
    simp only [missZ, missing_cast]
  have key : ∀ (a b c : K) (X Y Z : ℕ → ℕ → ℕ → K), ∑ k ∈ range g.nZ, ∑ j ∈ range g.nY, ∑ xi ∈ range g.nX, (a * X k j xi + b * Y k j xi + c * Z k j xi)
      = a * (∑ k ∈ range g.nZ, ∑ j ∈ range g.nY, ∑ xi ∈ range g.nX, X k j xi) + b * (∑ k ∈ range g.nZ, ∑ j ∈ range g.nY, ∑ xi ∈ range g.nX, Y k j xi)
        + c * ∑ k ∈ range g.nZ, ∑ j ∈ range g.nY, ∑ xi ∈ range g.nX, Z k j xi := by
    intro a b c X Y Z
    simp only [sum_add_distrib, mul_sum]
  have lhs : ∑ k ∈ range g.nZ, ∑ j ∈ range g.nY, ∑ xi ∈ range g.nX, rate3 g gb m k j xi
      = ∑ k ∈ range g.nZ, ∑ j ∈ range g.nY, ∑ xi ∈ range g.nX,
        (D / (h * h) * (((inside g gb k j xi).toNat : K) * (m.conc k j ((xi + g.nX - 1) % g.nX) + m.conc k j ((xi + 1) % g.nX) - 2 * m.conc k j xi))
        + D / (g.hy * g.hy) * (((inside g gb k j xi).toNat : K) * (m.conc k ((j + g.nY - 1) % g.nY) xi + m.conc k ((j + 1) % g.nY) xi - 2 * m.conc k j xi))
        + D / (g.hz * g.hz) * (((inside g gb k j xi).toNat : K) * (m.conc ((k + g.nZ - 1) % g.nZ) j xi + m.conc ((k + 1) % g.nZ) j xi - 2 * m.conc k j xi))) := by
    refine sum_congr rfl fun k _ => sum_congr rfl fun j _ => sum_congr rfl fun xi hxi => ?_
    rw [rate3_eq hg gb hm k j xi (mem_range.mp hxi)]; ring
  rw [lhs, key, ex, ey, ez]
  have rhs : ∑ k ∈ range g.nZ, ∑ j ∈ range g.nY, ∑ xi ∈ range g.nX, D * m.conc k j xi * ((missX g gb k j xi : K) / (h * h) + missY g gb k j xi / (g.hy * g.hy) + missZ g gb k j xi / (g.hz * g.hz))
      = ∑ k ∈ range g.nZ, ∑ j ∈ range g.nY, ∑ xi ∈ range g.nX,
        (D / (h * h) * (m.conc k j xi * missX g gb k j xi) + D / (g.hy * g.hy) * (m.conc k j xi * missY g gb k j xi) + D / (g.hz * g.hz) * (m.conc k j xi * missZ g gb k j xi)) := by
    refine sum_congr rfl fun k _ => sum_congr rfl fun j _ => sum_congr rfl fun xi _ => ?_
    ring
  rw [rhs, key]; ring

/-! ### The account -/

theorem two_ifs (P Q : Prop) [Decidable P] [Decidable Q] (c : K) : c * (2 - ((decide ¬P).toNat : K) - ((decide ¬Q).toNat : K)) = (if P then c else 0) + (if Q then c else 0) := by
  by_cases p : P <;> by_cases q : Q
  · rw [if_pos p, if_pos q]; simp [p, q]; ring
  · rw [if_pos p, if_neg q]; simp [p, q]; norm_num
  · rw [if_neg p, if_pos q]; simp [p, q]; norm_num
  · rw [if_neg p, if_neg q]; simp [p, q]; norm_num

/-- Without points of grain boundaries, a column is only left through its first and its last point. -/
theorem column_ends {g : Mesh K} {x0 h : K} (hg : Uniform g x0 h) {m : Mover3 K} {D : K} (hm : Even g [] m D) (k j : ℕ) :
    ∑ xi ∈ range g.nX, m.conc k j xi * missX g [] k j xi = m.conc k j (g.surf k j + 1) + m.conc k j (g.nX - 2) := by
  have hs := hg.size
  by_cases hcol : g.surf k j + 3 ≤ g.nX ∧ ¬(j < g.bottomOffset ∨ (g.nY : ℤ) - 1 - g.topOffset < j ∨ k < g.frontOffset ∨ (g.nZ : ℤ) - 1 - g.backOffset < k)
  · obtain ⟨hsurf, hside⟩ := hcol
    have hin : ∀ xi, inside g [] k j xi = decide (g.surf k j + 1 ≤ xi ∧ xi + 2 ≤ g.nX) := by
      intro xi
      simp only [inside, hg.left, hg.right, List.any_nil, Bool.not_false, Bool.and_true]
      by_cases c : g.surf k j + 1 ≤ xi ∧ xi + 2 ≤ g.nX
      · rw [decide_eq_true c, Bool.not_eq_true', decide_eq_false_iff_not]
        push_cast
        rintro (d | d | d)
        · omega
        · omega
        · exact hside d
      · rw [decide_eq_false c, Bool.not_eq_false', decide_eq_true_eq]
        push_cast
        omega
    have e : ∀ xi ∈ range g.nX, m.conc k j xi * (missX g [] k j xi : K) = (if xi = g.surf k j + 1 then m.conc k j xi else 0) + (if xi = g.nX - 2 then m.conc k j xi else 0) := by
      intro xi hxi
      have hx := mem_range.mp hxi
      by_cases c : g.surf k j + 1 ≤ xi ∧ xi + 2 ≤ g.nX
      · have e1 : (inside g [] k j ((xi + g.nX - 1) % g.nX)) = decide (xi ≠ g.surf k j + 1) := by
          rw [show xi + g.nX - 1 = (xi - 1) + g.nX by omega, Nat.add_mod_right, Nat.mod_eq_of_lt (show xi - 1 < g.nX by omega), hin]
          exact decide_eq_decide.mpr (by omega)
        have e2 : (inside g [] k j ((xi + 1) % g.nX)) = decide (xi ≠ g.nX - 2) := by
          rw [Nat.mod_eq_of_lt (show xi + 1 < g.nX by omega), hin]
          exact decide_eq_decide.mpr (by omega)
        rw [missX, missing_cast, e1, e2]
        exact two_ifs _ _ _
      · rw [hm.zero k j xi (by rw [hin]; exact decide_eq_false c)]
        simp
    rw [sum_congr rfl e, sum_add_distrib, sum_ite_eq' , sum_ite_eq', if_pos (mem_range.mpr (by omega)), if_pos (mem_range.mpr (by omega))]
  · have out : ∀ xi, inside g [] k j xi = false := by
      intro xi
      simp only [inside, hg.left, hg.right, List.any_nil, Bool.not_false, Bool.and_true, Bool.not_eq_false', decide_eq_true_eq]
      push_cast
      by_contra hc
      apply hcol
      push Not at hc ⊢
      omega
    have : ∀ xi, m.conc k j xi = 0 := fun xi => hm.zero k j xi (out xi)
    simp [this]

theorem faceFlux_eq {g : Mesh K} {x0 h : K} (hg : Uniform g x0 h) (area : K) (gb : List (ℕ × ℕ × ℕ)) (ms : List (Mover3 K)) (D : Mover3 K → K) (hm : ∀ m ∈ ms, Even g gb m (D m)) (k j xi : ℕ) (h1 : 1 ≤ xi) (h2 : xi < g.nX) (s : ℕ) :
    faceFlux g area ms k j xi s = (ms.map fun m => (m.comp.getD s 0 : K) * (area / h) * D m * m.conc k j xi).sum := by
  unfold faceFlux
  rw [outgoing_eq, zero_add, hxL hg xi h1, hxR hg xi h2, List.map_map]
  congr 1
  refine List.map_congr_left fun m hmem => ?_
  have hm := hm m hmem
  have hh := hg.hx.ne'
  simp only [Function.comp, Mover3.column, hm.coef]
  obtain ⟨q, hq⟩ := hm.axis
  by_cases c : q = s
  · subst c
    rw [if_pos hq, show 2 * area / (h + h) = area / h by field_simp; ring]
  · rw [if_neg (by rw [hq]; simpa using c), (axisOf_pure m.comp q hq).2 s (Ne.symm c)]
    simp

/-- What leaves through sides that no account is kept of: through the walls of steps of the surface and through free sides. -/
def walls (g : Mesh K) (ms : List (Mover3 K)) (D : Mover3 K → K) (h : K) (s : ℕ) : K :=
  overColumns g fun k j => ∑ xi ∈ range g.nX, (ms.map fun m => (m.comp.getD s 0 : K) * (D m * m.conc k j xi * (missY g [] k j xi / (g.hy * g.hy) + missZ g [] k j xi / (g.hz * g.hz)))).sum * (h * (g.hy * g.hz))

theorem over_sum (g : Mesh K) (ms : List (Mover3 K)) (f : Mover3 K → ℕ → ℕ → K) : overColumns g (fun k j => (ms.map fun m => f m k j).sum) = (ms.map fun m => overColumns g (f m)).sum := by
  unfold overColumns
  induction ms with
  | nil => simp
  | cons m l ih => simp only [List.map_cons, List.sum_cons, sum_add_distrib, ih]

theorem range_sum (n : ℕ) (ms : List (Mover3 K)) (f : Mover3 K → ℕ → K) : ∑ i ∈ range n, (ms.map fun m => f m i).sum = (ms.map fun m => ∑ i ∈ range n, f m i).sum := by
  induction ms with
  | nil => simp
  | cons m l ih => simp only [List.map_cons, List.sum_cons, sum_add_distrib, ih]

theorem over_mul (g : Mesh K) (a : K) (f : ℕ → ℕ → K) : overColumns g (fun k j => a * f k j) = a * overColumns g f := by
  unfold overColumns; simp only [mul_sum]

theorem over_add (g : Mesh K) (f f' : ℕ → ℕ → K) : overColumns g (fun k j => f k j + f' k j) = overColumns g f + overColumns g f' := by
  unfold overColumns; simp only [sum_add_distrib]

theorem over_congr (g : Mesh K) (f f' : ℕ → ℕ → K) (h : ∀ k j, f k j = f' k j) : overColumns g f = overColumns g f' := by
  unfold overColumns; exact sum_congr rfl fun k _ => sum_congr rfl fun j _ => h k j

theorem columnContent_rate {g : Mesh K} {x0 h : K} (hg : Uniform g x0 h) (area : K) (gb : List (ℕ × ℕ × ℕ)) (ms : List (Mover3 K)) (s k j : ℕ) :
    columnContent g area ms (rate3 g gb) s k j = ∑ xi ∈ range g.nX, (ms.map fun m => (m.comp.getD s 0 : K) * rate3 g gb m k j xi).sum * (h * area) := by
  unfold columnContent
  refine sum_congr rfl fun xi _ => ?_
  have e : g.grid (xi + 1) - g.grid xi = h := by rw [hg.grid, hg.grid]; push_cast; ring
  rw [e, mul_assoc]
  cases hin : inside g gb k j xi with
  | true =>
    obtain ⟨b1, b2⟩ := inside_bounds g gb hg.left hg.right k j xi hin
    rw [if_pos]
    simp only [counted, hg.left, hg.right, Bool.not_eq_true', decide_eq_false_iff_not]
    push_cast; omega
  | false =>
    have : ∀ m : Mover3 K, rate3 g gb m k j xi = 0 := fun m => by unfold rate3; rw [hin]; rfl
    simp [this]

/-- Three dimensions, any positions of the surface and any free sides: the content changes by what the fluxes through the surface and through the bottom say, and by what goes through the walls. -/
theorem balance {g : Mesh K} {x0 h : K} (hg : Uniform g x0 h) (ms : List (Mover3 K)) (D : Mover3 K → K) (hm : ∀ m ∈ ms, Even g [] m (D m)) (s : ℕ) :
    content3 g ms (rate3 g []) s
      = -((overColumns g (fun k j => frontFlux g (g.hy * g.hz) ms k j s) + overColumns g (fun k j => bottomFlux g (g.hy * g.hz) ms k j s)) / area3 g) - walls g ms D h s / area3 g := by
  have hs := hg.size
  have hh := hg.hx.ne'
  have hf : ∀ k j, frontFlux g (g.hy * g.hz) ms k j s = (ms.map fun m => (m.comp.getD s 0 : K) * (g.hy * g.hz / h) * D m * m.conc k j (g.surf k j + 1)).sum := by
    intro k j
    by_cases c : g.surf k j + 1 < g.nX
    · exact faceFlux_eq hg _ [] ms D hm k j _ (by omega) c s
    · have zero : ∀ m ∈ ms, m.conc k j (g.surf k j + 1) = 0 := fun m hmem => (hm m hmem).zero k j _ (by
        cases hin : inside g [] k j (g.surf k j + 1) with
        | false => rfl
        | true => have := inside_bounds g [] hg.left hg.right k j _ hin; omega)
      have r1 : (ms.map fun m => (m.comp.getD s 0 : K) * (g.hy * g.hz / h) * D m * m.conc k j (g.surf k j + 1)) = ms.map fun _ => 0 :=
        List.map_congr_left fun m hmem => by rw [zero m hmem, mul_zero]
      rw [r1, frontFlux, faceFlux, outgoing_eq, List.map_map]
      have r2 : (ms.map ((fun m : Mover K => if axisOf m.comp = some s then (m.comp.getD s 0 : K) * (2 * (g.hy * g.hz) / (Transport.hxLeft g.grid (g.surf k j + 1) + Transport.hxRight g.nX g.grid (g.surf k j + 1)))
          * m.coef (g.surf k j + 1) * m.conc (g.surf k j + 1) else 0) ∘ fun m => m.column k j)) = ms.map fun _ => 0 :=
        List.map_congr_left fun m hmem => by simp only [Function.comp, Mover3.column, zero m hmem, mul_zero, ite_self]
      rw [r2, zero_add]
  have hb : ∀ k j, bottomFlux g (g.hy * g.hz) ms k j s = (ms.map fun m => (m.comp.getD s 0 : K) * (g.hy * g.hz / h) * D m * m.conc k j (g.nX - 2)).sum :=
    fun k j => faceFlux_eq hg _ [] ms D hm k j _ (by omega) (by omega) s
  unfold content3 walls
  rw [← neg_div, ← sub_div]
  congr 1
  rw [over_congr g _ _ fun k j => columnContent_rate hg (g.hy * g.hz) [] ms s k j, over_congr g _ _ hf, over_congr g _ _ hb, over_sum, over_sum]
  have l1 : ∀ f : Mover3 K → ℕ → ℕ → ℕ → K, overColumns g (fun k j => ∑ xi ∈ range g.nX, (ms.map fun m => (m.comp.getD s 0 : K) * f m k j xi).sum * (h * (g.hy * g.hz)))
      = (ms.map fun m => (m.comp.getD s 0 : K) * (h * (g.hy * g.hz)) * overColumns g fun k j => ∑ xi ∈ range g.nX, f m k j xi).sum := by
    intro f
    have : ∀ k j, ∑ xi ∈ range g.nX, (ms.map fun m => (m.comp.getD s 0 : K) * f m k j xi).sum * (h * (g.hy * g.hz)) = (ms.map fun m => (m.comp.getD s 0 : K) * (h * (g.hy * g.hz)) * ∑ xi ∈ range g.nX, f m k j xi).sum := by
      intro k j
      rw [← sum_mul, range_sum, ← List.sum_map_mul_right]
      congr 1
      refine List.map_congr_left fun m _ => ?_
      rw [← mul_sum]; ring
    rw [over_congr g _ _ this, over_sum]
    congr 1
    exact List.map_congr_left fun m _ => over_mul g _ _
  rw [l1, l1 fun m k j xi => D m * m.conc k j xi * (missY g [] k j xi / (g.hy * g.hy) + missZ g [] k j xi / (g.hz * g.hz))]
  have main : ∀ m ∈ ms, (m.comp.getD s 0 : K) * (h * (g.hy * g.hz)) * overColumns g (fun k j => ∑ xi ∈ range g.nX, rate3 g [] m k j xi)
      = -(overColumns g (fun k j => (m.comp.getD s 0 : K) * (g.hy * g.hz / h) * D m * m.conc k j (g.surf k j + 1)) + overColumns g (fun k j => (m.comp.getD s 0 : K) * (g.hy * g.hz / h) * D m * m.conc k j (g.nX - 2)))
        - (m.comp.getD s 0 : K) * (h * (g.hy * g.hz)) * overColumns g fun k j => ∑ xi ∈ range g.nX, D m * m.conc k j xi * (missY g [] k j xi / (g.hy * g.hy) + missZ g [] k j xi / (g.hz * g.hz)) := by
    intro m hmem
    rw [loss hg [] (hm m hmem), over_mul, over_mul]
    have split : overColumns g (fun k j => ∑ xi ∈ range g.nX, D m * m.conc k j xi * ((missX g [] k j xi : K) / (h * h) + missY g [] k j xi / (g.hy * g.hy) + missZ g [] k j xi / (g.hz * g.hz)))
        = D m / (h * h) * (overColumns g (fun k j => m.conc k j (g.surf k j + 1)) + overColumns g fun k j => m.conc k j (g.nX - 2))
          + overColumns g fun k j => ∑ xi ∈ range g.nX, D m * m.conc k j xi * (missY g [] k j xi / (g.hy * g.hy) + missZ g [] k j xi / (g.hz * g.hz)) := by
      rw [← over_add, ← over_mul, ← over_add]
      refine over_congr g _ _ fun k j => ?_
      rw [← column_ends hg (hm m hmem) k j, mul_sum, ← sum_add_distrib]
      exact sum_congr rfl fun xi _ => by ring
    rw [split]
    field_simp
    ring
  rw [List.map_congr_left main]
  clear hf hb l1 main hm
  induction ms with
  | nil => simp
  | cons m l ih =>
    simp only [List.map_cons, List.sum_cons, ih]
    ring

/-! ### Flat and stepped surfaces -/

/-- A flat surface and periodic sides have no walls. -/
theorem walls_flat {g : Mesh K} (p : ℕ) (hp : ∀ k j, g.surf k j = p) (ho : g.bottomOffset = 0 ∧ g.topOffset = 0 ∧ g.frontOffset = 0 ∧ g.backOffset = 0) (ms : List (Mover3 K)) (D : Mover3 K → K)
    (hm : ∀ m ∈ ms, Even g [] m (D m)) (h : K) (s : ℕ) : walls g ms D h s = 0 := by
  obtain ⟨o1, o2, o3, o4⟩ := ho
  have same : ∀ k j k' j' xi, k < g.nZ → j < g.nY → k' < g.nZ → j' < g.nY → inside g [] k j xi = inside g [] k' j' xi := by
    intro k j k' j' xi h1 h2 h3 h4
    simp only [inside, hp, o1, o2, o3, o4]
    congr 2
    apply decide_eq_decide.mpr
    push_cast
    omega
  unfold walls overColumns
  refine sum_eq_zero fun k hk => sum_eq_zero fun j hj => sum_eq_zero fun xi _ => ?_
  have hk := mem_range.mp hk
  have hj := mem_range.mp hj
  have e : (ms.map fun m => (m.comp.getD s 0 : K) * (D m * m.conc k j xi * ((missY g [] k j xi : K) / (g.hy * g.hy) + missZ g [] k j xi / (g.hz * g.hz)))) = ms.map fun _ => 0 := by
    refine List.map_congr_left fun m hmem => ?_
    cases hin : inside g [] k j xi with
    | false => rw [(hm m hmem).zero k j xi hin]; simp
    | true =>
      have ey : missY g [] k j xi = 0 := by
        rw [missY, same k ((j + g.nY - 1) % g.nY) k j xi hk (Nat.mod_lt _ (by omega)) hk hj, same k ((j + 1) % g.nY) k j xi hk (Nat.mod_lt _ (by omega)) hk hj, hin]; rfl
      have ez : missZ g [] k j xi = 0 := by
        rw [missZ, same ((k + g.nZ - 1) % g.nZ) j k j xi (Nat.mod_lt _ (by omega)) hj hk hj, same ((k + 1) % g.nZ) j k j xi (Nat.mod_lt _ (by omega)) hj hk hj, hin]; rfl
      rw [ey, ez]; simp
  rw [e]
  simp

/-- So with a flat surface and periodic sides the content that is reported falls by exactly the fluxes that are reported.  Partial: uniform grid and temperature (see `Retention.balance_widening`, `Retention.balance_neighbour` for one column). -/
theorem balance_flat_partial {g : Mesh K} {x0 h : K} (hg : Uniform g x0 h) (p : ℕ) (hp : ∀ k j, g.surf k j = p) (ho : g.bottomOffset = 0 ∧ g.topOffset = 0 ∧ g.frontOffset = 0 ∧ g.backOffset = 0)
    (ms : List (Mover3 K)) (D : Mover3 K → K) (hm : ∀ m ∈ ms, Even g [] m (D m)) (s : ℕ) :
    content3 g ms (rate3 g []) s
      = -((overColumns g (fun k j => frontFlux g (g.hy * g.hz) ms k j s) + overColumns g (fun k j => bottomFlux g (g.hy * g.hz) ms k j s)) / area3 g) := by
  rw [balance hg ms D hm s, walls_flat p hp ho ms D hm h s, zero_div, sub_zero]

/-- Any of a species that stands next to a wall is lost without being counted: the content falls faster than the fluxes say. -/
theorem walls_leak {g : Mesh K} {x0 h : K} (hg : Uniform g x0 h) (ms : List (Mover3 K)) (D : Mover3 K → K) (hm : ∀ m ∈ ms, Even g [] m (D m)) (s : ℕ) (hD : ∀ m ∈ ms, 0 < D m)
    (hc : ∀ m ∈ ms, ∀ k j xi, 0 ≤ m.conc k j xi) (m : Mover3 K) (hmem : m ∈ ms) (hs : 0 < m.comp.getD s 0) (k j xi : ℕ) (hk : k < g.nZ) (hj : j < g.nY) (hpos : 0 < m.conc k j xi)
    (hw : 0 < missY g [] k j xi + missZ g [] k j xi) :
    content3 g ms (rate3 g []) s
      < -((overColumns g (fun k j => frontFlux g (g.hy * g.hz) ms k j s) + overColumns g (fun k j => bottomFlux g (g.hy * g.hz) ms k j s)) / area3 g) := by
  rw [balance hg ms D hm s]
  have ha : 0 < area3 g := by
    have h1 := hg.hy
    have h2 := hg.hz
    have h3 : 0 < ((g.nY * g.nZ : ℕ) : K) := Nat.cast_pos.mpr (Nat.mul_pos (by omega) (by omega))
    unfold area3; positivity
  have hy := hg.hy
  have hz := hg.hz
  have hx := hg.hx
  have term : ∀ n ∈ ms, ∀ k j xi, 0 ≤ (n.comp.getD s 0 : K) * (D n * n.conc k j xi * ((missY g [] k j xi : K) / (g.hy * g.hy) + missZ g [] k j xi / (g.hz * g.hz))) := by
    intro n hn k j xi
    have h1 := (hD n hn).le
    have h2 := hc n hn k j xi
    positivity
  have nn : ∀ k j xi, 0 ≤ (ms.map fun n => (n.comp.getD s 0 : K) * (D n * n.conc k j xi * ((missY g [] k j xi : K) / (g.hy * g.hy) + missZ g [] k j xi / (g.hz * g.hz)))).sum * (h * (g.hy * g.hz)) := by
    intro k j xi
    refine mul_nonneg (List.sum_nonneg ?_) (by positivity)
    intro x hx
    obtain ⟨n, hn, rfl⟩ := List.mem_map.mp hx
    exact term n hn k j xi
  have hin : inside g [] k j xi = true := by
    by_contra hcon
    have := (hm m hmem).zero k j xi (by simpa using hcon)
    linarith
  have hxi : xi < g.nX := by have := inside_bounds g [] hg.left hg.right k j xi hin; omega
  have big : 0 < walls g ms D h s := by
    unfold walls overColumns
    refine sum_pos' (fun k _ => sum_nonneg fun j _ => sum_nonneg fun xi _ => nn k j xi) ⟨k, mem_range.mpr hk, ?_⟩
    refine sum_pos' (fun j _ => sum_nonneg fun xi _ => nn k j xi) ⟨j, mem_range.mpr hj, ?_⟩
    refine sum_pos' (fun xi _ => nn k j xi) ⟨xi, mem_range.mpr hxi, ?_⟩
    refine mul_pos ?_ (by positivity)
    have hmiss : 0 < (missY g [] k j xi : K) / (g.hy * g.hy) + missZ g [] k j xi / (g.hz * g.hz) := by
      rcases Nat.eq_zero_or_pos (missY g [] k j xi) with c | c
      · have : 0 < (missZ g [] k j xi : K) := Nat.cast_pos.mpr (by omega)
        rw [c]; simp only [Nat.cast_zero, zero_div, zero_add]; positivity
      · have : 0 < (missY g [] k j xi : K) := Nat.cast_pos.mpr c
        positivity
    have t : 0 < (m.comp.getD s 0 : K) * (D m * m.conc k j xi * ((missY g [] k j xi : K) / (g.hy * g.hy) + missZ g [] k j xi / (g.hz * g.hz))) := by
      have h1 := hD m hmem
      have h2 : 0 < (m.comp.getD s 0 : K) := Nat.cast_pos.mpr hs
      positivity
    refine lt_of_lt_of_le t (List.single_le_sum ?_ _ (List.mem_map.mpr ⟨m, hmem, rfl⟩))
    intro x hx
    obtain ⟨n, hn, rfl⟩ := List.mem_map.mp hx
    exact term n hn k j xi
  have := div_pos big ha
  linarith

/-- Two columns, the surface of the second one point deeper. -/
def stepped : Mesh ℚ where
  nX := 5
  nY := 2
  nZ := 1
  grid := fun i => 0 + 1 * i
  hy := 1
  hz := 1
  surf := fun _ j => if j = 1 then 1 else 0

/-- Two columns with a flat surface. -/
def plain : Mesh ℚ := { stepped with surf := fun _ _ => 0 }

/-- Concentration 1 at all points inside. -/
def full (g : Mesh ℚ) (gb : List (ℕ × ℕ × ℕ)) : Mover3 ℚ := ⟨[1], fun _ => 1, fun k j xi => if inside g gb k j xi then 1 else 0⟩

theorem stepped_uniform : Uniform stepped 0 1 := ⟨by decide, fun _ => rfl, one_pos, one_pos, one_pos, rfl, rfl⟩
theorem plain_uniform : Uniform plain 0 1 := ⟨by decide, fun _ => rfl, one_pos, one_pos, one_pos, rfl, rfl⟩
theorem full_even (g : Mesh ℚ) (gb : List (ℕ × ℕ × ℕ)) : Even g gb (full g gb) 1 :=
  ⟨⟨0, by show axisOf [1] = some 0; decide⟩, fun _ => rfl, fun k j xi h => by show (if inside g gb k j xi then (1 : ℚ) else 0) = 0; rw [h]; rfl⟩

/-- A step of the surface: of every three atoms lost one is not accounted for. -/
theorem step_unaccounted : content3 stepped [full stepped []] (rate3 stepped []) 0 = -3
    ∧ (overColumns stepped (fun k j => frontFlux stepped (stepped.hy * stepped.hz) [full stepped []] k j 0) + overColumns stepped (fun k j => bottomFlux stepped (stepped.hy * stepped.hz) [full stepped []] k j 0)) / area3 stepped = 2 := by
  constructor <;> decide +kernel

/-- A point of a grain boundary amid a column of a flat surface: what goes into it is not accounted for either. -/
theorem boundary_unaccounted : content3 plain [full plain [(2, 0, 0), (2, 1, 0)]] (rate3 plain [(2, 0, 0), (2, 1, 0)]) 0 = -4
    ∧ (overColumns plain (fun k j => frontFlux plain (plain.hy * plain.hz) [full plain [(2, 0, 0), (2, 1, 0)]] k j 0) + overColumns plain (fun k j => bottomFlux plain (plain.hy * plain.hz) [full plain [(2, 0, 0), (2, 1, 0)]] k j 0)) / area3 plain = 2 := by
  constructor <;> decide +kernel

example : content3 plain [full plain []] (rate3 plain []) 0
    = -((overColumns plain (fun k j => frontFlux plain (plain.hy * plain.hz) [full plain []] k j 0) + overColumns plain (fun k j => bottomFlux plain (plain.hy * plain.hz) [full plain []] k j 0)) / area3 plain) :=
  balance_flat_partial plain_uniform 0 (fun _ _ => rfl) ⟨rfl, rfl, rfl, rfl⟩ [full plain []] (fun _ => 1) (by simpa using full_even plain []) 0

example : content3 plain [full plain []] (rate3 plain []) 0 = -2 := by decide +kernel

example : content3 stepped [full stepped []] (rate3 stepped []) 0
    < -((overColumns stepped (fun k j => frontFlux stepped (stepped.hy * stepped.hz) [full stepped []] k j 0) + overColumns stepped (fun k j => bottomFlux stepped (stepped.hy * stepped.hz) [full stepped []] k j 0)) / area3 stepped) :=
  walls_leak stepped_uniform [full stepped []] (fun _ => 1) (by simpa using full_even stepped []) 0 (by simp)
    (fun m hm k j xi => by rw [List.mem_singleton.mp hm]; show (0 : ℚ) ≤ if inside stepped [] k j xi then 1 else 0; split <;> norm_num)
    (full stepped []) List.mem_cons_self (by decide) 0 0 1 (by decide) (by decide) (by decide +kernel) (by decide +kernel)

example : walls stepped [full stepped []] (fun _ => 1) 1 0 = 2 := by decide +kernel

/-! ### Two dimensions, and one -/

/-- Two dimensions are three with one layer: the same rates, the same content and the same fluxes per area, whatever the thickness of the layer. -/
theorem two_is_three (g : Mesh K) (gb : List (ℕ × ℕ × ℕ)) (h1 : g.nZ = 1) (hz : g.hz ≠ 0) (ms : List (Mover3 K)) (s : ℕ) :
    (∀ m j xi, rate2 g gb m j xi = rate3 g gb m 0 j xi) ∧ (∀ f, content2 g ms f s = content3 g ms f s)
    ∧ ∀ j xi, faceFlux g g.hy ms 0 j xi s / area2 g = faceFlux g (g.hy * g.hz) ms 0 j xi s / area3 g := by
  refine ⟨fun m j xi => ?_, fun f => ?_, fun j xi => ?_⟩
  · unfold rate2 rate3
    by_cases hin : inside g gb 0 j xi = true
    · rw [if_pos hin, if_pos hin, h1]
      simp only [Transport.conc2, Transport.conc3, Nat.mod_one]
      ring
    · rw [if_neg hin, if_neg hin]
  · unfold content2 content3 overColumns area2 area3
    rw [h1, range_one, sum_singleton, mul_one]
    have : ∀ j, columnContent g (g.hy * g.hz) ms f s 0 j = columnContent g g.hy ms f s 0 j * g.hz := by
      intro j
      unfold columnContent
      rw [sum_mul]
      refine sum_congr rfl fun xi _ => ?_
      split <;> ring
    simp only [this, ← sum_mul]
    rw [mul_div_mul_right _ _ hz]
  · unfold area2 area3
    rw [h1, mul_one]
    have : faceFlux g (g.hy * g.hz) ms 0 j xi s = faceFlux g g.hy ms 0 j xi s * g.hz := by
      unfold faceFlux
      rw [outgoing_eq, outgoing_eq, zero_add, zero_add, List.map_map, List.map_map, ← List.sum_map_mul_right]
      congr 1
      refine List.map_congr_left fun m _ => ?_
      simp only [Function.comp]
      split
      · ring
      · ring
    rw [this, mul_div_mul_right _ _ hz]

example : content2 stepped [full stepped []] (fun m => m.conc) 0 = 5 / 2 := by decide +kernel
example : content2 stepped [full stepped []] (fun m => m.conc) 0 = content3 { stepped with hz := 7 } [full stepped []] (fun m => m.conc) 0 :=
  (two_is_three { stepped with hz := 7 } [] rfl (by norm_num) [full stepped []] 0).2.1 fun m => m.conc

/-- A column at surface position 0 of unit area is counted as in one dimension. -/
theorem column_is_one (g : Mesh K) (hn : 2 ≤ g.nX) (hl : g.leftOffset = 1) (hr : g.rightOffset = 1) (area : K) (ms : List (Mover3 K)) (f : Mover3 K → ℕ → ℕ → ℕ → K) (f1 : Mover K → ℕ → K) (s k j : ℕ)
    (h0 : g.surf k j = 0) (hf : ∀ m ∈ ms, ∀ xi, 1 ≤ xi → xi + 2 ≤ g.nX → f m k j xi = f1 (m.column k j) xi) :
    columnContent g area ms f s k j = content g.nX g.grid (ms.map fun m => m.column k j) f1 s * area := by
  obtain ⟨n, hn⟩ : ∃ n, g.nX = n + 2 := ⟨g.nX - 2, by omega⟩
  unfold columnContent content
  rw [hn, sum_range_succ, sum_range_succ', Nat.add_sub_cancel]
  have z0 : counted g k j 0 = false := by
    simp only [counted, hl, hr, h0, hn, Bool.not_eq_false', decide_eq_true_eq]
    left; omega
  have z1 : counted g k j (n + 1) = false := by
    simp only [counted, hl, hr, h0, hn, Bool.not_eq_false', decide_eq_true_eq]
    right; push_cast; omega
  rw [z0, z1, if_neg (by decide), if_neg (by decide), add_zero, add_zero, sum_mul]
  refine sum_congr rfl fun xi hxi => ?_
  have hx := mem_range.mp hxi
  have z2 : counted g k j (xi + 1) = true := by
    simp only [counted, hl, hr, h0, hn, Bool.not_eq_true', decide_eq_false_iff_not]
    push_cast; omega
  rw [if_pos z2, List.map_map]
  congr 2
  congr 1
  refine List.map_congr_left fun m hmem => ?_
  simp only [Function.comp]
  rw [hf m hmem (xi + 1) (by omega) (by omega)]
  rfl

/-- If all columns are alike and the surface is at position 0, three dimensions report the content and the fluxes of one dimension, whatever the number of columns and their size. -/
theorem alike (g : Mesh K) (hn : 3 ≤ g.nX) (hl : g.leftOffset = 1) (hr : g.rightOffset = 1) (hy : 0 < g.hy) (hz : 0 < g.hz) (nY : 0 < g.nY) (nZ : 0 < g.nZ) (hp : ∀ k j, g.surf k j = 0)
    (ms : List (Mover3 K)) (ha : ∀ m ∈ ms, ∀ k j xi, m.conc k j xi = m.conc 0 0 xi) (s : ℕ) :
    content3 g ms (fun m => m.conc) s = content g.nX g.grid (ms.map fun m => m.column 0 0) (fun m => m.conc) s
    ∧ overColumns g (fun k j => frontFlux g (g.hy * g.hz) ms k j s) / area3 g = surfaceFlux g.nX g.grid (ms.map fun m => m.column 0 0) s
    ∧ overColumns g (fun k j => bottomFlux g (g.hy * g.hz) ms k j s) / area3 g = bulkFlux g.nX g.grid (ms.map fun m => m.column 0 0) s := by
  have cY : (0 : K) < g.nY := Nat.cast_pos.mpr nY
  have cZ : (0 : K) < g.nZ := Nat.cast_pos.mpr nZ
  have col : ∀ k j, (ms.map fun m => m.column k j) = ms.map fun m => m.column 0 0 := by
    intro k j
    refine List.map_congr_left fun m hmem => ?_
    simp only [Mover3.column, Mover.mk.injEq, true_and]
    exact funext fun xi => ha m hmem k j xi
  have avg : ∀ f : ℕ → ℕ → K, ∀ a, (∀ k j, f k j = a * (g.hy * g.hz)) → overColumns g f / area3 g = a := by
    intro f a hf
    rw [over_congr g f (fun _ _ => a * (g.hy * g.hz)) hf]
    unfold overColumns area3
    simp only [sum_const, card_range, nsmul_eq_mul]
    push_cast
    field_simp
  refine ⟨avg _ _ fun k j => ?_, avg _ _ fun k j => ?_, avg _ _ fun k j => ?_⟩
  · rw [column_is_one g (by omega) hl hr (g.hy * g.hz) ms (fun m => m.conc) (fun m => m.conc) s k j (hp k j) (fun _ _ _ _ _ => rfl), col k j]
  all_goals
    simp only [frontFlux, bottomFlux, faceFlux, surfaceFlux, bulkFlux, hp, zero_add]
    rw [col k j, outgoing_eq, outgoing_eq, zero_add, zero_add, ← List.sum_map_mul_right]
    congr 1
    refine List.map_congr_left fun m _ => ?_
    unfold factorAt
    split <;> ring

example : content3 plain [⟨[0, 2], fun _ => 1, fun _ _ xi => xi⟩] (fun m => m.conc) 1 = content 5 plain.grid [⟨[0, 2], fun _ => 1, fun xi => xi⟩] (fun m => m.conc) 1 :=
  (alike plain (by decide) rfl rfl one_pos one_pos (by decide) (by decide) (fun _ _ => rfl) [⟨[0, 2], fun _ => 1, fun _ _ xi => xi⟩] (by simp) 1).1
example : content 5 plain.grid [⟨[0, 2], fun _ => 1, fun xi => xi⟩] (fun m => m.conc) 1 = 12 := by decide +kernel

/-- The rates are those of one dimension as well, at the points that are computed. -/
theorem alike_rate (g : Mesh K) (gb : List (ℕ × ℕ × ℕ)) (m : Mover3 K) (ha : ∀ k j xi, m.conc k j xi = m.conc 0 0 xi) (k j xi : ℕ) (hin : inside g gb k j xi = true) :
    rate3 g gb m k j xi = diffusionRate g.nX g.grid (m.column 0 0) xi := by
  unfold rate3 diffusionRate
  rw [if_pos hin]
  simp only [Transport.conc3, Transport.conc1, Mover3.column]
  rw [ha k j xi, ha k j (xi - 1), ha k j (xi + 1), ha k _ xi, ha k ((j + 1) % g.nY) xi, ha _ j xi, ha ((k + 1) % g.nZ) j xi]
  ring

example : rate3 plain [] ⟨[1], fun _ => 1, fun _ _ xi => (xi : ℚ) ^ 2⟩ 0 1 2 = diffusionRate 5 plain.grid ⟨[1], fun _ => 1, fun xi => (xi : ℚ) ^ 2⟩ 2 :=
  alike_rate plain [] ⟨[1], fun _ => 1, fun _ _ xi => (xi : ℚ) ^ 2⟩ (fun _ _ _ => rfl) 0 1 2 (by decide +kernel)

/-! ### The accounts of the columns -/

/-- What is reported to have left is the sum over the columns of the flux times the time, per area. -/
theorem reported_left (g : Mesh K) (area : K) (skip : ℕ → Bool) (s : ℕ) (hs : skip s = false) (a : ℕ → ℕ → Acc K) (t : K) (calls : ℕ → ℕ → List (Call K)) :
    reported g area (fun k j => (runLoop skip 0 (a k j) t (calls k j)).1) s = reported g area a s + overColumns g (fun k j => left (calls k j) s) / area := by
  unfold reported
  rw [← add_div, ← over_add]
  congr 1
  exact over_congr g _ _ fun k j => runLoop_left skip s hs (a k j) t (calls k j)

example : reported plain 2 (fun _ j => (runLoop (fun _ => false) 0 ⟨fun _ => 0, fun _ => 0⟩ 0 [⟨0, fun _ => (j : ℚ)⟩, ⟨3, fun _ => 5⟩]).1) 0 = 3 / 2 := by
  rw [reported_left plain 2 _ 0 rfl]
  norm_num [reported, overColumns, left, plain, stepped, sum_range_succ]

/-! ### Advection -/

theorem outgoingAdv_eq (factor : K) (ix xi : ℕ) (ms : List (Advected K)) (hT : ∀ m ∈ ms, 0 < m.temp ix) (u : ℕ → K) (s : ℕ) :
    outgoingAdv factor ix xi ms u s = u s + (ms.map fun m => if axisOf m.comp = some s then (m.comp.getD s 0 : K) * factor * m.coef ix * m.conc xi * m.sink / m.temp ix else 0).sum := by
  unfold outgoingAdv
  induction ms generalizing u with
  | nil => simp
  | cons m l ih =>
    rw [List.foldl_cons, ih (fun n hn => hT n (List.mem_cons_of_mem _ hn)), List.map_cons, List.sum_cons, ← add_assoc]
    congr 1
    rw [if_pos (hT m List.mem_cons_self)]
    cases hax : axisOf m.comp with
    | none => simp
    | some q =>
      dsimp only
      by_cases c : q = s
      · subst c
        rw [Function.update_self, if_pos rfl, (axisOf_pure m.comp q hax).1]
      · rw [Function.update_of_ne (Ne.symm c), if_neg (by simpa using c), add_zero]

/-- The flux by advection that is reported for a column is, per cluster, its size times the area times the drift at the distance used. -/
theorem outgoingAdv_drift (kB area : K) (grid : ℕ → K) (location : K) (xi : ℕ) (ms : List (Advected K)) (hT : ∀ m ∈ ms, 0 < m.temp xi) (s : ℕ) :
    outgoingAdv (advFactor kB area grid location xi) xi xi ms (fun _ => 0) s
      = (ms.map fun m => if axisOf m.comp = some s then (m.comp.getD s 0 : K) * area * Transport.Adv.drift m.sink kB (m.coef xi) (m.temp xi) ((grid xi + grid (xi + 1)) / 2 - grid 1 - location) (m.conc xi) else 0).sum := by
  rw [outgoingAdv_eq _ _ _ _ hT, zero_add]
  congr 1
  refine List.map_congr_left fun m _ => ?_
  split
  · simp only [advFactor, Transport.Adv.drift, div_eq_mul_inv, mul_inv, pow_succ, pow_zero, one_mul]
    ring
  · rfl

theorem location_last (g : Mesh K) (order : List (ℕ × ℕ)) (c : ℕ × ℕ) (start : K) : locationAfter g (order ++ [c]) start = g.grid (g.surf c.1 c.2 + 1) - g.grid 1 := by
  simp [locationAfter]

/-- Partial, for uniform grid and temperature: with the location of its own column, what is reported is what advection takes from the column. -/
theorem adv_balance_partial {g : Mesh K} {x0 h : K} (hg : Uniform g x0 h) (kB area T : K) (hk : 0 < kB) (hT : 0 < T) (k j : ℕ) (hs : g.surf k j + 3 ≤ g.nX) (ms : List (Advected K)) (D : Advected K → K)
    (hm : ∀ m ∈ ms, (∃ q, axisOf m.comp = some q) ∧ (∀ i, m.coef i = D m) ∧ (∀ i, m.temp i = T) ∧ m.conc (g.nX - 1) = 0) (s : ℕ) :
    ∑ xi ∈ Ico (g.surf k j + 1) (g.nX - 1), (ms.map fun m => (m.comp.getD s 0 : K) * advRate g kB m k j xi).sum * (h * area)
      = -outgoingAdv (advFactor kB area g.grid (g.grid (g.surf k j + 1) - g.grid 1) (g.surf k j + 1)) (g.surf k j + 1) (g.surf k j + 1) ms (fun _ => 0) s := by
  have hh := hg.hx
  obtain ⟨n, hn⟩ : ∃ n, g.nX = g.surf k j + 2 + n := ⟨g.nX - (g.surf k j + 2), by omega⟩
  rw [outgoingAdv_drift _ _ _ _ _ _ (fun m hmem => by rw [(hm m hmem).2.2.1]; exact hT), sum_Ico_eq_sum_range, show g.nX - 1 - (g.surf k j + 1) = n by omega]
  have one : ∀ m ∈ ms, ∑ i ∈ range n, (m.comp.getD s 0 : K) * advRate g kB m k j (g.surf k j + 1 + i) * (h * area)
      = -(if axisOf m.comp = some s then (m.comp.getD s 0 : K) * area * Transport.Adv.drift m.sink kB (m.coef (g.surf k j + 1)) (m.temp (g.surf k j + 1))
        ((g.grid (g.surf k j + 1) + g.grid (g.surf k j + 1 + 1)) / 2 - g.grid 1 - (g.grid (g.surf k j + 1) - g.grid 1)) (m.conc (g.surf k j + 1)) else 0) := by
    intro m hmem
    obtain ⟨⟨q, hq⟩, hD, hTm, h0⟩ := hm m hmem
    have step : ∀ i ∈ range n, (m.comp.getD s 0 : K) * advRate g kB m k j (g.surf k j + 1 + i) * (h * area)
        = (m.comp.getD s 0 : K) * area * (h * Transport.Adv.surfConc m.sink kB 0 (h / 2 + i * h) h (D m) (D m) T T 1 1 (m.conc (g.surf k j + 1 + i)) (m.conc (g.surf k j + 1 + (i + 1)))) := by
      intro i hi
      have hi := mem_range.mp hi
      unfold advRate
      rw [hxR hg _ (by omega), hD, hD, hTm, hTm]
      have e : (g.grid (g.surf k j + 1 + i) + g.grid (g.surf k j + 1 + i + 1)) / 2 - g.grid 1 - (g.grid (g.surf k j + 1) - g.grid 1) = h / 2 + i * h - 0 := by
        simp only [hg.grid]; push_cast; ring
      unfold Transport.Adv.surfConc
      rw [e, show g.surf k j + 1 + (i + 1) = g.surf k j + 1 + i + 1 by omega]
      ring
    rw [sum_congr rfl step, ← mul_sum, Transport.Adv.surf_conserved m.sink kB (D m) T (h / 2) h (by positivity) hh hT.ne' hk.ne' (fun i => m.conc (g.surf k j + 1 + i)) n]
    rw [show g.surf k j + 1 + n = g.nX - 1 by omega, h0, hD, hTm, add_zero]
    have e : (g.grid (g.surf k j + 1) + g.grid (g.surf k j + 1 + 1)) / 2 - g.grid 1 - (g.grid (g.surf k j + 1) - g.grid 1) = h / 2 := by
      simp only [hg.grid]; push_cast; ring
    rw [e]
    have z : Transport.Adv.drift m.sink kB (D m) T (h / 2 + n * h) 0 = 0 := by simp [Transport.Adv.drift]
    rw [z]
    by_cases c : q = s
    · subst c; rw [if_pos hq]; ring
    · rw [if_neg (by rw [hq]; simpa using c), (axisOf_pure m.comp q hq).2 s (Ne.symm c)]; simp
  have swap : ∑ i ∈ range n, (ms.map fun m => (m.comp.getD s 0 : K) * advRate g kB m k j (g.surf k j + 1 + i)).sum * (h * area)
      = (ms.map fun m => ∑ i ∈ range n, (m.comp.getD s 0 : K) * advRate g kB m k j (g.surf k j + 1 + i) * (h * area)).sum := by
    clear one hm
    induction ms with
    | nil => simp
    | cons m l ih => simp only [List.map_cons, List.sum_cons, add_mul, sum_add_distrib, ih]
  rw [swap, List.map_congr_left one]
  clear swap one hm
  induction ms with
  | nil => simp
  | cons m l ih => simp only [List.map_cons, List.sum_cons, ih]; ring

/-- With any diffusion coefficients and temperatures, the rate is the difference of the drifts of the point and of the next one, each with the coefficient and the temperature of its own place in the arrays (one after its
grid point), less the product of the two differences, which is lost. -/
theorem advRate_product {g : Mesh K} {x0 h : K} (hg : Uniform g x0 h) (kB : K) (m : Advected K) (k j xi : ℕ) (hx : xi < g.nX) :
    let dist : ℕ → K := fun i => (g.grid i + g.grid (i + 1)) / 2 - g.grid 1 - (g.grid (g.surf k j + 1) - g.grid 1)
    h * advRate g kB m k j xi = Transport.Adv.drift m.sink kB (m.coef (xi + 2)) (m.temp (xi + 2)) (dist (xi + 1)) (m.conc (xi + 1)) - Transport.Adv.drift m.sink kB (m.coef (xi + 1)) (m.temp (xi + 1)) (dist xi) (m.conc xi)
      - 3 * m.sink / kB * (m.coef (xi + 2) / m.temp (xi + 2) - m.coef (xi + 1) / m.temp (xi + 1)) * (m.conc (xi + 1) / dist (xi + 1) ^ 4 - m.conc xi / dist xi ^ 4) := by
  intro dist
  have hh : h ≠ 0 := hg.hx.ne'
  have e : dist (xi + 1) = dist xi + h := by simp only [dist, hg.grid]; push_cast; ring
  unfold advRate
  rw [hxR hg xi hx, e]
  unfold Transport.Adv.surfConc Transport.Adv.drift
  simp only [mul_one]
  change h * (3 * m.sink * m.coef (xi + 1) * (m.conc (xi + 1) / (dist xi + h) ^ 4 - m.conc xi / dist xi ^ 4) / (kB * m.temp (xi + 1) * h)
    + 3 * m.sink * m.conc xi * (m.coef (xi + 2) / m.temp (xi + 2) - m.coef (xi + 1) / m.temp (xi + 1)) / (kB * h * dist xi ^ 4)) = _
  simp only [div_eq_mul_inv, mul_inv]
  linear_combination (3 * m.sink * m.coef (xi + 1) * (m.conc (xi + 1) * ((dist xi + h) ^ 4)⁻¹ - m.conc xi * (dist xi ^ 4)⁻¹) * (kB⁻¹ * (m.temp (xi + 1))⁻¹)
    + 3 * m.sink * m.conc xi * (m.coef (xi + 2) * (m.temp (xi + 2))⁻¹ - m.coef (xi + 1) * (m.temp (xi + 1))⁻¹) * (kB⁻¹ * (dist xi ^ 4)⁻¹)) * mul_inv_cancel₀ hh

/-- The distance that the monitor uses for a column is that from the surface of the column that the right-hand side visited last, so it is right only if the surface there is at the same position, or (because of the even power) one further. -/
theorem stale {g : Mesh K} {x0 h : K} (hg : Uniform g x0 h) (kB area : K) (hk : 0 < kB) (ha : 0 < area) (order : List (ℕ × ℕ)) (c : ℕ × ℕ) (start : K) (k j : ℕ) (m : Advected K) (q : ℕ) (hq : axisOf m.comp = some q)
    (hsize : 0 < m.comp.getD q 0) (hT : 0 < m.temp (g.surf k j + 1)) (hD : 0 < m.coef (g.surf k j + 1)) (hA : 0 < m.sink) (hc : 0 < m.conc (g.surf k j + 1)) :
    let own := outgoingAdv (advFactor kB area g.grid (g.grid (g.surf k j + 1) - g.grid 1) (g.surf k j + 1)) (g.surf k j + 1) (g.surf k j + 1) [m] (fun _ => 0) q
    let used := outgoingAdv (advFactor kB area g.grid (locationAfter g (order ++ [c]) start) (g.surf k j + 1)) (g.surf k j + 1) (g.surf k j + 1) [m] (fun _ => 0) q
    0 < own ∧ (g.surf c.1 c.2 = g.surf k j ∨ g.surf c.1 c.2 = g.surf k j + 1 → used = own) ∧ (g.surf c.1 c.2 ≠ g.surf k j → g.surf c.1 c.2 ≠ g.surf k j + 1 → 81 * used ≤ own) := by
  intro own used
  have hh := hg.hx
  have hs : (0 : K) < m.comp.getD q 0 := Nat.cast_pos.mpr hsize
  set u : K := 2 * ((g.surf k j : K) - g.surf c.1 c.2) + 1 with hu
  set B : K := (m.comp.getD q 0 : K) * area * (3 * m.sink * m.coef (g.surf k j + 1) * m.conc (g.surf k j + 1)) / (kB * m.temp (g.surf k j + 1)) with hB
  have Bpos : 0 < B := by positivity
  have e1 : own = B / (h / 2) ^ 4 := by
    simp only [own]
    rw [outgoingAdv_drift _ _ _ _ _ _ (by simpa using hT)]
    simp only [List.map_cons, List.map_nil, List.sum_cons, List.sum_nil, add_zero, hq, if_true]
    have e : (g.grid (g.surf k j + 1) + g.grid (g.surf k j + 1 + 1)) / 2 - g.grid 1 - (g.grid (g.surf k j + 1) - g.grid 1) = h / 2 := by
      simp only [hg.grid]; push_cast; ring
    rw [e, Transport.Adv.drift, hB, div_div, mul_div_assoc']
  have e2 : used = B / (u * (h / 2)) ^ 4 := by
    simp only [used]
    rw [outgoingAdv_drift _ _ _ _ _ _ (by simpa using hT), location_last]
    simp only [List.map_cons, List.map_nil, List.sum_cons, List.sum_nil, add_zero, hq, if_true]
    have e : (g.grid (g.surf k j + 1) + g.grid (g.surf k j + 1 + 1)) / 2 - g.grid 1 - (g.grid (g.surf c.1 c.2 + 1) - g.grid 1) = u * (h / 2) := by
      simp only [hg.grid, hu]; push_cast; ring
    rw [e, Transport.Adv.drift, hB, div_div, mul_div_assoc']
  have hp : 0 < (h / 2) ^ 4 := by positivity
  refine ⟨by rw [e1]; positivity, ?_, ?_⟩
  · intro hcase
    rw [e1, e2, mul_pow]
    have : u ^ 4 = 1 := by
      rcases hcase with hc | hc
      · rw [hu, hc]; ring
      · rw [hu, hc]; push_cast; ring
    rw [this, one_mul]
  · intro n1 n2
    have big : 9 ≤ u ^ 2 := by
      rcases Nat.lt_or_ge (g.surf c.1 c.2) (g.surf k j) with lt | ge
      · have : ((g.surf c.1 c.2 : K) + 1) ≤ g.surf k j := by exact_mod_cast lt
        have : 3 ≤ u := by rw [hu]; linarith
        nlinarith
      · have : ((g.surf k j : K) + 2) ≤ g.surf c.1 c.2 := by exact_mod_cast (show g.surf k j + 2 ≤ g.surf c.1 c.2 by omega)
        have : u ≤ -3 := by rw [hu]; linarith
        nlinarith
    have big4 : 81 ≤ u ^ 4 := by
      have : u ^ 4 = u ^ 2 * u ^ 2 := by ring
      rw [this]; nlinarith
    rw [e1, e2, mul_pow, ← mul_div_assoc, div_le_div_iff₀ (by positivity) hp]
    have : 0 < B * (h / 2) ^ 4 := by positivity
    nlinarith

/-- One advecting cluster of the first column. -/
def drifting : Advected ℚ := ⟨⟨[1], fun _ => 1, fun xi => if xi = 1 ∨ xi = 2 then 1 else 0⟩, 1, fun _ => 1⟩

example : ∑ xi ∈ Ico 1 4, ([drifting].map fun m => (m.comp.getD 0 0 : ℚ) * advRate plain 1 m 0 0 xi).sum * (1 * 1) = -outgoingAdv (advFactor 1 1 plain.grid (plain.grid 1 - plain.grid 1) 1) 1 1 [drifting] (fun _ => 0) 0 :=
  adv_balance_partial plain_uniform 1 1 1 one_pos one_pos 0 0 (by decide) [drifting] (fun _ => 1)
    (by intro m hm; rw [List.mem_singleton.mp hm]; exact ⟨⟨0, by show axisOf [1] = some 0; decide⟩, fun _ => rfl, fun _ => rfl, rfl⟩) 0

/-- A cluster whose coefficient and temperature vary. -/
def varying : Advected ℚ := ⟨⟨[1], fun i => i + 1, fun xi => (xi : ℚ) ^ 2⟩, 2, fun i => 5 - i⟩

example : advRate plain 1 varying 0 0 2 = 126656 / 16875 := by decide +kernel

example : outgoingAdv (advFactor 1 1 plain.grid (plain.grid 1 - plain.grid 1) 1) 1 1 [drifting] (fun _ => 0) 0 = 48 := by decide +kernel

/-- Column 1, whose surface is one point deeper than that of the first, if the right-hand side visited the first one last: one 81st. -/
example : let own := outgoingAdv (advFactor 1 1 stepped.grid (stepped.grid (stepped.surf 0 1 + 1) - stepped.grid 1) (stepped.surf 0 1 + 1)) (stepped.surf 0 1 + 1) (stepped.surf 0 1 + 1) [drifting] (fun _ => 0) 0
    let used := outgoingAdv (advFactor 1 1 stepped.grid (locationAfter stepped ([(0, 1)] ++ [(0, 0)]) 0) (stepped.surf 0 1 + 1)) (stepped.surf 0 1 + 1) (stepped.surf 0 1 + 1) [drifting] (fun _ => 0) 0
    0 < own ∧ (stepped.surf 0 0 = stepped.surf 0 1 ∨ stepped.surf 0 0 = stepped.surf 0 1 + 1 → used = own) ∧ (stepped.surf 0 0 ≠ stepped.surf 0 1 → stepped.surf 0 0 ≠ stepped.surf 0 1 + 1 → 81 * used ≤ own) :=
  stale stepped_uniform 1 1 one_pos one_pos [(0, 1)] (0, 0) 0 0 1 drifting 0 (by show axisOf [1] = some 0; decide) (by decide) one_pos one_pos one_pos (by decide +kernel)

end Xolotl.Solver.Columns
