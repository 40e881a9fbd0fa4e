import Verif.Transport.Mask
import Mathlib.Tactic.Ring
import Mathlib.Tactic.Linarith
import Mathlib.Tactic.NormNum
import Mathlib.Algebra.Order.Ring.Rat

set_option linter.unusedSectionVars false

/-!
# Properties of the sink masks (C27)
-/

namespace Xolotl.Transport.Mask

variable {ρ P : Type*} [DecidableEq ρ]

/-- A loop whose body succeeds under `Q` and then clears exactly the entries in `B`. -/
theorem foldlM_clears {α : Type*} (f : Grid ρ → α → Except Fail (Grid ρ)) (Q : α → Prop) (B : α → ρ → ℕ → Prop)
    (hf : ∀ m a m', f m a = .ok m' ↔ Q a ∧ ∀ r n, m' r n = true ↔ m r n = true ∧ ¬B a r n) (l : List α) :
    ∀ m m', l.foldlM f m = .ok m' ↔ (∀ a ∈ l, Q a) ∧ ∀ r n, m' r n = true ↔ m r n = true ∧ ∀ a ∈ l, ¬B a r n := by
  classical
  induction l with
  | nil =>
    intro m m'
    simp only [List.foldlM_nil, List.not_mem_nil, false_imp_iff, implies_true, and_true, true_and]
    constructor
    · intro h r n; cases h; rfl
    · intro h; exact congrArg _ (funext fun r => funext fun n => (Bool.eq_iff_iff.mpr (h r n)).symm)
  | cons a l ih =>
    intro m m'
    rw [List.foldlM_cons]
    constructor
    · intro h
      cases e : f m a with
      | error x => rw [e] at h; cases h
      | ok m1 =>
        rw [e] at h
        have h' : l.foldlM f m1 = .ok m' := h
        obtain ⟨q1, w1⟩ := (hf m a m1).mp e
        obtain ⟨q2, w2⟩ := (ih m1 m').mp h'
        refine ⟨?_, fun r n => ?_⟩
        · intro b hb; rcases List.mem_cons.mp hb with rfl | hb
          · exact q1
          · exact q2 b hb
        · rw [w2, w1]; simp only [List.mem_cons, forall_eq_or_imp, and_assoc]
    · rintro ⟨q, w⟩
      have e : f m a = .ok (fun r n => decide (m r n = true ∧ ¬B a r n)) :=
        (hf _ _ _).mpr ⟨q a List.mem_cons_self, fun r n => by simp⟩
      rw [e]
      refine (ih _ m').mpr ⟨fun b hb => q b (List.mem_cons_of_mem _ hb), fun r n => ?_⟩
      rw [w]; simp only [List.mem_cons, forall_eq_or_imp, decide_eq_true_eq, and_assoc]

theorem clear_iff (ids : List ℕ) (inside : ρ → Bool) (r : ρ) (m : Grid ρ) (a : ℕ) (m' : Grid ρ) :
    clear ids inside r m a = .ok m' ↔ (a ∈ ids ∧ inside r = true ∧ a < ids.length) ∧
      ∀ r' n, m' r' n = true ↔ m r' n = true ∧ ¬(r' = r ∧ n = a) := by
  unfold clear
  by_cases h1 : a ∈ ids
  · rw [if_pos h1]
    by_cases h2 : inside r = true ∧ a < ids.length
    · rw [if_pos h2]
      constructor
      · intro h; cases h
        refine ⟨⟨h1, h2⟩, fun r' n => ?_⟩
        by_cases h3 : r' = r ∧ n = a <;> simp [h3]
      · rintro ⟨_, w⟩
        refine congrArg _ (funext fun r' => funext fun n => ?_)
        rw [Bool.eq_iff_iff, w]
        by_cases h3 : r' = r ∧ n = a <;> simp [h3]
    · rw [if_neg h2]
      constructor
      · intro h; cases h
      · rintro ⟨⟨_, h⟩, _⟩; exact absurd h h2
  · rw [if_neg h1]
    constructor
    · intro h; cases h
    · rintro ⟨⟨h, _⟩, _⟩; exact absurd h h1

/-- Exact characterisation of an initialisation that succeeds: it succeeds exactly when every advecting cluster of a handler with a visited point on its sink is in the list *and has an identifier smaller than the number of columns*, at an existing row; then entry `(r, n)` is false exactly when some handler that advects cluster `n` has its sink at a visited point of row `r`. -/
theorem build_iff (ids : List ℕ) (inside : ρ → Bool) (visits : List (ρ × P)) (hs : List (Handler P)) (m : Grid ρ) :
    build ids inside visits hs = .ok m ↔
      (∀ h ∈ hs, ∀ v ∈ visits, h.sink v.2 = true → ∀ a ∈ h.adv, a ∈ ids ∧ inside v.1 = true ∧ a < ids.length) ∧
      ∀ r n, m r n = true ↔ ∀ h ∈ hs, ∀ v ∈ visits, ¬(h.sink v.2 = true ∧ v.1 = r ∧ n ∈ h.adv) := by
  have hv : ∀ (h : Handler P) (m : Grid ρ) (v : ρ × P) (m' : Grid ρ), visit ids inside h m v = .ok m' ↔
      (h.sink v.2 = true → ∀ a ∈ h.adv, a ∈ ids ∧ inside v.1 = true ∧ a < ids.length) ∧
        ∀ r n, m' r n = true ↔ m r n = true ∧ ¬(h.sink v.2 = true ∧ v.1 = r ∧ n ∈ h.adv) := by
    intro h m v m'
    unfold visit
    by_cases hk : h.sink v.2 = true
    · rw [if_pos hk, foldlM_clears _ _ _ (clear_iff ids inside v.1) h.adv]
      simp only [hk, true_and, true_imp_iff]
      refine and_congr_right fun _ => forall_congr' fun r => forall_congr' fun n => ?_
      have : (∀ a ∈ h.adv, ¬(r = v.1 ∧ n = a)) ↔ ¬(v.1 = r ∧ n ∈ h.adv) := by
        constructor
        · rintro h1 ⟨rfl, h2⟩; exact h1 n h2 ⟨rfl, rfl⟩
        · rintro h1 a h2 ⟨rfl, rfl⟩; exact h1 ⟨rfl, h2⟩
      rw [this]
    · rw [if_neg hk]
      simp only [hk, false_and, not_false_eq_true, and_true, Bool.false_eq_true, false_imp_iff, true_and]
      constructor
      · intro h; cases h; simp
      · intro h; exact congrArg _ (funext fun r => funext fun n => (Bool.eq_iff_iff.mpr (h r n)).symm)
  unfold build
  rw [foldlM_clears _ (fun h => ∀ v ∈ visits, h.sink v.2 = true → ∀ a ∈ h.adv, a ∈ ids ∧ inside v.1 = true ∧ a < ids.length)
    (fun h r n => ∃ v ∈ visits, h.sink v.2 = true ∧ v.1 = r ∧ n ∈ h.adv)]
  · simp only [true_and, not_exists, not_and]
  · intro m h m'
    rw [foldlM_clears _ _ _ (hv h) visits]
    simp only [not_exists, not_and]

section

variable {K : Type*} [Field K] [LinearOrder K] [IsStrictOrderedRing K]

theorem mem_visits1 (grid : ℕ → K) (nx xs : ℕ) (v : ℕ × Pos K) : v ∈ visits1 grid nx xs ↔ v.1 < nx ∧ v.2 = ⟨depth grid (v.1 + xs), 0, 0⟩ := by
  unfold visits1
  rw [List.mem_map]
  constructor
  · rintro ⟨i, hi, rfl⟩; exact ⟨List.mem_range.mp hi, rfl⟩
  · rintro ⟨h1, h2⟩; exact ⟨v.1, List.mem_range.mpr h1, by rw [← h2]⟩

/-- The 1D mask after a successful initialisation: row `i` belongs to local point `i` (without ghost) and the column is the identifier of the cluster. -/
theorem mask1_spec (ids : List ℕ) (grid : ℕ → K) (nx xs : ℕ) (hs : List (Handler (Pos K))) (m : Grid ℕ)
    (hm : build ids (inside1 nx) (visits1 grid nx xs) hs = .ok m) (r n : ℕ) :
    m r n = false ↔ r < nx ∧ ∃ h ∈ hs, h.sink ⟨depth grid (r + xs), 0, 0⟩ = true ∧ n ∈ h.adv := by
  rw [← Bool.not_eq_true, ((build_iff _ _ _ _ _).mp hm).2 r n]
  constructor
  · intro h
    push Not at h
    obtain ⟨h, hh, v, hv, h1, h2, h3⟩ := h
    subst h2
    rw [mem_visits1] at hv
    exact ⟨hv.1, h, hh, hv.2 ▸ h1, h3⟩
  · rintro ⟨h0, h, hh, h1, h2⟩ hc
    exact hc h hh (r, ⟨depth grid (r + xs), 0, 0⟩) ((mem_visits1 _ _ _ _).mpr ⟨h0, rfl⟩) ⟨h1, rfl, h2⟩

/-- It never leaves the rows; it succeeds exactly when the advecting clusters met on sinks diffuse and have identifiers below the number of diffusing clusters. -/
theorem mask1_defined (ids : List ℕ) (grid : ℕ → K) (nx xs : ℕ) (hs : List (Handler (Pos K))) :
    (∃ m, build ids (inside1 nx) (visits1 grid nx xs) hs = .ok m) ↔
      ∀ h ∈ hs, (∃ i < nx, h.sink ⟨depth grid (i + xs), 0, 0⟩ = true) → ∀ a ∈ h.adv, a ∈ ids ∧ a < ids.length := by
  classical
  constructor
  · rintro ⟨m, hm⟩ h hh ⟨i, hi, hs'⟩ a ha
    obtain ⟨h1, _, h2⟩ := ((build_iff _ _ _ _ _).mp hm).1 h hh (i, ⟨depth grid (i + xs), 0, 0⟩) ((mem_visits1 _ _ _ _).mpr ⟨hi, rfl⟩) hs' a ha
    exact ⟨h1, h2⟩
  · intro h
    refine ⟨fun r n => decide (∀ h ∈ hs, ∀ v ∈ visits1 grid nx xs, ¬(h.sink v.2 = true ∧ v.1 = r ∧ n ∈ h.adv)),
      (build_iff _ _ _ _ _).mpr ⟨fun k hk v hv hs' a ha => ?_, fun r n => by rw [decide_eq_true_iff]⟩⟩
    obtain ⟨h1, h2⟩ := (mem_visits1 _ _ _ _).mp hv
    obtain ⟨h3, h4⟩ := h k hk ⟨v.1, h1, h2 ▸ hs'⟩ a ha
    exact ⟨h3, by unfold inside1; rw [decide_eq_true_iff]; omega, h4⟩

/-- What can be said about the claim in 1D: when the diffusing clusters are exactly `0, …, N-1`, initialisation succeeds for all handlers that advect diffusing clusters, and the mask used for the *left neighbour* of local point `ix` (row `ix`) is cleared for exactly the advecting clusters when grid point `xs + ix` is on the sink.  Missing from the full claim: clusters whose position in the list differs from their identifier, and the row of the point itself, see `mask1_shifted`. -/
theorem mask1_partial (N : ℕ) (grid : ℕ → K) (nx xs : ℕ) (hs : List (Handler (Pos K))) (hadv : ∀ h ∈ hs, ∀ a ∈ h.adv, a < N) :
    ∃ m, build (List.range N) (inside1 nx) (visits1 grid nx xs) hs = .ok m ∧
      ∀ ix < nx, ∀ n < N, m (rows1 ix).2.1 n = false ↔ ∃ h ∈ hs, h.sink ⟨depth grid (ix + xs), 0, 0⟩ = true ∧ (List.range N)[n]! ∈ h.adv := by
  obtain ⟨m, hm⟩ := (mask1_defined (List.range N) grid nx xs hs).mpr (fun h hh _ a ha => by
    have := hadv h hh a ha
    simpa using this)
  refine ⟨m, hm, fun ix hix n hn => ?_⟩
  rw [show (rows1 ix).2.1 = ix from rfl, mask1_spec _ _ _ _ _ _ hm]
  simp [hix, hn]

/-- The row used for a point itself belongs to the next point: local point `ix` is switched off exactly when the point to its right is on a sink (and is inside the local part).  This contradicts the claim. -/
theorem mask1_shifted (ids : List ℕ) (grid : ℕ → K) (nx xs : ℕ) (hs : List (Handler (Pos K))) (m : Grid ℕ)
    (hm : build ids (inside1 nx) (visits1 grid nx xs) hs = .ok m) (ix n : ℕ) :
    m (rows1 ix).1 n = false ↔ ix + 1 < nx ∧ ∃ h ∈ hs, h.sink ⟨depth grid (ix + 1 + xs), 0, 0⟩ = true ∧ n ∈ h.adv :=
  mask1_spec ids grid nx xs hs m hm (ix + 1) n

theorem mem_visits2 (grid : ℕ → K) (nx xs ny ys : ℕ) (hy : K) (v : (ℕ × ℕ) × Pos K) :
    v ∈ visits2 grid nx xs ny ys hy ↔ v.1.1 < ny + 2 ∧ v.1.2 < nx ∧ v.2 = ⟨depth grid (v.1.2 + xs), hy * ((v.1.1 : K) + ys - 1), 0⟩ := by
  unfold visits2
  rw [List.mem_flatMap]
  constructor
  · rintro ⟨j, hj, hv⟩
    obtain ⟨i, hi, rfl⟩ := List.mem_map.mp hv
    exact ⟨List.mem_range.mp hj, List.mem_range.mp hi, rfl⟩
  · rintro ⟨h1, h2, h3⟩
    exact ⟨v.1.1, List.mem_range.mpr h1, List.mem_map.mpr ⟨v.1.2, List.mem_range.mpr h2, by rw [← h3]⟩⟩

/-- The 2D mask after a successful initialisation. -/
theorem mask2_spec (ids : List ℕ) (grid : ℕ → K) (nx xs ny ys : ℕ) (hy : K) (hs : List (Handler (Pos K))) (m : Grid (ℕ × ℕ))
    (hm : build ids (inside2 nx ny) (visits2 grid nx xs ny ys hy) hs = .ok m) (j i n : ℕ) :
    m (j, i) n = false ↔ j < ny + 2 ∧ i < nx ∧
      ∃ h ∈ hs, h.sink ⟨depth grid (i + xs), hy * ((j : K) + ys - 1), 0⟩ = true ∧ n ∈ h.adv := by
  rw [← Bool.not_eq_true, ((build_iff _ _ _ _ _).mp hm).2 (j, i) n]
  constructor
  · intro h
    push Not at h
    obtain ⟨h, hh, v, hv, h1, h2, h3⟩ := h
    rw [mem_visits2] at hv
    obtain ⟨a1, a2, a3⟩ := hv
    rw [h2] at a1 a2 a3
    exact ⟨a1, a2, h, hh, a3 ▸ h1, h3⟩
  · rintro ⟨h0, h0', h, hh, h1, h2⟩ hc
    exact hc h hh ((j, i), ⟨depth grid (i + xs), hy * ((j : K) + ys - 1), 0⟩) ((mem_visits2 _ _ _ _ _ _ _).mpr ⟨h0, h0', rfl⟩) ⟨h1, rfl, h2⟩

/-- A sink that is a plane of constant `y`: the mask of the middle point `(iy, ix)` is right for all columns of points except the last local one (`ix = nx - 1`), and the one of the neighbours above and below as well.  In particular the row `iy + 1` read for point `iy` is the one set from the position of point `iy`. -/
theorem mask2_yplane_partial (ids : List ℕ) (grid : ℕ → K) (nx xs ny ys : ℕ) (hy : K) (on : K → Bool) (adv : List ℕ) (m : Grid (ℕ × ℕ))
    (hm : build ids (inside2 nx ny) (visits2 grid nx xs ny ys hy) [⟨fun p => on p.y, adv⟩] = .ok m)
    (iy ix n : ℕ) (hy' : iy < ny) (hx : ix + 1 < nx) :
    (m (iy + 1, ix + 1) n = false ↔ on (hy * ((iy : K) + ys)) = true ∧ n ∈ adv) ∧
    (m (iy, ix + 1) n = false ↔ on (hy * ((iy : K) + ys - 1)) = true ∧ n ∈ adv) ∧
    (m (iy + 2, ix + 1) n = false ↔ on (hy * ((iy : K) + ys + 1)) = true ∧ n ∈ adv) := by
  have e1 : ((iy + 1 : ℕ) : K) + ys - 1 = iy + ys := by push_cast; ring
  have e2 : ((iy + 2 : ℕ) : K) + ys - 1 = iy + ys + 1 := by push_cast; ring
  refine ⟨?_, ?_, ?_⟩ <;> rw [mask2_spec _ _ _ _ _ _ _ _ _ hm]
  · rw [e1]; simp only [List.mem_singleton, exists_eq_left]
    exact ⟨fun h => h.2.2, fun h => ⟨by omega, by omega, h⟩⟩
  · simp only [List.mem_singleton, exists_eq_left]
    exact ⟨fun h => h.2.2, fun h => ⟨by omega, by omega, h⟩⟩
  · rw [e2]; simp only [List.mem_singleton, exists_eq_left]
    exact ⟨fun h => h.2.2, fun h => ⟨by omega, by omega, h⟩⟩

/-- In the last local column the mask of a point is never cleared, sink or not. -/
theorem mask2_last_column (ids : List ℕ) (grid : ℕ → K) (nx xs ny ys : ℕ) (hy : K) (hs : List (Handler (Pos K))) (m : Grid (ℕ × ℕ))
    (hm : build ids (inside2 nx ny) (visits2 grid nx xs ny ys hy) hs = .ok m) (hnx : 0 < nx) (j n : ℕ) :
    m (j, (nx - 1) + 1) n = true := by
  rw [← Bool.not_eq_false, mask2_spec _ _ _ _ _ _ _ _ _ hm]
  rintro ⟨_, h, _⟩; omega

theorem mem_visits3 (grid : ℕ → K) (nx xs ny ys nz zs : ℕ) (hy hz : K) (v : (ℕ × ℕ × ℕ) × Pos K) :
    v ∈ visits3 grid nx xs ny ys nz zs hy hz ↔ v.1.1 < nz + 2 ∧ v.1.2.1 < ny + 2 ∧ v.1.2.2 < nx ∧
      v.2 = ⟨depth grid (v.1.2.2 + xs), hy * ((v.1.2.1 : K) + ys - 1), hz * ((v.1.1 : K) + zs - 1)⟩ := by
  unfold visits3
  rw [List.mem_flatMap]
  constructor
  · rintro ⟨k, hk, hv⟩
    obtain ⟨j, hj, hv⟩ := List.mem_flatMap.mp hv
    obtain ⟨i, hi, rfl⟩ := List.mem_map.mp hv
    exact ⟨List.mem_range.mp hk, List.mem_range.mp hj, List.mem_range.mp hi, rfl⟩
  · rintro ⟨h0, h1, h2, h3⟩
    exact ⟨v.1.1, List.mem_range.mpr h0, List.mem_flatMap.mpr ⟨v.1.2.1, List.mem_range.mpr h1, List.mem_map.mpr ⟨v.1.2.2, List.mem_range.mpr h2, by rw [← h3]⟩⟩⟩

/-- The 3D mask after a successful initialisation. -/
theorem mask3_spec (ids : List ℕ) (grid : ℕ → K) (nx xs ny ys nz zs : ℕ) (hy hz : K) (hs : List (Handler (Pos K))) (m : Grid (ℕ × ℕ × ℕ))
    (hm : build ids (inside3 nx ny nz) (visits3 grid nx xs ny ys nz zs hy hz) hs = .ok m) (k j i n : ℕ) :
    m (k, j, i) n = false ↔ k < nz + 2 ∧ j < ny + 2 ∧ i < nx ∧
      ∃ h ∈ hs, h.sink ⟨depth grid (i + xs), hy * ((j : K) + ys - 1), hz * ((k : K) + zs - 1)⟩ = true ∧ n ∈ h.adv := by
  rw [← Bool.not_eq_true, ((build_iff _ _ _ _ _).mp hm).2 (k, j, i) n]
  constructor
  · intro h
    push Not at h
    obtain ⟨h, hh, v, hv, h1, h2, h3⟩ := h
    rw [mem_visits3] at hv
    obtain ⟨a0, a1, a2, a3⟩ := hv
    rw [h2] at a0 a1 a2 a3
    exact ⟨a0, a1, a2, h, hh, a3 ▸ h1, h3⟩
  · rintro ⟨h0, h0', h0'', h, hh, h1, h2⟩ hc
    exact hc h hh ((k, j, i), _) ((mem_visits3 _ _ _ _ _ _ _ _ _ _).mpr ⟨h0, h0', h0'', rfl⟩) ⟨h1, rfl, h2⟩

end

/-! ### Witnesses -/

/-- A grain boundary at depth `loc`, as `XGBAdvectionHandler::isPointOnSink` sees it.  xolotl/core/include/xolotl/core/advection/XGBAdvectionHandler.h:92-97. -/
def xgb (loc : ℚ) (adv : List ℕ) : Handler (Pos ℚ) := ⟨fun p => decide (|loc - p.x| < 1 / 1000), adv⟩

/-- A grain boundary at height `loc`.  xolotl/core/include/xolotl/core/advection/YGBAdvectionHandler.h:92-97. -/
def ygb (loc : ℚ) (adv : List ℕ) : Handler (Pos ℚ) := ⟨fun p => decide (|loc - p.y| < 1 / 1000), adv⟩

/-- The uniform grid `-1, 0, 1, …` of the solver with spacing 1. -/
def uniform (i : ℕ) : ℚ := (i : ℚ) - 1

/-- Grid point 3 is at depth 5/2. -/
example : depth uniform 3 = 5 / 2 := by norm_num [depth, uniform]

/-- On a grid of five points with a boundary on point 3 and one diffusing cluster, the mask at point 3 stays set and the one at point 2 is cleared. -/
theorem mask1_wrong_point :
    ∃ m, build [0] (inside1 5) (visits1 uniform 5 0) [xgb (5 / 2) [0]] = .ok m ∧
      (xgb (5 / 2) [0]).sink ⟨depth uniform 3, 0, 0⟩ = true ∧ m (rows1 3).1 0 = true ∧
      (xgb (5 / 2) [0]).sink ⟨depth uniform 2, 0, 0⟩ = false ∧ m (rows1 2).1 0 = false := by
  obtain ⟨m, hm⟩ := (mask1_defined [0] uniform 5 0 [xgb (5 / 2) [0]]).mpr (by simp [xgb])
  refine ⟨m, hm, by decide +kernel, ?_, by decide +kernel, ?_⟩
  · rw [← Bool.not_eq_false, mask1_shifted _ _ _ _ _ _ hm]
    simp only [List.mem_singleton, exists_eq_left]
    decide +kernel
  · rw [mask1_shifted _ _ _ _ _ _ hm]
    simp only [List.mem_singleton, exists_eq_left]
    decide +kernel

/-- With the diffusing clusters `[1, 2, 5]`, clearing cluster 1 clears column 1, the column of cluster 2. -/
theorem mask1_wrong_column :
    ∃ m, build [1, 2, 5] (inside1 5) (visits1 uniform 5 0) [xgb (5 / 2) [1]] = .ok m ∧ m 3 0 = true ∧ m 3 1 = false := by
  obtain ⟨m, hm⟩ := (mask1_defined [1, 2, 5] uniform 5 0 [xgb (5 / 2) [1]]).mpr (by simp [xgb])
  refine ⟨m, hm, ?_, ?_⟩
  · rw [← Bool.not_eq_false, mask1_spec _ _ _ _ _ _ hm]; simp only [List.mem_singleton, exists_eq_left]; decide +kernel
  · rw [mask1_spec _ _ _ _ _ _ hm]; simp only [List.mem_singleton, exists_eq_left]; decide +kernel

/-- A diffusing and advecting cluster whose identifier is not below the number of diffusing clusters is written outside the row. -/
theorem mask1_out_of_bounds : build [5] (inside1 5) (visits1 uniform 5 0) [xgb (5 / 2) [5]] = .error .outOfBounds := by
  cases h : build [5] (inside1 5) (visits1 uniform 5 0) [xgb (5 / 2) [5]] with
  | ok m => exact absurd ((mask1_defined _ _ _ _ _).mp ⟨m, h⟩ (xgb (5 / 2) [5]) (by simp) ⟨3, by norm_num, by decide +kernel⟩ 5 (by simp [xgb])) (by decide)
  | error e =>
    cases e with
    | outOfBounds => rfl
    | thrown =>
      exfalso
      have : (match build [5] (inside1 5) (visits1 uniform 5 0) [xgb (5 / 2) [5]] with | .error .thrown => true | _ => false) = true := by rw [h]
      revert this; decide +kernel

/-- The mask of surface advection with a grain boundary of constant `y`: the point `i = nx + 1` writes row `nx + 2`, one past the end.  This happens for every grid and every cluster that both handlers advect, whenever the boundary passes through a point of the local grid. -/
theorem adv_out_of_bounds {K : Type*} [Field K] [LinearOrder K] [IsStrictOrderedRing K]
    (ids : List ℕ) (grid : ℕ → K) (size nx xs ny ys nz zs : ℕ) (hy hz : K) (on : K → Bool) (a : ℕ) (adv : List ℕ) (ha : a ∈ adv)
    (j : ℕ) (hj : j < ny + 2) (hon : on (hy * ((j : K) + ys - 1)) = true) (hs : List (Handler (Pos K)))
    (hh : (⟨fun p => on p.y, adv⟩ : Handler (Pos K)) ∈ hs) :
    ∀ m, buildAdv ids grid size nx xs ny ys nz zs hy hz hs ≠ .ok m := by
  intro m hm
  unfold buildAdv at hm
  rw [if_neg (List.ne_nil_of_mem hh)] at hm
  unfold visitsAdv at hm
  by_cases hd : ∀ i < nx + 2, (advDepth grid size nx xs i).isSome = true
  · rw [if_pos hd] at hm
    have hm' := ((build_iff _ _ _ _ _).mp hm).1 _ hh
      ((0, j, nx + 1 + 1), ⟨(advDepth grid size nx xs (nx + 1)).getD 0, hy * ((j : K) + ys - 1), hz * (((0 : ℕ) : K) + zs - 1)⟩)
      (List.mem_flatMap.mpr ⟨0, List.mem_range.mpr (by omega), List.mem_flatMap.mpr ⟨j, List.mem_range.mpr hj,
        List.mem_map.mpr ⟨nx + 1, List.mem_range.mpr (by omega), rfl⟩⟩⟩) hon a ha
    have := hm'.2.1
    unfold inside3 at this
    rw [decide_eq_true_iff] at this
    dsimp only at this
    omega
  · rw [if_neg hd] at hm; cases hm

example : ∀ m, buildAdv [0] uniform 7 5 0 1 0 0 0 (1 / 2 : ℚ) 0 [ygb 0 [0]] ≠ .ok m :=
  adv_out_of_bounds [0] uniform 7 5 0 1 0 0 0 (1 / 2) 0 (fun y => decide (|(0 : ℚ) - y| < 1 / 1000)) 0 [0] (by simp) 1 (by norm_num)
    (by decide +kernel) [ygb 0 [0]] (by simp [ygb])

/-- On several processes the positions themselves cannot be computed on the last one: the special case compares `i + xs` with the local size, so `grid[nX + 2]` is read, one past the end of a grid of `nX + 2` points. -/
theorem adv_grid_overrun {K : Type*} [Field K] [LinearOrder K] [IsStrictOrderedRing K]
    (ids : List ℕ) (grid : ℕ → K) (nx xs ny ys nz zs : ℕ) (hy hz : K) (hxs : 0 < xs) (h : Handler (Pos K)) (hs : List (Handler (Pos K))) :
    buildAdv ids grid (xs + nx + 2) nx xs ny ys nz zs hy hz (h :: hs) = .error .outOfBounds := by
  unfold buildAdv
  rw [if_neg (by simp)]
  unfold visitsAdv
  rw [if_neg]
  intro hd
  have := hd (nx + 1) (by omega)
  unfold advDepth at this
  rw [if_neg (by omega), if_neg (by omega)] at this
  simp at this

example : buildAdv [0] uniform (3 + 5 + 2) 5 3 0 0 0 0 (0 : ℚ) 0 [⟨fun _ => false, [0]⟩] = .error .outOfBounds :=
  adv_grid_overrun [0] uniform 5 3 0 0 0 0 0 0 (by norm_num) _ _

/-- Where it does succeed (one process, boundaries that miss the ghost columns), the advection mask is aligned with its use: the entry read for the middle of local point `ix` is cleared exactly when that point is on a sink of a handler advecting the cluster in that column. -/
theorem adv_aligned {K : Type*} [Field K] [LinearOrder K] [IsStrictOrderedRing K]
    (ids : List ℕ) (grid : ℕ → K) (size nx xs ny ys nz zs : ℕ) (hy hz : K) (hs : List (Handler (Pos K))) (m : Grid (ℕ × ℕ × ℕ))
    (hm : buildAdv ids grid size nx xs ny ys nz zs hy hz hs = .ok m) (iz iy ix n : ℕ) (h1 : iz ≤ nz) (h2 : iy ≤ ny) (h3 : ix < nx) (hx : ix + xs ≠ nx + 1) :
    m (iz + 1, iy + 1, ix + 1) n = false ↔
      ∃ h ∈ hs, h.sink ⟨(grid (ix + xs) + grid (ix + xs + 1)) / 2, hy * ((iy : K) + ys), hz * ((iz : K) + zs)⟩ = true ∧ n ∈ h.adv := by
  unfold buildAdv at hm
  by_cases he : hs = []
  · subst he; rw [if_pos rfl] at hm; cases hm; simp
  rw [if_neg he] at hm
  unfold visitsAdv at hm
  by_cases hd : ∀ i < nx + 2, (advDepth grid size nx xs i).isSome = true
  · rw [if_pos hd] at hm
    have hp : ∀ i, i < nx → i + xs ≠ nx + 1 → (advDepth grid size nx xs i).getD 0 = (grid (i + xs) + grid (i + xs + 1)) / 2 := by
      intro i hi hne
      have := hd i (by omega)
      unfold advDepth at this ⊢
      rw [if_neg hne] at this ⊢
      by_cases hq : i + xs + 1 < size
      · rw [if_pos hq]; rfl
      · rw [if_neg hq] at this; simp at this
    have ey : ((iy + 1 : ℕ) : K) + ys - 1 = iy + ys := by push_cast; ring
    have ez : ((iz + 1 : ℕ) : K) + zs - 1 = iz + zs := by push_cast; ring
    rw [← Bool.not_eq_true, ((build_iff _ _ _ _ _).mp hm).2]
    constructor
    · intro h
      push Not at h
      obtain ⟨h, hh, v, hv, k1, k2, k3⟩ := h
      obtain ⟨k, hk, hv⟩ := List.mem_flatMap.mp hv
      obtain ⟨j, hj, hv⟩ := List.mem_flatMap.mp hv
      obtain ⟨i, hi, rfl⟩ := List.mem_map.mp hv
      simp only [Prod.mk.injEq, Nat.add_right_cancel_iff] at k2
      obtain ⟨rfl, rfl, rfl⟩ := k2
      rw [ey, ez, hp i h3 hx] at k1
      exact ⟨h, hh, k1, k3⟩
    · rintro ⟨h, hh, k1, k2⟩ hc
      refine hc h hh ((iz + 1, iy + 1, ix + 1), ⟨(advDepth grid size nx xs ix).getD 0, hy * (((iy + 1 : ℕ) : K) + ys - 1), hz * (((iz + 1 : ℕ) : K) + zs - 1)⟩)
        (List.mem_flatMap.mpr ⟨iz + 1, List.mem_range.mpr (by omega), List.mem_flatMap.mpr ⟨iy + 1, List.mem_range.mpr (by omega),
          List.mem_map.mpr ⟨ix, List.mem_range.mpr (by omega), rfl⟩⟩⟩) ⟨?_, rfl, k2⟩
      rw [ey, ez, hp ix h3 hx]; exact k1
  · rw [if_neg hd] at hm; cases hm

example : ∃ m, buildAdv [0] uniform 7 5 0 0 0 0 0 (0 : ℚ) 0 [xgb (5 / 2) [0]] = .ok m := by
  have hv : (visitsAdv uniform 7 5 0 0 0 0 0 (0 : ℚ) 0).isSome = true := by decide +kernel
  obtain ⟨v, hv⟩ := Option.isSome_iff_exists.mp hv
  have hall : ∀ w ∈ (visitsAdv uniform 7 5 0 0 0 0 0 (0 : ℚ) 0).getD [], (xgb (5 / 2) [0]).sink w.2 = true → inside3 5 0 0 w.1 = true := by decide +kernel
  rw [hv] at hall
  refine ⟨fun r n => @decide (∀ h ∈ [xgb (5 / 2) [0]], ∀ w ∈ v, ¬(h.sink w.2 = true ∧ w.1 = r ∧ n ∈ h.adv)) (Classical.propDecidable _), ?_⟩
  unfold buildAdv
  rw [if_neg (by simp), hv]
  refine (build_iff _ _ _ _ _).mpr ⟨?_, fun r n => @decide_eq_true_iff _ (Classical.propDecidable _)⟩
  intro h hh w hw hs a ha
  rw [List.mem_singleton] at hh; subst hh
  simp only [xgb, List.mem_singleton] at ha; subst ha
  exact ⟨by simp, hall w hw hs, by simp⟩

/-! ## The rows that are read -/

/-- **C27, rows in 1D.** The rows of the mask are exactly those read from the local points; the first one read is the middle, the others are its two neighbours, left before right. -/
theorem rows1_exact (nx : ℕ) (hx : 0 < nx) :
    (∀ r, inside1 nx r = true ↔ ∃ ix < nx, r = (rows1 ix).1 ∨ r = (rows1 ix).2.1 ∨ r = (rows1 ix).2.2) ∧
    ∀ ix, (rows1 ix).2.1 + 1 = (rows1 ix).1 ∧ (rows1 ix).1 + 1 = (rows1 ix).2.2 ∧ (rows1 ix).1 = ix + 1 := by
  refine ⟨fun r => ?_, fun ix => ⟨rfl, rfl, rfl⟩⟩
  simp only [inside1, rows1, decide_eq_true_eq]
  constructor
  · intro h
    by_cases c : r = 0
    · exact ⟨0, hx, by omega⟩
    · by_cases d : r = nx + 1
      · exact ⟨nx - 1, by omega, by omega⟩
      · exact ⟨r - 1, by omega, by omega⟩
  · rintro ⟨ix, h, (q | q | q)⟩ <;> omega

/-- **C27, rows in 2D.** The rows read from the local points are those of the mask without its corners; the five rows of a point are the middle and the neighbours at distance one, left and right along the last axis, bottom and top along the first. -/
theorem rows2_exact (nx ny : ℕ) (hx : 0 < nx) (hy : 0 < ny) :
    (∀ r, (∃ iy < ny, ∃ ix < nx, r ∈ rows2 iy ix) ↔ inside2 nx ny r = true ∧ ((1 ≤ r.1 ∧ r.1 ≤ ny) ∨ (1 ≤ r.2 ∧ r.2 ≤ nx))) ∧
    ∀ iy ix, ∃ m, rows2 iy ix = [(iy + 1, ix + 1), (m.1, m.2 - 1), (m.1, m.2 + 1), (m.1 - 1, m.2), (m.1 + 1, m.2)] ∧ m = (iy + 1, ix + 1) := by
  refine ⟨fun r => ?_, fun iy ix => ⟨_, rfl, rfl⟩⟩
  obtain ⟨a, b⟩ := r
  simp only [inside2, rows2, decide_eq_true_eq, List.mem_cons, Prod.mk.injEq, List.not_mem_nil, or_false]
  constructor
  · rintro ⟨iy, h1, ix, h2, (q | q | q | q | q)⟩ <;> omega
  · rintro ⟨⟨h1, h2⟩, (h | h)⟩
    · by_cases c : b = 0
      · exact ⟨a - 1, by omega, 0, hx, by omega⟩
      · by_cases d : b = nx + 1
        · exact ⟨a - 1, by omega, nx - 1, by omega, by omega⟩
        · exact ⟨a - 1, by omega, b - 1, by omega, by omega⟩
    · by_cases c : a = 0
      · exact ⟨0, hy, b - 1, by omega, by omega⟩
      · by_cases d : a = ny + 1
        · exact ⟨ny - 1, by omega, b - 1, by omega, by omega⟩
        · exact ⟨a - 1, by omega, b - 1, by omega, by omega⟩

theorem rim (n x : ℕ) (hn : 0 < n) (h : x < n + 2) :
    ∃ i < n, (x = i + 1 ∧ 1 ≤ x ∧ x ≤ n) ∨ ((x = i ∨ x = i + 2) ∧ ¬ (1 ≤ x ∧ x ≤ n)) := by
  by_cases c : x = 0
  · exact ⟨0, hn, by omega⟩
  · by_cases d : x = n + 1
    · exact ⟨n - 1, by omega, by omega⟩
    · exact ⟨x - 1, by omega, by omega⟩

theorem two_of_three {A B C : Prop} (h : (A ∧ B) ∨ (A ∧ C) ∨ (B ∧ C)) : (¬ A → B ∧ C) ∧ (¬ B → A ∧ C) ∧ (¬ C → A ∧ B) := by
  tauto

/-- **C27, rows in 3D.** The same with the seven rows of a point: those read are the rows of the mask with at most one coordinate at the rim. -/
theorem rows3_exact (nx ny nz : ℕ) (hx : 0 < nx) (hy : 0 < ny) (hz : 0 < nz) :
    (∀ r, (∃ iz < nz, ∃ iy < ny, ∃ ix < nx, r ∈ rows3 iz iy ix) ↔ inside3 nx ny nz r = true ∧
      (((1 ≤ r.1 ∧ r.1 ≤ nz) ∧ (1 ≤ r.2.1 ∧ r.2.1 ≤ ny)) ∨ ((1 ≤ r.1 ∧ r.1 ≤ nz) ∧ (1 ≤ r.2.2 ∧ r.2.2 ≤ nx)) ∨
        ((1 ≤ r.2.1 ∧ r.2.1 ≤ ny) ∧ (1 ≤ r.2.2 ∧ r.2.2 ≤ nx)))) ∧
    ∀ iz iy ix, ∃ m, rows3 iz iy ix = [m, (m.1, m.2.1, m.2.2 - 1), (m.1, m.2.1, m.2.2 + 1), (m.1, m.2.1 - 1, m.2.2), (m.1, m.2.1 + 1, m.2.2),
      (m.1 - 1, m.2.1, m.2.2), (m.1 + 1, m.2.1, m.2.2)] ∧ m = (iz + 1, iy + 1, ix + 1) := by
  refine ⟨fun r => ?_, fun iz iy ix => ⟨_, rfl, rfl⟩⟩
  obtain ⟨a, b, c⟩ := r
  simp only [inside3, rows3, decide_eq_true_eq, List.mem_cons, Prod.mk.injEq, List.not_mem_nil, or_false]
  constructor
  · rintro ⟨iz, h0, iy, h1, ix, h2, (q | q | q | q | q | q | q)⟩ <;> omega
  · rintro ⟨⟨h1, h2, h3⟩, h⟩
    obtain ⟨iz, ha, qa⟩ := rim nz a hz h1
    obtain ⟨iy, hb, qb⟩ := rim ny b hy h2
    obtain ⟨ix, hc, qc⟩ := rim nx c hx h3
    refine ⟨iz, ha, iy, hb, ix, hc, ?_⟩
    obtain ⟨b1, b2, b3⟩ := two_of_three h
    rcases qa with ⟨qa, _⟩ | ⟨qa, ra⟩
    · rcases qb with ⟨qb, _⟩ | ⟨qb, rb⟩
      · rcases qc with ⟨qc, _⟩ | ⟨qc | qc, rc⟩
        · exact .inl ⟨qa, qb, qc⟩
        · exact .inr (.inl ⟨qa, qb, qc⟩)
        · exact .inr (.inr (.inl ⟨qa, qb, qc⟩))
      · rcases qc with ⟨qc, _⟩ | ⟨_, rc⟩
        · rcases qb with qb | qb
          · exact .inr (.inr (.inr (.inl ⟨qa, qb, qc⟩)))
          · exact .inr (.inr (.inr (.inr (.inl ⟨qa, qb, qc⟩))))
        · exact absurd (b3 rc).2 rb
    · rcases qb with ⟨qb, _⟩ | ⟨_, rb⟩
      · rcases qc with ⟨qc, _⟩ | ⟨_, rc⟩
        · rcases qa with qa | qa
          · exact .inr (.inr (.inr (.inr (.inr (.inl ⟨qa, qb, qc⟩)))))
          · exact .inr (.inr (.inr (.inr (.inr (.inr ⟨qa, qb, qc⟩)))))
        · exact absurd (b3 rc).1 ra
      · exact absurd (b1 ra).1 rb

/-- **C27, depth in the advection mask.** On a uniform grid the middle of the cell, also for the last point, where the width of the cell before is used. -/
theorem advDepth_uniform {K : Type*} [Field K] [LinearOrder K] [IsStrictOrderedRing K] (h : K) (size nx xs i : ℕ)
    (hs : i + xs + 1 < size) : advDepth (fun n : ℕ => (n : K) * h) size nx xs i = some (((i + xs : ℕ) + 1 / 2 : K) * h) := by
  unfold advDepth
  rw [if_pos (show i + xs < size by omega), if_pos hs]
  split_ifs with c
  · have : ((i + xs - 1 : ℕ) : K) = (i + xs : ℕ) - 1 := by
      rw [Nat.cast_sub (by omega)]; simp
    dsimp only
    rw [this]
    congr 1
    ring
  · congr 1
    dsimp only
    push_cast
    ring

/-- The last point needs one grid value less. -/
theorem advDepth_defined {K : Type*} [Field K] [LinearOrder K] [IsStrictOrderedRing K] (grid : ℕ → K) (size nx xs i : ℕ) :
    (advDepth grid size nx xs i).isSome ↔ (if i + xs = nx + 1 then nx + 2 else i + xs + 2) ≤ size := by
  unfold advDepth
  split_ifs <;> simp <;> omega

end Xolotl.Transport.Mask
