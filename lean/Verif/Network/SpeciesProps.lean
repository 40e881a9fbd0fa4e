import Verif.Network.Species
import Mathlib.Data.List.Basic
import Mathlib.Data.Int.Basic
import Mathlib.Tactic.NormNum
import Mathlib.Algebra.Ring.Int.Defs

/-!
# Properties of species lists
-/

namespace Xolotl.Network.Species

/-- A loop that ends visits consecutive values. -/
theorem visits_iff {stop c : ℤ} {l : List ℤ} : Visits stop c l ↔ c ≤ stop ∧ l = (List.range (stop - c).toNat).map (fun i : ℕ => c + (i : ℤ)) := by
  constructor
  · intro h
    induction h with
    | done => simp
    | @next c l hne _ ih =>
      obtain ⟨h1, h2⟩ := ih
      refine ⟨by omega, ?_⟩
      have e : (stop - c).toNat = (stop - (c + 1)).toNat + 1 := by omega
      rw [e, List.range_succ_eq_map, List.map_cons, List.map_map, h2]
      simp only [Int.natCast_zero, add_zero, List.cons.injEq, true_and]
      refine List.map_congr_left fun i _ => ?_
      simp only [Function.comp]
      omega
  · rintro ⟨h, rfl⟩
    obtain ⟨k, hk⟩ : ∃ k : ℕ, k = (stop - c).toNat := ⟨_, rfl⟩
    rw [← hk]
    induction k generalizing c with
    | zero =>
      have : c = stop := by omega
      subst this
      exact .done
    | succ k ih =>
      have := ih (c := c + 1) (by omega) (by omega)
      rw [List.range_succ_eq_map, List.map_cons, List.map_map]
      have e : ((fun i : ℕ => c + (i : ℤ)) ∘ Nat.succ) = fun i : ℕ => c + 1 + (i : ℤ) := by
        funext i
        simp only [Function.comp]
        omega
      rw [e]
      simp only [Int.natCast_zero, add_zero]
      exact .next (by omega) this

/-- **A loop over a range** from `a` to `b` visits exactly the values from `a` to `b`, each once, in increasing order. -/
theorem loop_range {a b : ℤ} (h : a ≤ b + 1) : ∃ l, Loop a b l ∧ (∀ l', Loop a b l' → l' = l) ∧ l.Pairwise (· < ·) ∧ ∀ s, s ∈ l ↔ a ≤ s ∧ s ≤ b := by
  refine ⟨_, visits_iff.2 ⟨h, rfl⟩, fun l' hl => (visits_iff.1 hl).2, ?_, fun s => ?_⟩
  · rw [List.pairwise_map]
    refine List.Pairwise.imp (fun h => by omega) List.pairwise_lt_range
  · simp only [List.mem_map, List.mem_range]
    constructor
    · rintro ⟨i, hi, rfl⟩
      omega
    · rintro ⟨h1, h2⟩
      exact ⟨(s - a).toNat, by omega, by omega⟩

/-- A loop whose first value is beyond the end never meets its end. -/
theorem loop_endless {a b : ℤ} (h : b + 1 < a) (l : List ℤ) : ¬ Loop a b l := fun hl => by
  have := (visits_iff.1 hl).1
  omega

/-- **The range of all species** visits each species once, in increasing order, for every length of the list. -/
theorem all_species (sl : SpeciesList) : ∃ l, Loop first sl.last l ∧ (∀ l', Loop first sl.last l' → l' = l) ∧ l.Pairwise (· < ·) ∧
    l.length = sl.N ∧ ∀ s, s ∈ l ↔ 0 ≤ s ∧ s < sl.N := by
  have hf : first ≤ sl.last + 1 := by simp only [first, SpeciesList.last]; omega
  obtain ⟨l, h1, h2, h3, h4⟩ := loop_range hf
  refine ⟨l, h1, h2, h3, ?_, fun s => ?_⟩
  · rw [(visits_iff.1 h1).2]
    simp only [List.length_map, List.length_range, first, SpeciesList.last]
    omega
  · rw [h4]
    simp only [first, SpeciesList.last]
    omega

/-- **The range without interstitials** visits the species up to and including the first vacancy species, `sizeNoI` of them. -/
theorem noI_species (sl : SpeciesList) (hi : 0 < sl.nI) (hv : 0 < sl.nV) (hn : sl.nI + sl.nV ≤ sl.N) :
    ∃ l, Loop first sl.lastNoI l ∧ (∀ l', Loop first sl.lastNoI l' → l' = l) ∧ l.Pairwise (· < ·) ∧ l.length = sl.sizeNoI ∧
      ∀ s, s ∈ l ↔ 0 ≤ s ∧ s ≤ (sl.N : ℤ) - sl.nI - sl.nV := by
  have e : sl.lastNoI = (sl.N : ℤ) - sl.nI - sl.nV := by
    unfold SpeciesList.lastNoI SpeciesList.last
    rw [if_pos hi]
    omega
  have hf : first ≤ sl.lastNoI + 1 := by rw [e]; simp only [first]; omega
  obtain ⟨l, h1, h2, h3, h4⟩ := loop_range hf
  refine ⟨l, h1, h2, h3, ?_, fun s => by rw [h4, e]; rfl⟩
  rw [(visits_iff.1 h1).2, e]
  simp only [List.length_map, List.length_range, first, SpeciesList.sizeNoI, hv, if_true]
  omega

/-- It visits exactly the species that are not interstitials if and only if there is a single vacancy species. -/
theorem noI_exact_iff (sl : SpeciesList) (hi : 0 < sl.nI) (hv : 0 < sl.nV) (hn : sl.nI + sl.nV ≤ sl.N) {l : List ℤ} (hl : Loop first sl.lastNoI l) :
    (∀ s, s ∈ l ↔ 0 ≤ s ∧ s < (sl.N : ℤ) - sl.nI) ↔ sl.nV = 1 := by
  obtain ⟨l', -, h2, -, -, h5⟩ := noI_species sl hi hv hn
  rw [h2 l hl]
  simp only [h5]
  constructor
  · intro h
    have := (h ((sl.N : ℤ) - sl.nI - 1)).2 ⟨by omega, by omega⟩
    omega
  · intro h s
    omega

/-- The lists of the PSI, Fe and NE networks have a single vacancy species. -/
theorem noI_exact_networks : ∀ n ∈ [psiFull, psiDeuterium, psiTritium, psiHelium, fe, ne], ∀ l, Loop first n.list.lastNoI l →
    ∀ s, s ∈ l ↔ 0 ≤ s ∧ s < (n.list.N : ℤ) - n.list.nI := by
  intro n hn l hl
  have h : 0 < n.list.nI ∧ 0 < n.list.nV ∧ n.list.nI + n.list.nV ≤ n.list.N ∧ n.list.nV = 1 := by
    simp only [List.mem_cons, List.not_mem_nil, or_false] at hn
    rcases hn with rfl | rfl | rfl | rfl | rfl | rfl <;> decide
  exact (noI_exact_iff n.list h.1 h.2.1 h.2.2.1 hl).2 h.2.2.2

/-- For the Alloy and Zr networks the range without interstitials misses the basal loops, and the voids and faulted loops: it visits single vacancies only. -/
theorem noI_misses : ∀ n ∈ [zr, alloy], ∀ l, Loop first n.list.lastNoI l → l = [0] ∧ (1 : ℤ) < (n.list.N : ℤ) - n.list.nI := by
  intro n hn l hl
  simp only [List.mem_cons, List.not_mem_nil, or_false] at hn
  rcases hn with rfl | rfl
  · exact ⟨(visits_iff.1 hl).2, by decide⟩
  · exact ⟨(visits_iff.1 hl).2, by decide⟩

/-- **Ids convert without loss.**  An id made from a species gives back that species, and an id that does not stand for a species is rejected. -/
theorem cast_id (id n : ℤ) : (SpeciesId.mk id n).cast = if 0 ≤ id ∧ id < n then some id else none := by
  unfold SpeciesId.cast SpeciesId.valid
  by_cases h1 : 0 ≤ id <;> by_cases h2 : id < n <;> simp [h1, h2]

/-- The value that stands for no species is rejected. -/
theorem cast_invalid (n : ℤ) : (SpeciesId.mk invalid n).cast = none := by rw [cast_id]; simp [invalid]

/-- Counting ids up from a default-constructed one goes through every species and then stops being valid. -/
theorem id_walk (n k : ℕ) : (Nat.repeat SpeciesId.next k ⟨0, n⟩).cast = if k < n then some (k : ℤ) else none := by
  have key : Nat.repeat SpeciesId.next k ⟨0, n⟩ = ⟨k, n⟩ := by
    induction k with
    | zero => rfl
    | succ k ih =>
      show SpeciesId.next (Nat.repeat SpeciesId.next k ⟨0, n⟩) = _
      rw [ih]
      unfold SpeciesId.next
      simp
  rw [key, cast_id]
  have : (0 ≤ (k : ℤ) ∧ (k : ℤ) < n) ↔ k < n := by omega
  simp only [this]

/-- **Moment ids.**  In every network a grouped species has the moment of a species in the range without interstitials, and the species of that range keep their own. -/
theorem moment_in_range : ∀ n ∈ networks, ∀ s, n.groupFirst ≤ s → s ≤ n.groupLast →
    0 ≤ n.moment s ∧ n.moment s < n.list.sizeNoI ∧ (s ≤ n.list.lastNoI → n.moment s = s) := by
  intro n hn s h1 h2
  simp only [networks, List.mem_cons, List.not_mem_nil, or_false] at hn
  rcases hn with rfl | rfl | rfl | rfl | rfl | rfl | rfl | rfl
  · simp only [psiFull, SpeciesList.sizeNoI, SpeciesList.lastNoI, SpeciesList.last] at *
    norm_num
    split <;> omega
  · simp only [psiDeuterium, SpeciesList.sizeNoI, SpeciesList.lastNoI, SpeciesList.last] at *
    norm_num
    split <;> omega
  · simp only [psiTritium, SpeciesList.sizeNoI, SpeciesList.lastNoI, SpeciesList.last] at *
    norm_num
    split <;> omega
  · simp only [psiHelium, SpeciesList.sizeNoI, SpeciesList.lastNoI, SpeciesList.last] at *
    norm_num
    split <;> omega
  · simp only [fe, SpeciesList.sizeNoI, SpeciesList.lastNoI, SpeciesList.last] at *
    norm_num
    split <;> omega
  · simp only [ne, SpeciesList.sizeNoI, SpeciesList.lastNoI, SpeciesList.last, first, id] at *
    norm_num at *
    omega
  · simp only [zr, SpeciesList.sizeNoI, SpeciesList.lastNoI, SpeciesList.last] at *
    norm_num
    omega
  · simp only [alloy, SpeciesList.sizeNoI, SpeciesList.lastNoI, SpeciesList.last] at *
    norm_num
    omega

/-- **The range for grouping** visits every species of the network once and in order; in the NE network, every species but the interstitials. -/
theorem group_range : ∀ n ∈ networks, n.labels.length = n.list.N ∧ ∀ l, Loop n.groupFirst n.groupLast l →
    l = (List.range (if n.labels = ["Xe", "V", "I"] then n.list.N - n.list.nI else n.list.N)).map (fun i : ℕ => (i : ℤ)) := by
  intro n hn
  simp only [networks, List.mem_cons, List.not_mem_nil, or_false] at hn
  rcases hn with rfl | rfl | rfl | rfl | rfl | rfl | rfl | rfl <;> refine ⟨rfl, fun l hl => ?_⟩ <;> rw [(visits_iff.1 hl).2] <;> decide

/-- In every network but Zr `isVacancy` holds exactly for the `nV` labels in front of the interstitial ones. -/
theorem isVacancy_labels : ∀ n ∈ [psiFull, psiDeuterium, psiTritium, psiHelium, fe, ne, alloy],
    n.labels.filter n.isVacancy = (n.labels.drop (n.list.N - n.list.nI - n.list.nV)).take n.list.nV := by
  intro n hn
  simp only [List.mem_cons, List.not_mem_nil, or_false] at hn
  rcases hn with rfl | rfl | rfl | rfl | rfl | rfl | rfl <;> decide

/-- In the Zr network, with its single interstitial species, basal loops do not count as vacancies. -/
theorem isVacancy_basal : zr.isVacancy "Basal" = false ∧ (zr.labels.drop (zr.list.N - zr.list.nI - zr.list.nV)).take zr.list.nV = ["V", "Basal"] := by
  decide

end Xolotl.Network.Species
