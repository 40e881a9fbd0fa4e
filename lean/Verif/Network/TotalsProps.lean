import Verif.Network.Totals
import Mathlib.Tactic.Ring
import Mathlib.Tactic.FieldSimp
import Mathlib.Tactic.NormNum
import Mathlib.Tactic.FinCases

/-!
# Properties of the reported totals
-/

set_option linter.unusedSectionVars false

namespace Xolotl.Network.Totals

open Finset

variable {d : ℕ} {K : Type*} [Field K] [LinearOrder K] [IsStrictOrderedRing K]

/-- All boxes are non-empty. -/
def Boxes (net : List (Cluster d)) : Prop := ∀ a ∈ net, ∀ k, (a.reg k).b < (a.reg k).e

/-- The compositions of a cluster whose size along `k` is at least `minSize`. -/
def from_ (a : Cluster d) (k : Fin d) (minSize : ℤ) : Finset (Fin d → ℤ) := a.pts.filter fun n => minSize ≤ n k

theorem len_card (a : Cluster d) (k : Fin d) (h : (a.reg k).b < (a.reg k).e) : ((a.reg k).len : K) = ((a.reg k).pts.card : K) := by
  unfold Ival.len Ival.pts
  rw [Int.card_Ico]
  have : ((((a.reg k).e - (a.reg k).b).toNat : ℤ)) = (a.reg k).e - (a.reg k).b := Int.toNat_of_nonneg (by omega)
  rw [← Int.cast_natCast (R := K), this]

theorem card_ne (a : Cluster d) (k : Fin d) (h : (a.reg k).b < (a.reg k).e) : ((a.reg k).pts.card : K) ≠ 0 := by
  have : (a.reg k).b ∈ (a.reg k).pts := mem_pts.mpr ⟨le_rfl, h⟩
  exact_mod_cast (Finset.card_pos.mpr ⟨_, this⟩).ne'

theorem sizes_eq (a : Cluster d) (k : Fin d) (m : ℕ) : sizes a k m = (a.reg k).pts.filter fun j => (m : ℤ) ≤ j := by
  ext j
  simp only [sizes, Ival.pts, mem_Ico, mem_filter]
  omega

/-- Summing a function of the size over the sizes of a cluster, times the factor, is summing it over its compositions. -/
theorem sum_sizes (a : Cluster d) (k : Fin d) (m : ℕ) (h : ∀ k, (a.reg k).b < (a.reg k).e) (g : ℤ → K) :
    ∑ j ∈ sizes a k m, g j * factor a k = ∑ n ∈ from_ a k m, g (n k) := by
  have hs := sum_pi_split (fun i => (a.reg i).pts) k (fun y => if (m : ℤ) ≤ y then g y else 0) (fun _ => (1 : K)) (fun _ _ => rfl)
  simp only [mul_one, sum_const, nsmul_eq_mul] at hs
  have hc := card_ne (K := K) a k (h k)
  rw [sizes_eq, sum_filter, from_, sum_filter]
  unfold factor
  rw [len_card a k (h k)]
  have e : ∑ j ∈ (a.reg k).pts, (if (m : ℤ) ≤ j then g j * (a.vol / ((a.reg k).pts.card : K)) else 0)
      = (∑ j ∈ (a.reg k).pts, if (m : ℤ) ≤ j then g j else 0) * (a.vol / ((a.reg k).pts.card : K)) := by
    rw [sum_mul]
    refine sum_congr rfl fun j _ => ?_
    split <;> simp
  rw [e, mul_div_assoc', div_eq_iff hc, mul_comm (∑ n ∈ a.pts, _)]
  exact hs.symm

/-- **The total concentration** counts, for every composition of every cluster with at least the minimum size, the concentration of the cluster. -/
theorem totalConcentration_eq (net : List (Cluster d)) (h : Boxes net) (c : ℕ → K) (k : Fin d) (m : ℕ) :
    totalConcentration net c k m = (net.map fun a => ∑ _n ∈ from_ a k m, c a.dof).sum := by
  unfold totalConcentration
  congr 1
  exact List.map_congr_left fun a ha => sum_sizes a k m (h a ha) fun _ => c a.dof

/-- **The total number of atoms** counts them, composition by composition. -/
theorem totalAtoms_eq (net : List (Cluster d)) (h : Boxes net) (c : ℕ → K) (k : Fin d) (m : ℕ) :
    totalAtoms net c k m = (net.map fun a => ∑ n ∈ from_ a k m, c a.dof * (n k : K)).sum := by
  unfold totalAtoms
  congr 1
  exact List.map_congr_left fun a ha => sum_sizes a k m (h a ha) fun j => c a.dof * (j : K)

/-- The total weighted by radius. -/
theorem totalRadius_eq (net : List (Cluster d)) (h : Boxes net) (radius c : ℕ → K) (k : Fin d) (m : ℕ) :
    totalRadius net radius c k m = (net.map fun a => ∑ _n ∈ from_ a k m, c a.dof * radius a.dof).sum := by
  unfold totalRadius
  congr 1
  exact List.map_congr_left fun a ha => sum_sizes a k m (h a ha) fun _ => c a.dof * radius a.dof

theorem trapped_term (a : Cluster d) (c : ℕ → K) (k : Fin d) (m : ℕ) :
    (∑ j ∈ (a.reg k).pts, if (m : ℤ) ≤ j then c a.dof * (j : K) * factor a k else 0) = ∑ j ∈ sizes a k m, c a.dof * (j : K) * factor a k := by
  rw [sizes_eq, sum_filter]

/-- **The trapped atoms** are those of the compositions with vacancies, if no cluster mixes compositions with and without. -/
theorem totalTrapped_eq (v : Fin d) (net : List (Cluster d)) (h : Boxes net)
    (hmix : ∀ a ∈ net, 0 < (a.reg v).b ∨ (a.reg v).e = 1) (c : ℕ → K) (k : Fin d) (m : ℕ) :
    totalTrapped v net c k m = (net.map fun a => ∑ n ∈ (from_ a k m).filter (fun n => 0 < n v), c a.dof * (n k : K)).sum := by
  unfold totalTrapped
  congr 1
  refine List.map_congr_left fun a ha => ?_
  rw [trapped_term a c k m]
  by_cases hb : 0 < (a.reg v).b
  · rw [if_pos hb, filter_true_of_mem]
    · exact sum_sizes a k m (h a ha) fun j => c a.dof * (j : K)
    · intro n hn
      have : n v ∈ (a.reg v).pts := (Fintype.mem_piFinset.1 (mem_filter.1 hn).1) v
      have := (mem_pts.1 this).1
      omega
  · rw [if_neg hb, filter_false_of_mem, sum_empty]
    intro n hn
    have : n v ∈ (a.reg v).pts := (Fintype.mem_piFinset.1 (mem_filter.1 hn).1) v
    have := (mem_pts.1 this).2
    have := (hmix a ha).resolve_left hb
    omega

/-! ## Linear, monotone, additive -/

theorem sum_map_add {α : Type*} (l : List α) (f g : α → K) : (l.map fun a => f a + g a).sum = (l.map f).sum + (l.map g).sum := by
  induction l with
  | nil => simp
  | cons x l ih => simp only [List.map_cons, List.sum_cons, ih]; ring

theorem sum_map_smul {α : Type*} (l : List α) (f : α → K) (s : K) : (l.map fun a => s * f a).sum = s * (l.map f).sum := by
  induction l with
  | nil => simp
  | cons x l ih => simp only [List.map_cons, List.sum_cons, ih]; ring

/-- A total: for each cluster, its concentration times a weight that does not depend on the concentrations. -/
def weighted (net : List (Cluster d)) (w : Cluster d → K) (c : ℕ → K) : K := (net.map fun a => c a.dof * w a).sum

theorem weighted_linear (net : List (Cluster d)) (w : Cluster d → K) (s t : K) (c e : ℕ → K) :
    weighted net w (fun i => s * c i + t * e i) = s * weighted net w c + t * weighted net w e := by
  unfold weighted
  rw [← sum_map_smul, ← sum_map_smul, ← sum_map_add]
  congr 1
  exact List.map_congr_left fun a _ => by ring

theorem weighted_mono (net : List (Cluster d)) (w : Cluster d → K) (hw : ∀ a ∈ net, 0 ≤ w a) (c e : ℕ → K) (h : ∀ a ∈ net, c a.dof ≤ e a.dof) :
    weighted net w c ≤ weighted net w e := by
  unfold weighted
  exact List.sum_le_sum fun a ha => mul_le_mul_of_nonneg_right (h a ha) (hw a ha)

/-- The four totals as weighted sums. -/
theorem totals_weighted (net : List (Cluster d)) (v k : Fin d) (m : ℕ) (radius c : ℕ → K) :
    totalConcentration net c k m = weighted net (fun a => ∑ _j ∈ sizes a k m, factor a k) c ∧
    totalAtoms net c k m = weighted net (fun a => ∑ j ∈ sizes a k m, (j : K) * factor a k) c ∧
    totalRadius net radius c k m = weighted net (fun a => ∑ _j ∈ sizes a k m, radius a.dof * factor a k) c ∧
    totalTrapped v net c k m = weighted net (fun a => if 0 < (a.reg v).b then ∑ j ∈ sizes a k m, (j : K) * factor a k else 0) c := by
  refine ⟨?_, ?_, ?_, ?_⟩
  · unfold totalConcentration weighted
    congr 1
    exact List.map_congr_left fun a _ => by rw [mul_sum]
  · unfold totalAtoms weighted
    congr 1
    exact List.map_congr_left fun a _ => by rw [mul_sum]; exact sum_congr rfl fun j _ => by ring
  · unfold totalRadius weighted
    congr 1
    exact List.map_congr_left fun a _ => by rw [mul_sum]; exact sum_congr rfl fun j _ => by ring
  · unfold totalTrapped weighted
    congr 1
    refine List.map_congr_left fun a _ => ?_
    rw [trapped_term a c k m]
    dsimp only
    split
    · rw [mul_sum]; exact sum_congr rfl fun j _ => by ring
    · simp

/-- **Totals are linear** in the concentrations. -/
theorem totals_linear (net : List (Cluster d)) (v k : Fin d) (m : ℕ) (radius : ℕ → K) (s t : K) (c e : ℕ → K) :
    totalConcentration net (fun i => s * c i + t * e i) k m = s * totalConcentration net c k m + t * totalConcentration net e k m ∧
    totalAtoms net (fun i => s * c i + t * e i) k m = s * totalAtoms net c k m + t * totalAtoms net e k m ∧
    totalRadius net radius (fun i => s * c i + t * e i) k m = s * totalRadius net radius c k m + t * totalRadius net radius e k m ∧
    totalTrapped v net (fun i => s * c i + t * e i) k m = s * totalTrapped v net c k m + t * totalTrapped v net e k m := by
  simp only [(totals_weighted net v k m radius _).1, (totals_weighted net v k m radius _).2.1, (totals_weighted net v k m radius _).2.2.1,
    (totals_weighted net v k m radius _).2.2.2]
  exact ⟨weighted_linear .., weighted_linear .., weighted_linear .., weighted_linear ..⟩

theorem factor_nonneg (a : Cluster d) (k : Fin d) (h : (a.reg k).b < (a.reg k).e) : (0 : K) ≤ factor a k := by
  unfold factor
  rw [len_card a k h]
  exact div_nonneg (Nat.cast_nonneg _) (Nat.cast_nonneg _)

/-- **Totals are monotone** in the concentrations. -/
theorem totals_mono (net : List (Cluster d)) (h : Boxes net) (v k : Fin d) (m : ℕ) (radius : ℕ → K) (hr : ∀ i, 0 ≤ radius i) (c e : ℕ → K)
    (hc : ∀ a ∈ net, c a.dof ≤ e a.dof) :
    totalConcentration net c k m ≤ totalConcentration net e k m ∧ totalAtoms net c k m ≤ totalAtoms net e k m ∧
    totalRadius net radius c k m ≤ totalRadius net radius e k m ∧ totalTrapped v net c k m ≤ totalTrapped v net e k m := by
  simp only [(totals_weighted net v k m radius _).1, (totals_weighted net v k m radius _).2.1, (totals_weighted net v k m radius _).2.2.1,
    (totals_weighted net v k m radius _).2.2.2]
  have hj : ∀ a ∈ net, ∀ j ∈ sizes a k m, (0 : K) ≤ (j : K) * factor a k := by
    intro a ha j hj
    have : (0 : ℤ) ≤ j := by
      have := (mem_Ico.1 hj).1
      omega
    exact mul_nonneg (by exact_mod_cast this) (factor_nonneg a k (h a ha k))
  refine ⟨weighted_mono _ _ (fun a ha => ?_) _ _ hc, weighted_mono _ _ (fun a ha => ?_) _ _ hc, weighted_mono _ _ (fun a ha => ?_) _ _ hc,
    weighted_mono _ _ (fun a ha => ?_) _ _ hc⟩
  · exact sum_nonneg fun _ _ => factor_nonneg a k (h a ha k)
  · exact sum_nonneg (hj a ha)
  · exact sum_nonneg fun _ _ => mul_nonneg (hr _) (factor_nonneg a k (h a ha k))
  · split
    · exact sum_nonneg (hj a ha)
    · exact le_rfl

/-- **Totals are additive** over size ranges: the total from `m` is that from `m'` and what lies between. -/
theorem totals_additive (net : List (Cluster d)) (h : Boxes net) (c : ℕ → K) (k : Fin d) (m m' : ℕ) (hm : m ≤ m') :
    totalConcentration net c k m = (net.map fun a => ∑ _n ∈ a.pts.filter (fun n => (m : ℤ) ≤ n k ∧ n k < (m' : ℤ)), c a.dof).sum + totalConcentration net c k m' ∧
    totalAtoms net c k m = (net.map fun a => ∑ n ∈ a.pts.filter (fun n => (m : ℤ) ≤ n k ∧ n k < (m' : ℤ)), c a.dof * (n k : K)).sum + totalAtoms net c k m' := by
  rw [totalConcentration_eq net h, totalConcentration_eq net h, totalAtoms_eq net h, totalAtoms_eq net h, ← sum_map_add, ← sum_map_add]
  have key : ∀ (a : Cluster d) (g : (Fin d → ℤ) → K), ∑ n ∈ from_ a k m, g n
      = ∑ n ∈ a.pts.filter (fun n => (m : ℤ) ≤ n k ∧ n k < (m' : ℤ)), g n + ∑ n ∈ from_ a k m', g n := by
    intro a g
    rw [← sum_union]
    · refine sum_congr ?_ fun _ _ => rfl
      ext n
      simp only [from_, mem_union, mem_filter]
      have : (m : ℤ) ≤ m' := by exact_mod_cast hm
      constructor
      · rintro ⟨h1, h2⟩
        by_cases h3 : n k < m'
        · exact .inl ⟨h1, h2, h3⟩
        · exact .inr ⟨h1, by omega⟩
      · rintro (⟨h1, h2, h3⟩ | ⟨h1, h2⟩)
        · exact ⟨h1, h2⟩
        · exact ⟨h1, by omega⟩
    · rw [disjoint_left]
      intro n h1 h2
      have := (mem_filter.1 h1).2.2
      have := (mem_filter.1 h2).2
      omega
  exact ⟨congrArg List.sum (List.map_congr_left fun a _ => key a _), congrArg List.sum (List.map_congr_left fun a _ => key a _)⟩

/-! ## Grouped networks -/

/-- The concentration of all compositions of a network, as its moments represent it. -/
def trueConcentration (net : List (Cluster d)) (v : ℕ → K) : K := (net.map fun a => ∑ n ∈ a.pts, a.conc v n).sum

/-- The atoms of a network, as its moments represent them. -/
def trueAtoms (net : List (Cluster d)) (k : Fin d) (v : ℕ → K) : K := (net.map fun a => a.content k v).sum

theorem from_all (a : Cluster d) (k : Fin d) (m : ℕ) (h : (m : ℤ) ≤ (a.reg k).b) : from_ a k m = a.pts := by
  refine filter_true_of_mem fun n hn => ?_
  have : n k ∈ (a.reg k).pts := (Fintype.mem_piFinset.1 hn) k
  have := (mem_pts.1 this).1
  omega

/-- **The total concentration is exact**, with or without groups, if the minimum size does not cut through a cluster from below. -/
theorem concentration_exact (net : List (Cluster d)) (hw : ∀ a ∈ net, a.WF) (c : ℕ → K) (k : Fin d) (m : ℕ) (hm : ∀ a ∈ net, (m : ℤ) ≤ (a.reg k).b) :
    totalConcentration net c k m = trueConcentration net c := by
  rw [totalConcentration_eq net fun a ha => (hw a ha).pos]
  unfold trueConcentration
  congr 1
  refine List.map_congr_left fun a ha => ?_
  rw [from_all a k m (hm a ha)]
  unfold Cluster.conc
  rw [sum_add_distrib, sum_comm]
  have : ∀ i, ∑ n ∈ a.pts, (a.mom i).elim 0 c * ((n i : K) - (a.reg i).mid) = 0 := by
    intro i
    rw [← mul_sum]
    have := a.sum_dev_mul (K := K) (hw a ha) i (fun _ => 1) (fun _ _ => rfl)
    simp only [mul_one] at this
    rw [this, mul_zero]
  rw [sum_congr rfl fun i _ => this i]
  simp

/-- **What the total number of atoms leaves out** is exactly the first moments along its axis. -/
theorem atoms_gap (net : List (Cluster d)) (hw : ∀ a ∈ net, a.WF) (c : ℕ → K) (k : Fin d) (m : ℕ) (hm : ∀ a ∈ net, (m : ℤ) ≤ (a.reg k).b) :
    trueAtoms net k c = totalAtoms net c k m + (net.map fun a => a.vol * (a.var k * (a.mom k).elim 0 c)).sum := by
  rw [totalAtoms_eq net fun a ha => (hw a ha).pos, ← sum_map_add]
  unfold trueAtoms
  congr 1
  refine List.map_congr_left fun a ha => ?_
  rw [from_all a k m (hm a ha), a.content_eq (hw a ha), ← mul_sum]
  have h1 : ∑ x ∈ a.pts, ((x k : K) - (a.reg k).mid) = 0 := by
    have := a.sum_dev_mul (K := K) (hw a ha) k (fun _ => 1) (fun _ _ => rfl)
    simpa using this
  have h2 : ∑ n ∈ a.pts, (n k : K) = a.vol * (a.reg k).mid := by
    rw [sum_sub_distrib, sub_eq_zero] at h1
    rw [h1, sum_const, nsmul_eq_mul]
    rfl
  rw [h2]
  ring

/-- **For networks that are not grouped along the axis** the total number of atoms is exact. -/
theorem atoms_exact (net : List (Cluster d)) (hw : ∀ a ∈ net, a.WF) (c : ℕ → K) (k : Fin d) (hk : ∀ a ∈ net, (a.reg k).e = (a.reg k).b + 1)
    (h0 : ∀ a ∈ net, 0 ≤ (a.reg k).b) : totalAtoms net c k 0 = trueAtoms net k c := by
  rw [atoms_gap net hw c k 0 fun a ha => by simpa using h0 a ha]
  have : (net.map fun a => a.vol * (a.var k * (a.mom k).elim 0 c)).sum = 0 := by
    refine List.sum_eq_zero fun x hx => ?_
    obtain ⟨a, ha, rfl⟩ := List.mem_map.1 hx
    rw [((hw a ha).mom k).2 (hk a ha)]
    simp
  rw [this, add_zero]

/-- **For ungrouped networks** every total is exact, with every minimum size. -/
theorem exact_from (net : List (Cluster d)) (hw : ∀ a ∈ net, a.WF) (hs : ∀ a ∈ net, ∀ k, (a.reg k).e = (a.reg k).b + 1) (c : ℕ → K) (k : Fin d) (m : ℕ) :
    totalConcentration net c k m = (net.map fun a => ∑ n ∈ from_ a k m, a.conc c n).sum ∧
    totalAtoms net c k m = (net.map fun a => ∑ n ∈ from_ a k m, (n k : K) * a.conc c n).sum := by
  have hc : ∀ a ∈ net, ∀ n, a.conc c n = c a.dof := by
    intro a ha n
    unfold Cluster.conc
    rw [sum_eq_zero, add_zero]
    intro i _
    rw [((hw a ha).mom i).2 (hs a ha i)]
    simp
  rw [totalConcentration_eq net fun a ha => (hw a ha).pos, totalAtoms_eq net fun a ha => (hw a ha).pos]
  constructor
  · exact congrArg List.sum (List.map_congr_left fun a ha => sum_congr rfl fun n _ => (hc a ha n).symm)
  · exact congrArg List.sum (List.map_congr_left fun a ha => sum_congr rfl fun n _ => by rw [hc a ha n, mul_comm])

/-- Two clusters, one of them a group with sizes 2 and 3 along one axis. -/
def net2 : List (Cluster 1) := [⟨0, fun _ => none, fun _ => ⟨1, 2⟩⟩, ⟨1, fun _ => some 2, fun _ => ⟨2, 4⟩⟩]

theorem net2_wf : ∀ a ∈ net2, a.WF := by
  intro a ha
  simp only [net2, List.mem_cons, List.not_mem_nil, or_false] at ha
  rcases ha with rfl | rfl
  · exact ⟨by decide, by decide⟩
  · exact ⟨by decide, by decide⟩

/-- The network meets the hypotheses: the atoms from size 1 on are those of the single cluster and those from size 2 on; the group counts 2 + 3 atoms. -/
example (c : ℕ → ℚ) : totalAtoms net2 c 0 1 = c 0 + totalAtoms net2 c 0 2 ∧ totalConcentration net2 c 0 0 = trueConcentration net2 c ∧
    totalAtoms net2 c 0 0 = c 0 + 5 * c 1 := by
  refine ⟨?_, concentration_exact net2 net2_wf c 0 0 (by decide), ?_⟩
  · rw [(totals_additive net2 (fun a ha => (net2_wf a ha).pos) c 0 1 2 (by decide)).2]
    congr 1
    have e1 : (⟨0, fun _ => none, fun _ => ⟨1, 2⟩⟩ : Cluster 1).pts.filter (fun n => ((1 : ℕ) : ℤ) ≤ n 0 ∧ n 0 < ((2 : ℕ) : ℤ)) = {fun _ => 1} := by
      decide +kernel
    have e2 : (⟨1, fun _ => some 2, fun _ => ⟨2, 4⟩⟩ : Cluster 1).pts.filter (fun n => ((1 : ℕ) : ℤ) ≤ n 0 ∧ n 0 < ((2 : ℕ) : ℤ)) = ∅ := by
      decide +kernel
    simp only [net2, List.map_cons, List.map_nil, e1, e2]
    simp
  · rw [totalAtoms_eq net2 (fun a ha => (net2_wf a ha).pos)]
    have e1 : from_ (⟨0, fun _ => none, fun _ => ⟨1, 2⟩⟩ : Cluster 1) 0 ((0 : ℕ) : ℤ) = {fun _ => 1} := by decide +kernel
    have e2 : from_ (⟨1, fun _ => some 2, fun _ => ⟨2, 4⟩⟩ : Cluster 1) 0 ((0 : ℕ) : ℤ) = {fun _ => 2, fun _ => 3} := by decide +kernel
    simp only [net2, List.map_cons, List.map_nil, e1, e2]
    rw [sum_pair (by decide)]
    simp
    ring

/-- With a first moment in the group the reported atoms are not the true ones: with mean 1 and slope 2 in the group, sizes 2 and 3 have concentrations 0 and 2. -/
theorem atoms_wrong : totalAtoms net2 (fun i => (if i = 1 then 1 else if i = 2 then 2 else 0 : ℚ)) 0 0 = 5 ∧
    trueAtoms net2 0 (fun i => (if i = 1 then 1 else if i = 2 then 2 else 0 : ℚ)) = 6 := by
  decide +kernel

/-- A group that mixes compositions with and without vacancies counts as not trapped at all: here sizes 1 of the gas with 0 or 1 vacancy. -/
theorem trapped_mixed : totalTrapped (1 : Fin 2) [⟨0, fun i => if i = 1 then some 1 else none, fun i => if i = 0 then ⟨1, 2⟩ else ⟨0, 2⟩⟩]
    (fun i => (if i = 0 then 1 else 0 : ℚ)) 0 0 = 0 ∧
    totalAtoms [(⟨0, fun i => if i = 1 then some 1 else none, fun i => if i = 0 then ⟨1, 2⟩ else ⟨0, 2⟩⟩ : Cluster 2)]
      (fun i => (if i = 0 then 1 else 0 : ℚ)) 0 0 = 2 := by
  decide +kernel

/-! ## Several totals at once -/

/-- The total of one quantity, by the function of its own. -/
def single (v : Fin d) (net : List (Cluster d)) (radius c : ℕ → K) (q : Quantity d) : K :=
  match q.kind with
  | .total => totalConcentration net c q.species q.minSize
  | .atom => totalAtoms net c q.species q.minSize
  | .radius => totalRadius net radius c q.species q.minSize
  | .volume => totalRadius net (fun i => radius i * radius i * radius i) c q.species q.minSize
  | .trapped => totalTrapped v net c q.species q.minSize

theorem single_method (v : Fin d) (net : List (Cluster d)) (radius c : ℕ → K) (q : Quantity d) :
    single v net radius c q = (net.map fun a => method v q.kind q (c a.dof) (radius a.dof) a).sum := by
  obtain ⟨kind, k, m⟩ := q
  cases kind
  · unfold single totalConcentration
    dsimp only
    congr 1
    refine List.map_congr_left fun a _ => ?_
    simp only [method, contribution, updateFactor, reduceCtorEq, false_and, if_false]
    exact sum_congr rfl fun j _ => by ring
  · unfold single totalAtoms
    dsimp only
    congr 1
    refine List.map_congr_left fun a _ => ?_
    simp only [method, contribution, updateFactor, reduceCtorEq, false_and, if_false]
    exact sum_congr rfl fun j _ => by ring
  · unfold single totalRadius
    dsimp only
    congr 1
    refine List.map_congr_left fun a _ => ?_
    simp only [method, contribution, updateFactor, reduceCtorEq, false_and, if_false]
    exact sum_congr rfl fun j _ => by ring
  · unfold single totalRadius
    dsimp only
    congr 1
    refine List.map_congr_left fun a _ => ?_
    simp only [method, contribution, updateFactor, reduceCtorEq, false_and, if_false]
    exact sum_congr rfl fun j _ => by ring
  · unfold single totalTrapped
    dsimp only
    congr 1
    refine List.map_congr_left fun a _ => ?_
    rw [trapped_term a c k m]
    unfold method
    by_cases hb : 0 < (a.reg v).b
    · rw [if_pos hb, if_neg (by simp [hb])]
      simp only [contribution, updateFactor]
      exact sum_congr rfl fun j _ => by ring
    · rw [if_neg hb, if_pos ⟨rfl, hb⟩]

theorem chain_eq (v : Fin d) (qs : ℕ → Quantity d) (conc r : K) (a : Cluster d) (ms : List Kind) (dst : ℕ → K) (i : ℕ) :
    chain v qs conc r a ms dst i = dst i + if h : i < ms.length then method v (ms.reverse[i]'(by simpa using h)) (qs i) conc r a else 0 := by
  induction ms generalizing dst with
  | nil => simp [chain]
  | cons m ms ih =>
    unfold chain
    dsimp only
    by_cases e : i = ms.length
    · subst e
      rw [if_pos rfl, ih, dif_neg (by omega), dif_pos (by simp)]
      simp
    · rw [if_neg e, ih]
      by_cases h : i < ms.length
      · rw [dif_pos h, dif_pos (by simp; omega)]
        congr 2
        simp only [List.reverse_cons]
        rw [List.getElem_append_left (by simpa using h)]
      · rw [dif_neg h, dif_neg (by simp; omega)]

/-- **Several totals in one pass** are the single totals, each in the place of its quantity, however the clusters are split into blocks. -/
theorem totalsImpl_eq (v : Fin d) (blocks : List (List (Cluster d))) (net : List (Cluster d)) (hp : blocks.flatten.Perm net) (radius c : ℕ → K)
    (qs : List (Quantity d)) (q0 : Quantity d) (i : ℕ) (hi : i < qs.length) :
    totalsImpl v blocks radius c (fun i => qs.getD i q0) (qs.map (·.kind)) i = single v net radius c qs[i] := by
  have hblock : ∀ (block : List (Cluster d)) (s : ℕ → K),
      block.foldl (fun s a => chain v (fun i => qs.getD i q0) (c a.dof) (radius a.dof) a (qs.map (·.kind)).reverse s) s i
        = s i + (block.map fun a => method v qs[i].kind qs[i] (c a.dof) (radius a.dof) a).sum := by
    intro block
    induction block with
    | nil => intro s; simp
    | cons a block ih =>
      intro s
      rw [List.foldl_cons, ih, chain_eq, dif_pos (by simpa using hi), List.map_cons, List.sum_cons, ← add_assoc]
      congr 3
      · simp
      · rw [List.getD_eq_getElem?_getD, List.getElem?_eq_getElem hi]
        rfl
  have hfold : ∀ (bs : List (List (Cluster d))) (s : ℕ → K), bs.foldl (fun dst block => fun i => dst i +
      block.foldl (fun s a => chain v (fun i => qs.getD i q0) (c a.dof) (radius a.dof) a (qs.map (·.kind)).reverse s) (fun _ => 0) i) s i
        = s i + (bs.flatten.map fun a => method v qs[i].kind qs[i] (c a.dof) (radius a.dof) a).sum := by
    intro bs
    induction bs with
    | nil => intro s; simp
    | cons b bs ih =>
      intro s
      rw [List.foldl_cons, ih, hblock]
      simp [add_assoc]
  unfold totalsImpl
  rw [hfold, single_method, zero_add]
  exact (hp.map _).sum_eq

/-- `getTotals` and `getTotalsVec` give the single totals or nothing. -/
theorem getTotalsVec_eq (v : Fin d) (blocks : List (List (Cluster d))) (net : List (Cluster d)) (hp : blocks.flatten.Perm net) (radius c : ℕ → K)
    (qs : List (Quantity d)) (q0 : Quantity d) :
    getTotalsVec v blocks radius c qs q0
      = if qs.map (·.kind) ∈ accepted ∧ qs.length ≤ 6 then some (qs.map (single v net radius c)) else none := by
  have hmap : (List.range qs.length).map (totalsImpl v blocks radius c (fun i => qs.getD i q0) (qs.map (·.kind))) = qs.map (single v net radius c) := by
    refine List.ext_getElem (by simp) fun i h1 h2 => ?_
    have hi : i < qs.length := by simpa using h2
    simp only [List.getElem_map, List.getElem_range]
    exact totalsImpl_eq v blocks net hp radius c qs q0 i hi
  unfold getTotalsVec getTotals
  by_cases ha : qs.map (·.kind) ∈ accepted
  · have h1 : 1 ≤ qs.length := by
      rcases qs with _ | ⟨q, qs⟩
      · exact absurd (show ([] : List Kind) ∈ accepted from ha) (by decide)
      · simp
    by_cases h6 : qs.length ≤ 6
    · rw [if_pos ⟨h1, h6⟩, if_pos ha, if_pos ⟨ha, h6⟩, hmap]
    · rw [if_neg (fun h => h6 h.2), if_neg (fun h => h6 h.2)]
  · rw [if_neg (c := _ ∧ qs.length ≤ 6) (fun h => ha h.1), if_neg ha]
    split <;> rfl

/-- The seven totals that `getTotals` accepts are rejected by `getTotalsVec`; trapped atoms are in no accepted combination. -/
theorem seven_rejected (v : Fin d) (blocks : List (List (Cluster d))) (radius c : ℕ → K) (qs : List (Quantity d)) (q0 : Quantity d)
    (h : qs.map (·.kind) = [.total, .atom, .radius, .total, .atom, .radius, .volume]) :
    getTotalsVec v blocks radius c qs q0 = none ∧ (getTotals v blocks radius c qs q0).isSome ∧ ∀ l ∈ accepted, Kind.trapped ∉ l := by
  have hl : qs.length = 7 := by
    have := congrArg List.length h
    simpa using this
  refine ⟨?_, ?_, by decide⟩
  · unfold getTotalsVec
    rw [if_neg (by omega)]
  · unfold getTotals
    rw [if_pos (by rw [h]; decide)]
    rfl

end Xolotl.Network.Totals
