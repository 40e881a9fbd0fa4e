import Verif.Network.Averages
import Verif.Network.TotalsProps
import Mathlib.Tactic.Linarith
import Mathlib.Tactic.Positivity
import Mathlib.Tactic.LinearCombination

/-!
# Properties of the averages over bubbles
-/

set_option linter.unusedSectionVars false

namespace Xolotl.Network.Averages

open Finset Xolotl.Network.Totals

variable {d : ℕ} {K : Type*} [Field K] [LinearOrder K] [IsStrictOrderedRing K]

/-- The compositions of a bubble that count: at least `m` along `k`. -/
abbrev counted (a : Cluster d) (k : Fin d) (m : ℕ) : Finset (Fin d → ℤ) := from_ a k m

/-- The sum over all compositions of all bubbles that count, each with the volume it takes: the concentration of the cluster times the cube of its radius. -/
def over (v : Fin d) (net : List (Cluster d)) (radius c : ℕ → K) (k : Fin d) (m : ℕ) (f : K → K) : K :=
  (net.map fun a => if 0 < (a.reg v).b then
    ∑ n ∈ counted a k m, c a.dof * radius a.dof ^ 3 * f ((n k : K) / (n v : K)) else 0).sum

/-- The clusters are boxes of width one along all axes but `k` and `v`. -/
def Narrow (v k : Fin d) (net : List (Cluster d)) : Prop :=
  v ≠ k ∧ ∀ a ∈ net, (∀ i, (a.reg i).b < (a.reg i).e) ∧ ∀ i, i ≠ v → i ≠ k → (a.reg i).e = (a.reg i).b + 1

/-- The number of compositions of a cluster with given sizes along two axes. -/
def others (a : Cluster d) (v k : Fin d) : K := a.vol / (((a.reg v).len : K) * ((a.reg k).len : K))

/-- Summing over the sizes along two axes and over the compositions. -/
theorem two_axes (a : Cluster d) (v k : Fin d) (hvk : v ≠ k) (h : ∀ i, (a.reg i).b < (a.reg i).e) (g : ℤ → ℤ → K) :
    (∑ j ∈ (a.reg k).pts, ∑ l ∈ (a.reg v).pts, g j l) * others a v k = ∑ n ∈ a.pts, g (n k) (n v) := by
  have hk := card_ne (K := K) a k (h k)
  have hv := card_ne (K := K) a v (h v)
  unfold others
  rw [len_card a k (h k), len_card a v (h v), mul_div_assoc', div_eq_iff (mul_ne_zero hv hk)]
  have split : ∑ n ∈ a.pts, g (n k) (n v) = ∑ l ∈ (a.reg v).pts, ∑ n ∈ a.pts, g (n k) l * (if n v = l then 1 else 0) := by
    rw [sum_comm]
    refine sum_congr rfl fun n hn => ?_
    have : n v ∈ (a.reg v).pts := (Fintype.mem_piFinset.1 hn) v
    simp [this]
  have one : ∀ l ∈ (a.reg v).pts, ((a.reg v).pts.card : K) * ∑ n ∈ a.pts, (if n v = l then (1 : K) else 0) = a.vol := by
    intro l hl
    have := sum_pi_split (fun i => (a.reg i).pts) v (fun y => if y = l then (1 : K) else 0) (fun _ => 1) (fun _ _ => rfl)
    simp only [mul_one] at this
    unfold Cluster.pts
    rw [this]
    unfold Cluster.vol Cluster.pts
    simp [hl]
  rw [split, sum_comm, sum_mul, sum_mul]
  refine sum_congr rfl fun l hl => ?_
  have := sum_pi_split (fun i => (a.reg i).pts) k (fun y => g y l) (fun n => if n v = l then (1 : K) else 0) (fun x q => by
    simp [Function.update_of_ne hvk])
  rw [← one l hl]
  unfold Cluster.pts
  linear_combination (-((a.reg v).pts.card : K)) * this

theorem others_one (a : Cluster d) (v k : Fin d) (hvk : v ≠ k) (h : ∀ i, (a.reg i).b < (a.reg i).e)
    (hn : ∀ i, i ≠ v → i ≠ k → (a.reg i).e = (a.reg i).b + 1) : (others a v k : K) = 1 := by
  have hk := card_ne (K := K) a k (h k)
  have hv := card_ne (K := K) a v (h v)
  unfold others Cluster.vol Cluster.pts
  rw [len_card a k (h k), len_card a v (h v), Fintype.card_piFinset, div_eq_one_iff_eq (mul_ne_zero hv hk)]
  rw [← Finset.mul_prod_erase _ _ (mem_univ v), ← Finset.mul_prod_erase _ _ (mem_erase.2 ⟨hvk.symm, mem_univ k⟩)]
  rw [prod_eq_one, mul_one, Nat.cast_mul]
  intro i hi
  have h1 := (mem_erase.1 (mem_erase.1 hi).2).1
  have h2 := (mem_erase.1 hi).1
  unfold Ival.pts
  rw [Int.card_Ico, hn i h1 h2]
  omega

/-- The sums of one cluster. -/
theorem cluster_sum (a : Cluster d) (v k : Fin d) (hvk : v ≠ k) (h : ∀ i, (a.reg i).b < (a.reg i).e) (m : ℕ) (g : ℤ → ℤ → K) :
    (∑ j ∈ (a.reg k).pts, if (m : ℤ) ≤ j then ∑ l ∈ (a.reg v).pts, g j l else 0) * others a v k = ∑ n ∈ counted a k m, g (n k) (n v) := by
  have := two_axes a v k hvk h fun j l => if (m : ℤ) ≤ j then g j l else 0
  unfold counted from_
  rw [sum_filter, ← this]
  congr 1
  refine sum_congr rfl fun j _ => ?_
  split <;> simp

/-- **The volume that the code divides by** counts every composition of every bubble. -/
theorem volumeSum_eq (v k : Fin d) (net : List (Cluster d)) (h : Boxes net) (radius c : ℕ → K) (m : ℕ) :
    volumeSum v net radius c k m = over v net radius c k m fun _ => 1 := by
  unfold volumeSum over
  refine congrArg List.sum (List.map_congr_left fun a ha => ?_)
  split
  · have := sum_sizes a k m (h a ha) fun _ => c a.dof * (radius a.dof * radius a.dof * radius a.dof)
    rw [sizes_eq, sum_filter] at this
    rw [this]
    exact sum_congr rfl fun n _ => by ring
  · rfl

/-- **The sum of the ratios**, in a network that is narrow along the other axes, is over the same compositions. -/
theorem ratioSum_eq (v k : Fin d) (net : List (Cluster d)) (h : Narrow v k net) (radius c : ℕ → K) (m : ℕ) :
    ratioSum v net radius c k m = over v net radius c k m fun x => x := by
  unfold ratioSum over
  refine congrArg List.sum (List.map_congr_left fun a ha => ?_)
  split
  · have := cluster_sum a v k h.1 (h.2 a ha).1 m fun j l => c a.dof * (j : K) * (radius a.dof * radius a.dof * radius a.dof) / (l : K)
    rw [others_one a v k h.1 (h.2 a ha).1 (h.2 a ha).2, mul_one] at this
    rw [this]
    exact sum_congr rfl fun n _ => by ring
  · rfl

/-- **The sum of the squares**, likewise. -/
theorem spreadSum_eq (v k : Fin d) (net : List (Cluster d)) (h : Narrow v k net) (radius c : ℕ → K) (mean : K) (m : ℕ) :
    spreadSum v net radius c k mean m = over v net radius c k m fun x => (x - mean) ^ 2 := by
  unfold spreadSum over
  refine congrArg List.sum (List.map_congr_left fun a ha => ?_)
  split
  · have := cluster_sum a v k h.1 (h.2 a ha).1 m fun j l =>
      ((j : K) / (l : K) - mean) * ((j : K) / (l : K) - mean) * c a.dof * (radius a.dof * radius a.dof * radius a.dof)
    rw [others_one a v k h.1 (h.2 a ha).1 (h.2 a ha).2, mul_one] at this
    rw [this]
    exact sum_congr rfl fun n _ => by ring
  · rfl

/-! ## The sum over the bubbles as a mean -/

theorem over_add (v : Fin d) (net : List (Cluster d)) (radius c : ℕ → K) (k : Fin d) (m : ℕ) (f g : K → K) (s t : K) :
    over v net radius c k m (fun x => s * f x + t * g x) = s * over v net radius c k m f + t * over v net radius c k m g := by
  unfold over
  rw [← sum_map_smul, ← sum_map_smul, ← sum_map_add]
  refine congrArg List.sum (List.map_congr_left fun a _ => ?_)
  split
  · rw [mul_sum, mul_sum, ← sum_add_distrib]
    exact sum_congr rfl fun n _ => by ring
  · ring

/-- A composition of a bubble that counts. -/
def Counts (v : Fin d) (net : List (Cluster d)) (k : Fin d) (m : ℕ) (a : Cluster d) (n : Fin d → ℤ) : Prop :=
  a ∈ net ∧ 0 < (a.reg v).b ∧ (∀ i, (a.reg i).b ≤ n i ∧ n i < (a.reg i).e) ∧ (m : ℤ) ≤ n k

theorem counts_iff (v : Fin d) (net : List (Cluster d)) (k : Fin d) (m : ℕ) (a : Cluster d) (n : Fin d → ℤ) :
    Counts v net k m a n ↔ a ∈ net ∧ 0 < (a.reg v).b ∧ n ∈ counted a k m := by
  unfold Counts counted from_ Cluster.pts Ival.pts
  simp only [mem_filter, Fintype.mem_piFinset, mem_Ico]

theorem over_mono (v : Fin d) (net : List (Cluster d)) (radius c : ℕ → K) (k : Fin d) (m : ℕ) (f g : K → K)
    (hp : ∀ a ∈ net, 0 ≤ c a.dof * radius a.dof ^ 3) (hfg : ∀ a n, Counts v net k m a n → f ((n k : K) / (n v : K)) ≤ g ((n k : K) / (n v : K))) :
    over v net radius c k m f ≤ over v net radius c k m g := by
  unfold over
  refine List.sum_le_sum fun a ha => ?_
  split
  · rename_i hb
    exact sum_le_sum fun n hn => mul_le_mul_of_nonneg_left (hfg a n ((counts_iff v net k m a n).2 ⟨ha, hb, hn⟩)) (hp a ha)
  · exact le_rfl

theorem over_pos (v : Fin d) (net : List (Cluster d)) (radius c : ℕ → K) (k : Fin d) (m : ℕ) (f : K → K)
    (hp : ∀ a ∈ net, 0 ≤ c a.dof * radius a.dof ^ 3) (hf : ∀ x, 0 ≤ f x) :
    0 < over v net radius c k m f ↔ ∃ a n, Counts v net k m a n ∧ 0 < c a.dof * radius a.dof ^ 3 ∧ 0 < f ((n k : K) / (n v : K)) := by
  have term : ∀ a ∈ net, 0 ≤ (if 0 < (a.reg v).b then ∑ n ∈ counted a k m, c a.dof * radius a.dof ^ 3 * f ((n k : K) / (n v : K)) else 0) := by
    intro a ha
    split
    · exact sum_nonneg fun n _ => mul_nonneg (hp a ha) (hf _)
    · exact le_rfl
  constructor
  · intro h
    by_contra hno
    have : over v net radius c k m f = 0 := by
      unfold over
      refine List.sum_eq_zero fun x hx => ?_
      obtain ⟨a, ha, rfl⟩ := List.mem_map.1 hx
      split
      · rename_i hb
        refine sum_eq_zero fun n hn => ?_
        by_contra hne
        have hc := (mul_ne_zero_iff.1 hne)
        exact hno ⟨a, n, (counts_iff v net k m a n).2 ⟨ha, hb, hn⟩, lt_of_le_of_ne (hp a ha) (Ne.symm hc.1), lt_of_le_of_ne (hf _) (Ne.symm hc.2)⟩
      · rfl
    exact absurd h (by rw [this]; exact lt_irrefl 0)
  · rintro ⟨a, n, hcount, h1, h2⟩
    obtain ⟨ha, hb, hn⟩ := (counts_iff v net k m a n).1 hcount
    unfold over
    refine lt_of_lt_of_le (mul_pos h1 h2) (le_trans ?_ (List.single_le_sum (l := net.map _) (fun x hx => ?_) _ (List.mem_map.2 ⟨a, ha, rfl⟩)))
    · rw [if_pos hb]
      exact single_le_sum (f := fun n : Fin d → ℤ => c a.dof * radius a.dof ^ 3 * f ((n k : K) / (n v : K))) (fun n _ => mul_nonneg (hp a ha) (hf _)) hn
    · obtain ⟨b, hb', rfl⟩ := List.mem_map.1 hx
      exact term b hb'

/-! ## The mean ratio -/

theorem volumeRatio_some (v k : Fin d) (net : List (Cluster d)) (radius c : ℕ → K) (m : ℕ) :
    volumeRatio (some v) net radius c k m = if volumeSum v net radius c k m = 0 then none
      else some (ratioSum v net radius c k m / volumeSum v net radius c k m) := rfl

theorem ratioVariance_some (v k : Fin d) (net : List (Cluster d)) (radius c : ℕ → K) (x : K) (m : ℕ) :
    ratioVariance (some v) net radius c k x m = if volumeSum v net radius c k m = 0 then none
      else some (spreadSum v net radius c k x m / volumeSum v net radius c k m) := rfl

/-- The mean has a value exactly if some bubble that counts is there, and then it is the mean of the ratios of all compositions of all bubbles. -/
theorem ratio_iff (v k : Fin d) (net : List (Cluster d)) (h : Narrow v k net) (radius c : ℕ → K) (m : ℕ)
    (hp : ∀ a ∈ net, 0 ≤ c a.dof * radius a.dof ^ 3) (r : K) :
    volumeRatio (some v) net radius c k m = some r ↔
      (∃ a n, Counts v net k m a n ∧ 0 < c a.dof * radius a.dof ^ 3) ∧
        r * over v net radius c k m (fun _ => 1) = over v net radius c k m fun x => x := by
  have h1 := over_pos v net radius c k m (fun _ => 1) hp fun _ => zero_le_one
  simp only [zero_lt_one, and_true] at h1
  rw [← h1]
  have h0 : 0 ≤ over v net radius c k m fun _ => 1 := by
    have := over_mono v net radius c k m (fun _ => 0) (fun _ => 1) hp fun _ _ _ => zero_le_one
    unfold over at this ⊢
    simpa using this
  rw [volumeRatio_some, volumeSum_eq v k net (fun a ha => (h.2 a ha).1), ratioSum_eq v k net h]
  by_cases hz : over v net radius c k m (fun _ => 1) = 0
  · rw [if_pos hz]; simp [hz]
  · rw [if_neg hz, Option.some.injEq, div_eq_iff hz]
    exact ⟨fun e => ⟨lt_of_le_of_ne h0 (Ne.symm hz), e.symm⟩, fun e => e.2.symm⟩

/-- **The mean lies between the smallest and the largest ratio.** -/
theorem ratio_between (v k : Fin d) (net : List (Cluster d)) (h : Narrow v k net) (radius c : ℕ → K) (m : ℕ)
    (hp : ∀ a ∈ net, 0 ≤ c a.dof * radius a.dof ^ 3) (lo hi r : K)
    (hb : ∀ a n, Counts v net k m a n → lo ≤ (n k : K) / (n v : K) ∧ (n k : K) / (n v : K) ≤ hi)
    (hr : volumeRatio (some v) net radius c k m = some r) : lo ≤ r ∧ r ≤ hi := by
  obtain ⟨hex, e⟩ := (ratio_iff v k net h radius c m hp r).1 hr
  have hpos : 0 < over v net radius c k m fun _ => 1 := by
    rw [over_pos v net radius c k m (fun _ => 1) hp fun _ => zero_le_one]
    simpa using hex
  have l1 := over_mono v net radius c k m (fun _ => lo * 1 + 0 * 1) (fun x => x) hp fun a n hc => by simpa using (hb a n hc).1
  have l2 := over_mono v net radius c k m (fun x => x) (fun _ => hi * 1 + 0 * 1) hp fun a n hc => by simpa using (hb a n hc).2
  rw [over_add] at l1 l2
  constructor
  · refine le_of_mul_le_mul_right ?_ hpos
    linarith
  · refine le_of_mul_le_mul_right ?_ hpos
    linarith

/-- **All concentrations times the same number** leave the mean as it is. -/
theorem over_scale (v k : Fin d) (net : List (Cluster d)) (radius c : ℕ → K) (m : ℕ) (s : K) (f : K → K) :
    over v net radius (fun i => s * c i) k m f = s * over v net radius c k m f := by
  unfold over
  rw [← sum_map_smul]
  refine congrArg List.sum (List.map_congr_left fun a _ => ?_)
  split
  · rw [mul_sum]
    exact sum_congr rfl fun n _ => by ring
  · ring

theorem ratio_scale (v k : Fin d) (net : List (Cluster d)) (h : Narrow v k net) (radius c : ℕ → K) (m : ℕ) (s : K) (hs : s ≠ 0) :
    volumeRatio (some v) net radius (fun i => s * c i) k m = volumeRatio (some v) net radius c k m := by
  have hB : Boxes net := fun a ha => (h.2 a ha).1
  rw [volumeRatio_some, volumeRatio_some, volumeSum_eq v k net hB, ratioSum_eq v k net h, volumeSum_eq v k net hB, ratioSum_eq v k net h, over_scale, over_scale, mul_div_mul_left _ _ hs]
  simp [hs]

/-- **The variance around any number**: the mean of the squares, less twice the number times the mean, plus its square. -/
theorem variance_eq (v k : Fin d) (net : List (Cluster d)) (h : Narrow v k net) (radius c : ℕ → K) (m : ℕ)
    (hz : over v net radius c k m (fun _ => 1) ≠ 0) (x : K) :
    ratioVariance (some v) net radius c k x m =
      some (over v net radius c k m (fun y => y ^ 2) / over v net radius c k m (fun _ => 1)
        - 2 * x * (over v net radius c k m (fun y => y) / over v net radius c k m fun _ => 1) + x ^ 2) := by
  rw [ratioVariance_some, volumeSum_eq v k net (fun a ha => (h.2 a ha).1), spreadSum_eq v k net h, if_neg hz]
  have e1 : (fun y : K => (y - x) ^ 2) = fun y => 1 * y ^ 2 + 1 * ((-2 * x) * y + x ^ 2 * 1) := by funext y; ring
  rw [e1, over_add v net radius c k m (fun y => y ^ 2) (fun y => (-2 * x) * y + x ^ 2 * 1) 1 1,
    over_add v net radius c k m (fun y => y) (fun _ => 1) (-2 * x) (x ^ 2)]
  congr 1
  field_simp
  ring

/-- **The variance around the mean** is the mean of the squares less the square of the mean; around any other number it is larger, by the square of the distance. -/
theorem variance_mean (v k : Fin d) (net : List (Cluster d)) (h : Narrow v k net) (radius c : ℕ → K) (m : ℕ) (r x s : K)
    (hr : volumeRatio (some v) net radius c k m = some r) (hs : ratioVariance (some v) net radius c k r m = some s) :
    s = over v net radius c k m (fun y => y ^ 2) / over v net radius c k m (fun _ => 1) - r ^ 2 ∧
    ratioVariance (some v) net radius c k x m = some (s + (x - r) ^ 2) := by
  have hB : Boxes net := fun a ha => (h.2 a ha).1
  rw [volumeRatio_some, volumeSum_eq v k net hB, ratioSum_eq v k net h] at hr
  by_cases hz : over v net radius c k m (fun _ => 1) = 0
  · rw [if_pos hz] at hr; exact absurd hr (by simp)
  · rw [if_neg hz, Option.some.injEq] at hr
    rw [variance_eq v k net h radius c m hz, Option.some.injEq, hr] at hs
    rw [variance_eq v k net h radius c m hz, hr, ← hs]
    exact ⟨by ring, by congr 1; ring⟩

/-- **The variance is not negative**, and it vanishes exactly if all bubbles that are there have the same ratio. -/
theorem variance_nonneg (v k : Fin d) (net : List (Cluster d)) (h : Narrow v k net) (radius c : ℕ → K) (m : ℕ)
    (hp : ∀ a ∈ net, 0 ≤ c a.dof * radius a.dof ^ 3) (x s : K) (hs : ratioVariance (some v) net radius c k x m = some s) :
    0 ≤ s ∧ (s = 0 ↔ ∀ a n, Counts v net k m a n → 0 < c a.dof * radius a.dof ^ 3 → (n k : K) / (n v : K) = x) := by
  have hB : Boxes net := fun a ha => (h.2 a ha).1
  have sq := over_pos v net radius c k m (fun y => (y - x) ^ 2) hp fun y => sq_nonneg _
  have zero : over v net radius c k m (fun _ => 0) = 0 := by
    unfold over
    refine List.sum_eq_zero fun y hy => ?_
    obtain ⟨a, _, rfl⟩ := List.mem_map.1 hy
    split <;> simp
  have sq0 : 0 ≤ over v net radius c k m (fun y => (y - x) ^ 2) := by
    have := over_mono v net radius c k m (fun _ => 0) (fun y => (y - x) ^ 2) hp fun a n _ => sq_nonneg _
    rwa [zero] at this
  have one0 : 0 ≤ over v net radius c k m (fun _ => 1) := by
    have := over_mono v net radius c k m (fun _ => 0) (fun _ => 1) hp fun a n _ => zero_le_one
    rwa [zero] at this
  rw [ratioVariance_some, volumeSum_eq v k net hB, spreadSum_eq v k net h] at hs
  by_cases hz : over v net radius c k m (fun _ => 1) = 0
  · rw [if_pos hz] at hs; exact absurd hs (by simp)
  · rw [if_neg hz, Option.some.injEq] at hs
    subst hs
    refine ⟨div_nonneg sq0 one0, ?_⟩
    rw [div_eq_zero_iff, or_iff_left hz]
    constructor
    · intro e a n hc hpos
      by_contra hne
      have := sq.2 ⟨a, n, hc, hpos, by have := sub_ne_zero.2 hne; positivity⟩
      exact absurd this (by rw [e]; exact lt_irrefl 0)
    · intro hall
      by_contra hne
      obtain ⟨a, n, hc, hpos, hgt⟩ := sq.1 (lt_of_le_of_ne sq0 (Ne.symm hne))
      rw [hall a n hc hpos] at hgt
      simp at hgt

/-! ## Where they are wrong -/

/-- A network with a third species along which a bubble is two wide. -/
def wide : List (Cluster 3) := [⟨0, fun _ => none, fun i => if i = 2 then ⟨0, 2⟩ else ⟨2, 3⟩⟩]

/-- **Not a mean where bubbles are groups along another species**: the volume counts every composition and the sum of the ratios only one for each pair of sizes; a bubble with two of everything has the ratio one half, and the variance around it, which should vanish, is one eighth. -/
theorem wide_wrong : volumeRatio (some 1) wide (fun _ => 1) (fun _ => (1 : ℚ)) 0 2 = some (1 / 2) ∧
    (∀ a n, Counts 1 wide 0 2 a n → (n 0 : ℚ) / (n 1 : ℚ) = 1) ∧
    ratioVariance (some 1) wide (fun _ => 1) (fun _ => (1 : ℚ)) 0 (1 / 2) 2 = some (1 / 8) := by
  refine ⟨by decide +kernel, ?_, by decide +kernel⟩
  rintro a n ⟨ha, _, hn, _⟩
  rw [wide, List.mem_singleton] at ha
  subst ha
  have h0 := hn 0
  have h1 := hn 1
  simp at h0 h1
  have e0 : n 0 = 2 := by omega
  have e1 : n 1 = 2 := by omega
  rw [e0, e1]
  norm_num

/-- **Exactly by how much**: with `w` compositions of other species in every bubble, the mean is the true one divided by `w`. -/
theorem wide_by (v k : Fin d) (hvk : v ≠ k) (net : List (Cluster d)) (h : Boxes net) (radius c : ℕ → K) (m : ℕ) (w : K)
    (hw : ∀ a ∈ net, others a v k = w) (f : K) (hf : over v net radius c k m (fun _ => 1) ≠ 0)
    (hr : volumeRatio (some v) net radius c k m = some f) :
    f * w = over v net radius c k m (fun x => x) / over v net radius c k m fun _ => 1 := by
  rw [volumeRatio_some, volumeSum_eq v k net h, if_neg hf, Option.some.injEq] at hr
  rw [← hr, div_mul_eq_mul_div]
  congr 1
  unfold ratioSum over
  rw [mul_comm, ← sum_map_smul]
  refine congrArg List.sum (List.map_congr_left fun a ha => ?_)
  split
  · have := cluster_sum a v k hvk (h a ha) m fun j l => c a.dof * (j : K) * (radius a.dof * radius a.dof * radius a.dof) / (l : K)
    rw [hw a ha] at this
    rw [mul_comm, this]
    exact sum_congr rfl fun n _ => by ring
  · ring

/-- **The overload for species ids drops the mean**: whatever is passed, it computes the spread around the minimum size, over all sizes. -/
theorem byId (v : Option (Fin d)) (net : List (Cluster d)) (radius c : ℕ → K) (k : Fin d) (x y : K) (m : ℕ) :
    ratioVarianceById v net radius c k x m = ratioVarianceById v net radius c k y m ∧
    ratioVarianceById v net radius c k x m = ratioVariance v net radius c k (m : K) 0 := ⟨rfl, rfl⟩

/-- Bubbles with two of both, and vacancies alone. -/
def plain : List (Cluster 2) := [⟨0, fun _ => none, fun _ => ⟨2, 3⟩⟩, ⟨1, fun _ => none, fun i => if i = 0 then ⟨0, 1⟩ else ⟨1, 2⟩⟩]

theorem plain_narrow : Narrow 1 0 plain := by
  refine ⟨by decide, ?_⟩
  intro a ha
  simp only [plain, List.mem_cons, List.not_mem_nil, or_false] at ha
  rcases ha with rfl | rfl
  · refine ⟨fun i => by simp, fun i h1 h2 => ?_⟩
    fin_cases i <;> simp_all
  · refine ⟨fun i => by fin_cases i <;> simp, fun i h1 h2 => ?_⟩
    fin_cases i <;> simp_all

/-- The same bubbles have no variance, and five halves by the overload. -/
theorem byId_wrong : ratioVariance (some 1) plain (fun _ => 1) (fun _ => (1 : ℚ)) 0 1 2 = some 0 ∧
    ratioVarianceById (some 1) plain (fun _ => 1) (fun _ => (1 : ℚ)) 0 1 2 = some (5 / 2) := by decide +kernel

/-! ## The columns of the monitor -/

/-- **With next to no xenon** the columns are zero, whatever bubbles there are. -/
theorem columns_empty (v : Option (Fin d)) (net : List (Cluster d)) (radius c : ℕ → K) (xe : Fin d)
    (h : totalAtoms net c xe 1 < 1 / 10 ^ 16) : columns v net radius c xe = (some 0, some 0) := by
  unfold columns; rw [if_pos h]

/-- **Otherwise** they are the mean and the spread around it. -/
theorem columns_mean (v xe : Fin d) (net : List (Cluster d)) (hn : Narrow v xe net) (radius c : ℕ → K)
    (h : 1 / 10 ^ 16 ≤ totalAtoms net c xe 1) (hz : over v net radius c xe 2 (fun _ => 1) ≠ 0) :
    columns (some v) net radius c xe =
      (some (over v net radius c xe 2 (fun x => x) / over v net radius c xe 2 fun _ => 1),
       some (over v net radius c xe 2 (fun x => x ^ 2) / over v net radius c xe 2 (fun _ => 1)
        - (over v net radius c xe 2 (fun x => x) / over v net radius c xe 2 fun _ => 1) ^ 2)) := by
  have hB : Boxes net := fun a ha => (hn.2 a ha).1
  have e : volumeRatio (some v) net radius c xe 2 = some (over v net radius c xe 2 (fun x => x) / over v net radius c xe 2 fun _ => 1) := by
    rw [volumeRatio_some, volumeSum_eq v xe net hB, ratioSum_eq v xe net hn, if_neg hz]
  unfold columns
  rw [if_neg (not_lt.2 h)]
  simp only [e, Option.bind_some]
  rw [variance_eq v xe net hn radius c 2 hz]
  refine Prod.ext rfl ?_
  simp only [Option.some.injEq]
  ring

/-- **Xenon without bubbles has no mean**: the guard looks at all xenon and the mean at clusters with vacancies and at least two atoms; whenever there is xenon but no such cluster, both columns are a quotient of two zeros. -/
theorem columns_undefined (v xe : Fin d) (net : List (Cluster d)) (hB : Boxes net) (radius c : ℕ → K)
    (h : 1 / 10 ^ 16 ≤ totalAtoms net c xe 1) (hno : ∀ a n, Counts v net xe 2 a n → c a.dof = 0) :
    columns (some v) net radius c xe = (none, none) := by
  have hz : over v net radius c xe 2 (fun _ => 1) = 0 := by
    unfold over
    refine List.sum_eq_zero fun y hy => ?_
    obtain ⟨a, ha, rfl⟩ := List.mem_map.1 hy
    split
    · rename_i hb
      exact sum_eq_zero fun n hn => by rw [hno a n ((counts_iff v net xe 2 a n).2 ⟨ha, hb, hn⟩)]; ring
    · rfl
  unfold columns
  rw [if_neg (not_lt.2 h)]
  simp [volumeRatio_some, volumeSum_eq v xe net hB, hz]

/-- A network of a lone xenon atom and a bubble that is not there. -/
def lone : List (Cluster 2) := [⟨0, fun _ => none, fun i => if i = 0 then ⟨1, 2⟩ else ⟨0, 1⟩⟩, ⟨1, fun _ => none, fun _ => ⟨2, 3⟩⟩]

example : columns (some 1) lone (fun _ => 1) (fun i => if i = 0 then (1 : ℚ) else 0) 0 = (none, none) := by decide +kernel

example : volumeRatio (some 1) plain (fun _ => 1) (fun _ => (1 : ℚ)) 0 2 = some 1 := by decide +kernel

example : volumeRatio (some 1) plain (fun _ => 1) (fun _ => (1 : ℚ)) 0 0 = some (1 / 2) ∧
    ratioVariance (some 1) plain (fun _ => 1) (fun _ => (1 : ℚ)) 0 (1 / 2) 0 = some (1 / 4) := by decide +kernel

/-! ## The volume fraction, and the vacancy -/

/-- **The volume fraction** is the volume of spheres of the clusters' radii, over every composition. -/
theorem volumeFraction_eq (pi : K) (net : List (Cluster d)) (h : Boxes net) (radius c : ℕ → K) (k : Fin d) (m : ℕ) :
    volumeFraction pi net radius c k m = (net.map fun a => ∑ _n ∈ from_ a k m, c a.dof * (4 / 3 * pi * radius a.dof ^ 3)).sum := by
  unfold volumeFraction
  rw [mul_comm, ← sum_map_smul]
  refine congrArg List.sum (List.map_congr_left fun a ha => ?_)
  rw [sum_sizes a k m (h a ha) fun _ => c a.dof * (radius a.dof * radius a.dof * radius a.dof), mul_sum]
  exact sum_congr rfl fun n _ => by ring

/-- **It is the quantity `volume`** of `getTotals`, times four thirds of pi. -/
theorem volumeFraction_method (pi : K) (v : Fin d) (net : List (Cluster d)) (radius c : ℕ → K) (q : Quantity d) :
    volumeFraction pi net radius c q.species q.minSize =
      (net.map fun a => method v .volume q (c a.dof) (radius a.dof) a).sum * (4 * pi / 3) := by
  unfold volumeFraction
  congr 2
  refine List.map_congr_left fun a _ => ?_
  unfold method
  rw [if_neg (by simp)]
  exact sum_congr rfl fun j _ => by simp only [contribution, updateFactor]; ring

example : volumeFraction (3 : ℚ) plain (fun i => i + 1) (fun _ => 1) 0 1 = 4 ∧ volumeFraction (3 : ℚ) plain (fun i => i + 1) (fun _ => 1) 0 0 = 36 := by decide +kernel

/-- **The vacancy is found** if and only if a species is one, and it is one; without, the mean and the variance are zero. -/
theorem vacancy_found (l : List (Fin d)) (p : Fin d → Bool) :
    (∀ i, findVacancy l p = some i → i ∈ l ∧ p i) ∧ (findVacancy l p = none ↔ ∀ i ∈ l, p i = false) := by
  unfold findVacancy
  induction l using List.reverseRecOn with
  | nil => simp
  | append_singleton l x ih =>
    rw [List.foldl_append]
    simp only [List.foldl_cons, List.foldl_nil]
    by_cases hx : p x = true
    · rw [if_pos hx]
      refine ⟨fun i hi => ?_, by simp; exact .inr hx⟩
      obtain rfl := Option.some.inj hi
      exact ⟨by simp, hx⟩
    · rw [if_neg hx]
      refine ⟨fun i hi => ⟨List.mem_append_left _ (ih.1 i hi).1, (ih.1 i hi).2⟩, ?_⟩
      rw [ih.2]
      simp only [Bool.not_eq_true] at hx
      simp [or_imp, forall_and, hx]

theorem no_vacancy (net : List (Cluster d)) (radius c : ℕ → K) (k : Fin d) (x : K) (m : ℕ) :
    volumeRatio none net radius c k m = some 0 ∧ ratioVariance none net radius c k x m = some 0 := ⟨rfl, rfl⟩

example : findVacancy [0, 1, 2, (3 : Fin 4)] (fun i => i = 2) = some 2 := by decide

end Xolotl.Network.Averages
