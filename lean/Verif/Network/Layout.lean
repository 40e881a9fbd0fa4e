import Verif.Network.Region
import Verif.Network.RegionProps
import Verif.Network.Updates
import Mathlib.Algebra.Order.BigOperators.Ring.Finset
import Mathlib.Algebra.BigOperators.Field
import Mathlib.Tactic.Positivity

/-!
# Specification of the content of a network

A cluster of the network is a box of compositions with one degree of freedom for its mean concentration and,
for every axis on which it is grouped, one for its first moment.  The concentration it represents at a
composition `n` is `L0 + ∑ L1_i (n_i - mid_i)`.  The content of the network along an axis is
`∑ n_k C(n)` over all compositions of all clusters.  Nothing here refers to the reaction code.
-/

set_option linter.unusedSectionVars false

namespace Xolotl.Network

/-- A cluster (group) of the network, on the reflected axes used by the reactions. -/
structure Cluster (d : ℕ) where
  /-- degree of freedom of the mean concentration -/
  dof : ℕ
  /-- degrees of freedom of the first moments -/
  mom : Fin d → Option ℕ
  /-- the box of compositions -/
  reg : Fin d → Ival
  deriving DecidableEq

namespace Cluster

variable {d : ℕ} {K : Type*} [Field K] [LinearOrder K] [IsStrictOrderedRing K] (a : Cluster d)

/-- All compositions of the group. -/
def pts : Finset (Fin d → ℤ) := Fintype.piFinset fun i => (a.reg i).pts

/-- `Region::volume()`. -/
def vol : K := (a.pts.card : K)

/-- Concentration represented at composition `n` by the state `v`. -/
def conc (v : ℕ → K) (n : Fin d → ℤ) : K :=
  v a.dof + ∑ i, (a.mom i).elim 0 v * ((n i : K) - (a.reg i).mid)

/-- Content along axis `k` of the group. -/
def content (k : Fin d) (v : ℕ → K) : K := ∑ n ∈ a.pts, (n k : K) * a.conc v n

/-- Variance of the sizes of the group along an axis (`Region::dispersion()` of a grouped axis). -/
def var (k : Fin d) : K :=
  (∑ x ∈ (a.reg k).pts, ((x : K) - (a.reg k).mid) ^ 2) / ((a.reg k).pts.card : K)

/-- A box that is not empty and has a moment exactly on its grouped axes. -/
structure WF : Prop where
  pos : ∀ k, (a.reg k).b < (a.reg k).e
  mom : ∀ k, a.mom k = none ↔ (a.reg k).e = (a.reg k).b + 1

end Cluster

/-- Content of a network along an axis. -/
def totalContent {d : ℕ} {K : Type*} [Field K] [LinearOrder K] (net : Finset (Cluster d)) (k : Fin d)
    (v : ℕ → K) : K := ∑ a ∈ net, a.content k v

/-- The degrees of freedom of a network are pairwise distinct. -/
structure DofInj {d : ℕ} (net : Finset (Cluster d)) : Prop where
  dof : ∀ a ∈ net, ∀ b ∈ net, a.dof = b.dof → a = b
  momDof : ∀ a ∈ net, ∀ b ∈ net, ∀ i, a.mom i ≠ some b.dof
  mom : ∀ a ∈ net, ∀ b ∈ net, ∀ i j m, a.mom i = some m → b.mom j = some m → a = b ∧ i = j

/-! ### Evaluation of the content -/

section
variable {d : ℕ} {K : Type*} [Field K] [LinearOrder K] [IsStrictOrderedRing K]

theorem sum_pi_split {β : Type*} (s : Fin d → Finset β) (i : Fin d) (u : β → K)
    (F : (Fin d → β) → K) (hF : ∀ x q, F (Function.update x i q) = F x) :
    ((s i).card : K) * ∑ x ∈ Fintype.piFinset s, u (x i) * F x
      = (∑ q ∈ s i, u q) * ∑ x ∈ Fintype.piFinset s, F x := by
  rw [Finset.sum_mul_sum, ← nsmul_eq_mul, ← Finset.sum_const]
  rw [← Finset.sum_product', ← Finset.sum_product']
  refine Finset.sum_bij' (fun p _ => (p.2 i, Function.update p.2 i p.1))
    (fun p _ => (p.2 i, Function.update p.2 i p.1)) ?_ ?_ ?_ ?_ ?_
  · rintro ⟨q, x⟩ h
    simp only [Finset.mem_product, Fintype.mem_piFinset] at h ⊢
    refine ⟨h.2 i, fun j => ?_⟩
    by_cases hj : j = i
    · subst hj; simpa using h.1
    · simpa [Function.update_of_ne hj] using h.2 j
  · rintro ⟨q, x⟩ h
    simp only [Finset.mem_product, Fintype.mem_piFinset] at h ⊢
    refine ⟨h.2 i, fun j => ?_⟩
    by_cases hj : j = i
    · subst hj; simpa using h.1
    · simpa [Function.update_of_ne hj] using h.2 j
  · rintro ⟨q, x⟩ h
    simp
  · rintro ⟨q, x⟩ h
    simp
  · rintro ⟨q, x⟩ h
    simp [hF]

theorem Ival.sum_dev (I : Ival) : ∑ x ∈ I.pts, ((x : K) - I.mid) = 0 := by
  have h : ∑ x ∈ I.pts, ((x : K) - I.mid) = ∑ x ∈ I.pts, -((x : K) - I.mid) := by
    refine Finset.sum_bij' (fun x _ => I.e - 1 + I.b - x) (fun x _ => I.e - 1 + I.b - x)
      ?_ ?_ ?_ ?_ ?_
    · intro x hx; rw [mem_pts] at hx ⊢; omega
    · intro x hx; rw [mem_pts] at hx ⊢; omega
    · intro x _; simp
    · intro x _; simp
    · intro x _
      simp only [Ival.mid]; push_cast; ring
  rw [Finset.sum_neg_distrib] at h
  linarith

namespace Cluster

variable (a : Cluster d)

theorem sum_dev_mul (ha : a.WF) (i : Fin d) (F : (Fin d → ℤ) → K)
    (hF : ∀ x q, F (Function.update x i q) = F x) :
    ∑ x ∈ a.pts, ((x i : K) - (a.reg i).mid) * F x = 0 := by
  have h := sum_pi_split (fun i => (a.reg i).pts) i (fun y => ((y : K) - (a.reg i).mid)) F hF
  rw [Ival.sum_dev, zero_mul] at h
  have hc : (((a.reg i).pts.card : ℕ) : K) ≠ 0 := by
    have : (a.reg i).b ∈ (a.reg i).pts := mem_pts.mpr ⟨le_rfl, ha.pos i⟩
    exact_mod_cast (Finset.card_pos.mpr ⟨_, this⟩).ne'
  exact (mul_eq_zero.mp h).resolve_left hc

theorem sum_sq (ha : a.WF) (k : Fin d) :
    ∑ x ∈ a.pts, ((x k : K) - (a.reg k).mid) ^ 2 = a.vol * a.var k := by
  have h := sum_pi_split (fun i => (a.reg i).pts) k (fun y => ((y : K) - (a.reg k).mid) ^ 2)
    (fun _ => 1) (fun _ _ => rfl)
  have hc : (((a.reg k).pts.card : ℕ) : K) ≠ 0 := by
    have : (a.reg k).b ∈ (a.reg k).pts := mem_pts.mpr ⟨le_rfl, ha.pos k⟩
    exact_mod_cast (Finset.card_pos.mpr ⟨_, this⟩).ne'
  simp only [mul_one, Finset.sum_const, nsmul_eq_mul] at h
  unfold vol var pts
  field_simp
  rw [mul_comm, h, mul_comm]

theorem content_eq (ha : a.WF) (k : Fin d) (v : ℕ → K) :
    a.content k v = a.vol * ((a.reg k).mid * v a.dof + a.var k * (a.mom k).elim 0 v) := by
  unfold content conc
  have h1 : ∑ x ∈ a.pts, ((x k : K) - (a.reg k).mid) = 0 := by
    have := a.sum_dev_mul (K := K) ha k (fun _ => 1) (fun _ _ => rfl)
    simpa using this
  have e : ∀ n : Fin d → ℤ, (n k : K) * (v a.dof +
      ∑ i, (a.mom i).elim 0 v * ((n i : K) - (a.reg i).mid)) =
      (a.reg k).mid * v a.dof + v a.dof * ((n k : K) - (a.reg k).mid) +
      ∑ i, (a.mom i).elim 0 v * (((n i : K) - (a.reg i).mid) * n k) := by
    intro n
    rw [mul_add, Finset.mul_sum]
    congr 1
    · ring
    · exact Finset.sum_congr rfl fun i _ => by ring
  simp only [e, Finset.sum_add_distrib, Finset.sum_const, nsmul_eq_mul]
  rw [← Finset.mul_sum, h1, Finset.sum_comm]
  simp only [← Finset.mul_sum]
  rw [Finset.sum_eq_single k]
  · have h2 : ∑ x ∈ a.pts, ((x k : K) - (a.reg k).mid) * (x k : K) = a.vol * a.var k := by
      rw [← a.sum_sq ha k]
      have : ∀ x : Fin d → ℤ, ((x k : K) - (a.reg k).mid) * (x k : K) =
          ((x k : K) - (a.reg k).mid) ^ 2 + (a.reg k).mid * ((x k : K) - (a.reg k).mid) := by
        intro x; ring
      simp only [this, Finset.sum_add_distrib, ← Finset.mul_sum, h1]
      simp
    rw [h2]
    unfold vol
    ring
  · intro i _ hi
    rw [a.sum_dev_mul ha i (fun x => (x k : K)) (fun x q => by
      rw [Function.update_of_ne (fun e => hi e.symm)]), mul_zero]
  · simp

theorem vol_ne (ha : a.WF) : (a.vol : K) ≠ 0 := by
  unfold vol pts
  rw [Fintype.card_piFinset]
  push_cast
  refine Finset.prod_ne_zero_iff.mpr fun i _ => ?_
  have : (a.reg i).b ∈ (a.reg i).pts := mem_pts.mpr ⟨le_rfl, ha.pos i⟩
  exact_mod_cast (Finset.card_pos.mpr ⟨_, this⟩).ne'

theorem var_ne (ha : a.WF) {k : Fin d} {m : ℕ} (hm : a.mom k = some m) : (a.var k : K) ≠ 0 := by
  have hb : (a.reg k).b ∈ (a.reg k).pts := mem_pts.mpr ⟨le_rfl, ha.pos k⟩
  have hl : (a.reg k).e ≠ (a.reg k).b + 1 := fun e => by
    rw [(ha.mom k).mpr e] at hm; simp at hm
  have hp : 0 < ∑ x ∈ (a.reg k).pts, ((x : K) - (a.reg k).mid) ^ 2 := by
    refine Finset.sum_pos' (fun x _ => sq_nonneg _) ⟨(a.reg k).b, hb, ?_⟩
    refine sq_pos_of_ne_zero ?_
    intro h0
    have : ((a.reg k).e : K) = ((a.reg k).b + 1 : ℤ) := by
      simp only [Ival.mid] at h0
      push_cast at h0 ⊢
      linarith
    exact hl (by exact_mod_cast this)
  have hc : (0 : K) < (a.reg k).pts.card := by exact_mod_cast Finset.card_pos.mpr ⟨_, hb⟩
  unfold var
  positivity

end Cluster

/-- Weighted sum of a list of updates. -/
def wsum (W : ℕ → K) (l : List (ℕ × K)) : K := (l.map fun u => W u.1 * u.2).sum

theorem wsum_append (W : ℕ → K) (l l' : List (ℕ × K)) : wsum W (l ++ l') = wsum W l + wsum W l' := by
  simp [wsum]

theorem wsum_cons (W : ℕ → K) (u : ℕ × K) (l : List (ℕ × K)) :
    wsum W (u :: l) = W u.1 * u.2 + wsum W l := by simp [wsum]

theorem wsum_nil (W : ℕ → K) : wsum W ([] : List (ℕ × K)) = 0 := rfl

theorem wsum_emit (W : ℕ → K) (e : Option ℕ) (v : K) :
    wsum W (emit e v) = e.elim 0 W * v := by
  cases e <;> simp [emit, wsum]

theorem wsum_finRange {n : ℕ} (W : ℕ → K) (f : Fin n → List (ℕ × K)) :
    wsum W ((List.finRange n).flatMap f) = ∑ i, wsum W (f i) := by
  rw [Fin.sum_univ_def]
  generalize List.finRange n = l
  induction l with
  | nil => rfl
  | cons a l ih => simp [wsum_append, ih]

/-- Weight of a degree of freedom in the content of a network. -/
noncomputable def weight (net : Finset (Cluster d)) (k : Fin d) (n : ℕ) : K :=
  ∑ a ∈ net, a.vol * ((a.reg k).mid * (if a.dof = n then 1 else 0) +
    a.var k * (if a.mom k = some n then 1 else 0))

theorem totalContent_netOf (net : Finset (Cluster d)) (hw : ∀ a ∈ net, a.WF) (k : Fin d)
    (l : List (ℕ × K)) : totalContent net k (netOf l) = wsum (weight net k) l := by
  have h : ∀ v : ℕ → K, totalContent net k v = ∑ a ∈ net,
      a.vol * ((a.reg k).mid * v a.dof + a.var k * (a.mom k).elim 0 v) := fun v =>
    Finset.sum_congr rfl fun a ha => a.content_eq (hw a ha) k v
  induction l with
  | nil =>
    rw [h, wsum_nil]
    refine Finset.sum_eq_zero fun a _ => ?_
    cases a.mom k <;> simp [netOf]
  | cons u l ih =>
    rw [wsum_cons, ← ih, h, h, weight, Finset.sum_mul, ← Finset.sum_add_distrib]
    refine Finset.sum_congr rfl fun a _ => ?_
    rw [netOf_cons]
    have hm : (a.mom k).elim 0 (netOf (u :: l)) =
        (if a.mom k = some u.1 then u.2 else 0) + (a.mom k).elim 0 (netOf l) := by
      cases hk : a.mom k with
      | none => simp
      | some m => simp [netOf_cons, eq_comm]
    rw [hm, if_congr (eq_comm (a := u.1)) rfl rfl]
    split_ifs <;> ring

theorem weight_dof (net : Finset (Cluster d)) (hi : DofInj net) (k : Fin d) {a : Cluster d}
    (ha : a ∈ net) : (weight net k a.dof : K) = a.vol * (a.reg k).mid := by
  unfold weight
  rw [Finset.sum_eq_single a]
  · rw [if_pos rfl, if_neg (hi.momDof a ha a ha k)]; ring
  · intro b hb hne
    rw [if_neg (fun e => hne (hi.dof b hb a ha e)), if_neg (hi.momDof b hb a ha k)]; ring
  · intro h; exact absurd ha h

theorem weight_mom (net : Finset (Cluster d)) (hi : DofInj net) (k i : Fin d) {a : Cluster d}
    (ha : a ∈ net) {m : ℕ} (hm : a.mom i = some m) :
    (weight net k m : K) = if i = k then a.vol * a.var k else 0 := by
  unfold weight
  rw [Finset.sum_eq_single a]
  · rw [if_neg (fun e => hi.momDof a ha a ha i (by rw [hm, e]))]
    by_cases h : i = k
    · subst h; rw [if_pos hm, if_pos rfl]; ring
    · rw [if_neg h, if_neg (fun e => h (hi.mom a ha a ha i k m hm e).2)]; ring
  · intro b hb hne
    rw [if_neg (fun e => hi.momDof a ha b hb i (by rw [hm, e])),
      if_neg (fun e => hne (hi.mom b hb a ha k i m e hm).1)]
    ring
  · intro h; exact absurd ha h

end

end Xolotl.Network
