import Verif.Network.Simple
import Verif.Network.Layout
import Verif.Network.ProductionProps
import Mathlib.Tactic.NormNum

/-!
# C06, C08-C10, C47: trap mutation, nucleation, sinks and the left side rate
-/

set_option linter.unusedSectionVars false

namespace Xolotl.Network

/-! ### Trap mutation -/

namespace TmRxn

section
variable {d : ℕ} {K : Type*} [Field K] [LinearOrder K] [IsStrictOrderedRing K]
  (r : TmRxn K) (t : TmData K)

/-- A cluster with a single composition `n`. -/
def IsSingle (a : Cluster d) (n : Fin d → ℤ) : Prop :=
  (∀ k, a.mom k = none) ∧ ∀ k, a.reg k = ⟨n k, n k + 1⟩

theorem IsSingle.content {a : Cluster d} {n : Fin d → ℤ} (h : IsSingle a n) (k : Fin d)
    (v : ℕ → K) : a.content k v = n k * v a.dof := by
  have hp : a.pts = {n} := by
    ext x
    simp only [Cluster.pts, Fintype.mem_piFinset, mem_pts, h.2, Finset.mem_singleton]
    constructor
    · intro hx; funext i; have := hx i; omega
    · rintro rfl i; omega
  simp [Cluster.content, hp, Cluster.conc, h.1]

/-- **C06 (trap mutation)** Between single clusters of compositions `x`, `y`, `z` with `x = y + z` (He_n = He_nV_k + I_k, interstitials counting
negatively on the vacancy axis) the reaction conserves the content of the network along every axis, enabled or not, whatever the
rate, and even if other participants coincide. -/
theorem trapMutation_conserves (net : Finset (Cluster d)) (hw : ∀ a ∈ net, a.WF)
    (hi : DofInj net) {a b e : Cluster d} (ha : a ∈ net) (hb : b ∈ net) (he : e ∈ net)
    (x y z : Fin d → ℤ) (hx : IsSingle a x) (hy : IsSingle b y) (hz : IsSingle e z)
    (hsum : x = y + z) (ra : r.he = a.dof) (rb : r.heV = b.dof) (re : r.i = e.dof)
    (k : Fin d) (c : ℕ → K) : totalContent net k (netOf (r.computeFlux t c)) = 0 := by
  have hwt : ∀ {a : Cluster d} {n : Fin d → ℤ}, a ∈ net → IsSingle a n →
      (weight net k a.dof : K) = n k := by
    intro a n ha h
    rw [weight_dof net hi k ha]
    have hp : a.pts = {n} := by
      ext x
      simp only [Cluster.pts, Fintype.mem_piFinset, mem_pts, h.2, Finset.mem_singleton]
      constructor
      · intro hx; funext i; have := hx i; omega
      · rintro rfl i; omega
    simp [Cluster.vol, hp, h.2 k, Ival.mid]
  rw [totalContent_netOf net hw]
  unfold computeFlux
  split_ifs
  · simp only [wsum_cons, wsum_nil, ra, rb, re, hwt ha hx, hwt hb hy, hwt he hz]
    have : (x k : K) = y k + z k := by rw [hsum]; simp
    rw [this]; ring
  · rfl

/-- **C06** A disabled reaction does nothing; an enabled one moves `rate · c(He)` from the helium cluster to both products. -/
theorem trapMutation_flux (hn1 : r.he ≠ r.heV) (hn2 : r.he ≠ r.i) (hn3 : r.heV ≠ r.i) (c : ℕ → K) :
    (r.enabled t = false → ∀ n, netOf (r.computeFlux t c) n = 0) ∧
    (r.enabled t = true →
      netOf (r.computeFlux t c) r.he = -(r.appliedRate t * c r.he) ∧
      netOf (r.computeFlux t c) r.heV = r.appliedRate t * c r.he ∧
      netOf (r.computeFlux t c) r.i = r.appliedRate t * c r.he) := by
  constructor
  · intro h n; simp [computeFlux, h, netOf_nil]
  · intro h
    simp [computeFlux, h, netOf_cons, netOf_nil, hn1, hn2, hn3, hn1.symm, hn2.symm, hn3.symm]

/-- **C09 (trap mutation)** -/
theorem trapMutation_connectivity_covers :
    (∀ u ∈ r.computePartials t, u.1 ∈ r.computeConnectivity) ∧
    ∀ u ∈ r.computeReducedPartials t, u.1 ∈ r.computeReducedConnectivity := by
  constructor <;> intro u hu
  · unfold computePartials at hu
    split_ifs at hu <;> simp at hu
    rcases hu with rfl | rfl | rfl <;> simp [computeConnectivity]
  · unfold computeReducedPartials at hu
    split_ifs at hu <;> simp at hu
    subst hu; simp [computeReducedConnectivity]

/-- **C10 (trap mutation)** -/
theorem trapMutation_reduced_eq_diagonal (h1 : r.heV ≠ r.he) (h2 : r.i ≠ r.he) (n : ℕ) :
    netOf (r.computeReducedPartials t) (n, n) = netOf (r.computePartials t) (n, n) := by
  unfold computeReducedPartials computePartials
  split_ifs
  · have e1 : ¬ (r.heV = n ∧ r.he = n) := fun h => h1 (h.1.trans h.2.symm)
    have e2 : ¬ (r.i = n ∧ r.he = n) := fun h => h2 (h.1.trans h.2.symm)
    simp [netOf_cons, netOf_nil, e1, e2]
  · rfl

end

/-- **C08 (trap mutation)** For a given left side rate the Jacobian is the exact derivative of the flux. The left side rate multiplies
the flux of the desorbing cluster only; see `trapMutation_jacobian_desorption` for what happens there. -/
theorem trapMutation_jacobian_partial (r : TmRxn ℝ) (t : TmData ℝ) (c : ℕ → ℝ) (row col : ℕ) :
    HasDerivAt (fun x => netOf (r.computeFlux t (Function.update c col x)) row)
      (netOf (r.computePartials t) (row, col)) (c col) := by
  have hu : HasDerivAt (fun x => Function.update c col x r.he)
      (if r.he = col then 1 else 0) (c col) := by
    by_cases hm : r.he = col
    · subst hm; simpa using hasDerivAt_id' (c r.he)
    · simpa [hm, Function.update_of_ne hm] using hasDerivAt_const (c col) (c r.he)
  unfold computeFlux computePartials
  split_ifs with h
  · have hf := hu.const_mul (r.appliedRate t)
    simp only [netOf_cons, netOf_nil, Prod.mk.injEq, add_zero]
    have key : ∀ (n : ℕ) (s : ℝ), HasDerivAt (fun x => if n = row then
        s * (r.appliedRate t * Function.update c col x r.he) else 0)
        (if n = row ∧ r.he = col then s * r.appliedRate t else 0) (c col) := by
      intro n s
      by_cases hn : n = row
      · simp only [hn, if_true, true_and]
        refine (hf.const_mul s).congr_deriv ?_
        split_ifs <;> ring
      · simpa [hn] using hasDerivAt_const (c col) (0 : ℝ)
    have := ((key r.he (-1)).add ((key r.heV 1).add (key r.i 1)))
    simp only [neg_mul, one_mul] at this
    exact this
  · simpa [netOf_nil] using hasDerivAt_const (c col) (0 : ℝ)

/-- The flux of the modified trap mutation as evaluated by `computeAllFluxes`: the left side rate is recomputed from the current
concentrations first (PSIReactionNetwork.tpp:138-147, 319-335); here the desorbing cluster reacts in one production reaction. -/
noncomputable def fluxWithLeftSide (r : TmRxn ℝ) (t : TmData ℝ) (p : ProdRxn 0 ℝ) (c : ℕ → ℝ) : List (ℕ × ℝ) :=
  r.computeFlux { t with leftSide := p.leftSideRate c r.he } c

/-- The Jacobian as evaluated by `computeAllPartials`. -/
noncomputable def partialsWithLeftSide (r : TmRxn ℝ) (t : TmData ℝ) (p : ProdRxn 0 ℝ) (c : ℕ → ℝ) :
    List ((ℕ × ℕ) × ℝ) :=
  r.computePartials { t with leftSide := p.leftSideRate c r.he }

/-- He_1 desorbing; trap mutation 0 → 1 + 2. -/
noncomputable def witTm : TmRxn ℝ := ⟨0, 1, 2, 0, 1, 1⟩
/-- Data with He_1 as desorbing cluster, everything enabled. -/
noncomputable def witTmData : TmData ℝ := ⟨some 0, 1 / 2, 0, 1, fun _ => 1, fun _ => 1, fun _ => true⟩
/-- The production reaction 0 + 3 → nothing. -/
noncomputable def witTmProd : ProdRxn 0 ℝ where
  r1 := 0
  r2 := 3
  prod1 := none
  prod2 := none
  mom := fun _ i => i.elim0
  vol := fun _ => 1
  rate := 1
  coefs := fun _ _ _ _ => 1

/-- **C08 fails for the desorbing cluster**: the left side rate depends on the concentrations of the reaction partners, but the Jacobian
treats it as a constant (its derivative with respect to the partner, cluster 3, is missing). -/
theorem trapMutation_jacobian_desorption :
    ¬ ∀ (r : TmRxn ℝ) (t : TmData ℝ) (p : ProdRxn 0 ℝ) (c : ℕ → ℝ) (row col : ℕ),
      HasDerivAt (fun x => netOf (r.fluxWithLeftSide t p (Function.update c col x)) row)
        (netOf (r.partialsWithLeftSide t p c) (row, col)) (c col) := by
  intro h
  have h1 := h witTm witTmData witTmProd (fun _ => 1) 1 3
  have e1 : (fun x => netOf (witTm.fluxWithLeftSide witTmData witTmProd
      (Function.update (fun _ => 1) 3 x)) 1) = fun x : ℝ => x := by
    funext x
    simp [fluxWithLeftSide, computeFlux, enabled, appliedRate, ProdRxn.leftSideRate, netOf, witTm,
      witTmData, witTmProd]
  have e2 : netOf (witTm.partialsWithLeftSide witTmData witTmProd fun _ => 1) (1, 3) = 0 := by
    simp [partialsWithLeftSide, computePartials, enabled, appliedRate, netOf, witTm, witTmData]
  rw [e1, e2] at h1
  have := h1.unique (hasDerivAt_id (1 : ℝ))
  norm_num at this

end TmRxn

section
variable {K : Type*} [Field K] [LinearOrder K] [IsStrictOrderedRing K]

/-- **C47 (selection)** At a grid point at depth `depth` with left spacing `spacing`, exactly the reactions whose characteristic depth lies in the cell (extended
by 0.01 on both sides) are enabled; a zero characteristic depth is never enabled. -/
theorem tm_select_iff (t : TmData K) (depth spacing : K) (l : Fin 7) :
    (t.select depth spacing).enabled l = true ↔
      t.depths l ≠ 0 ∧ depth - spacing - 1 / 100 < t.depths l ∧ t.depths l < depth + 1 / 100 := by
  unfold TmData.select
  dsimp only
  split_ifs with h
  · simp [h]
  · simp [h, and_comm]

/-- Selecting twice is the same as selecting once: nothing of the previous selection survives. -/
theorem tm_select_select (t : TmData K) (d1 s1 d2 s2 : K) :
    (t.select d1 s1).select d2 s2 = t.select d2 s2 := rfl

/-- A grid whose cells cover a depth enables the reactions of that depth in at least one cell. -/
theorem tm_select_covered (t : TmData K) (x : ℕ → K) (n : ℕ) (l : Fin 7) (h0 : t.depths l ≠ 0)
    (hlo : x 0 ≤ t.depths l) (hhi : t.depths l ≤ x n) (hn : 0 < n) :
    ∃ i, i < n ∧ (t.select (x (i + 1)) (x (i + 1) - x i)).enabled l = true := by
  classical
  induction n with
  | zero => omega
  | succ n ih =>
    by_cases hc : t.depths l ≤ x n ∧ 0 < n
    · obtain ⟨i, hi, h⟩ := ih hc.1 hc.2
      exact ⟨i, by omega, h⟩
    · refine ⟨n, by omega, ?_⟩
      rw [tm_select_iff]
      have hx : x n ≤ t.depths l := by
        by_cases hn0 : 0 < n
        · exact le_of_lt (not_le.mp fun h => hc ⟨h, hn0⟩)
        · have : n = 0 := by omega
          subst this; exact hlo
      have : (0 : K) < 1 / 100 := by norm_num
      exact ⟨h0, by linarith, by linarith⟩

end

/-! ### The generator -/

/-- **C06 (generator)** Every modified trap-mutation reaction that is generated has He_n (with 1 ≤ n ≤ 7, nothing else) as
reactant, He_nV_k as first product for a tabulated `k`, and the cluster found for I_k as second product. -/
theorem addTrapMutations_spec (vs : Fin 7 → List ℕ) (find : PsiComp → Option ℕ) (i j : ℕ)
    (s1 s2 : Bool) (lo1 lo2 : PsiComp) (u : ℕ × ℕ × Option ℕ) :
    u ∈ addTrapMutations vs find i j s1 s2 lo1 lo2 ↔
      s1 = true ∧ s2 = true ∧ ∃ (n : Fin 7) (k : ℕ), k ∈ vs n ∧ lo1 = ⟨n + 1, 0, 0, 0, 0⟩ ∧
        lo2 = ⟨n + 1, 0, 0, k, 0⟩ ∧ u = (i, j, find ⟨0, 0, 0, 0, k⟩) := by
  unfold addTrapMutations
  constructor
  · intro h
    split_ifs at h with hc
    · obtain ⟨⟨hs, h1, h7⟩⟩ := And.intro hc trivial
      simp only [List.mem_flatMap] at h
      obtain ⟨k, hk, h⟩ := h
      split_ifs at h with he
      · simp only [Bool.and_eq_true] at hs
        obtain ⟨he1, he2⟩ := he
        have hn : lo1.he - 1 + 1 = lo1.he := by omega
        refine ⟨hs.1, hs.2, ⟨lo1.he - 1, by omega⟩, k, hk, ?_, ?_, by simpa using h⟩
        · simpa only [hn] using he1
        · simpa only [hn] using he2
      · simp at h
    · simp at h
  · rintro ⟨rfl, rfl, n, k, hk, rfl, rfl, rfl⟩
    have hn := n.2
    rw [dif_pos ⟨rfl, by simp, by simp; try omega⟩]
    simp only [List.mem_flatMap]
    refine ⟨k, by simpa using hk, by simp⟩

/-- **C06 (generator)** The compositions of a generated reaction balance: He_n = He_nV_k + I_k on the helium and on the signed
vacancy axis. -/
theorem addTrapMutations_balance (vs : Fin 7 → List ℕ) (find : PsiComp → Option ℕ) (i j : ℕ)
    (s1 s2 : Bool) (lo1 lo2 : PsiComp) (u : ℕ × ℕ × Option ℕ)
    (h : u ∈ addTrapMutations vs find i j s1 s2 lo1 lo2) :
    ∃ k : ℕ, u.2.2 = find ⟨0, 0, 0, 0, k⟩ ∧ lo1.he = lo2.he ∧ lo1.d = lo2.d ∧ lo1.t = lo2.t ∧
      (lo1.v : ℤ) - lo1.i = (lo2.v - lo2.i) + (0 - k) := by
  obtain ⟨-, -, n, k, -, rfl, rfl, rfl⟩ := (addTrapMutations_spec ..).mp h
  exact ⟨k, rfl, rfl, rfl, rfl, by simp⟩

/-- **Finding** The interstitial cluster is not required to exist: with a network without I_2 the reaction He_6 → He_6V_2 + I_2 is generated with an
invalid third cluster, and `computeFlux` would write to `fluxes[invalidIndex]`. -/
theorem addTrapMutations_invalid_interstitial :
    addTrapMutations (fun n => if n = 5 then [2] else []) (fun _ => none) 3 4 true true
      ⟨6, 0, 0, 0, 0⟩ ⟨6, 0, 0, 2, 0⟩ = [(3, 4, none)] := by decide

/-! ### Nucleation -/

namespace NucRxn

section
variable {K : Type*} [Field K] [LinearOrder K] [IsStrictOrderedRing K] (r : NucRxn K)

/-- **C06 (nucleation)** Two xenon are consumed per dimer: any functional giving the product twice the weight of the reactant is
conserved, for every state and rate. -/
theorem nucleation_conserves (W : ℕ → K) (hW : W r.product = 2 * W r.reactant) (c : ℕ → K) :
    wsum W (r.computeFlux c) = 0 := by
  unfold computeFlux
  split_ifs <;> simp only [wsum_cons, wsum_nil, hW] <;> ring

/-- **C06 (nucleation)** The amount consumed is the smaller of the available concentration and twice the nominal rate: over the nominal step the
xenon concentration never becomes negative, and the dimer concentration never decreases. -/
theorem nucleation_bounded (hn : r.product ≠ r.reactant) (c : ℕ → K) :
    netOf (r.computeFlux c) r.reactant = -min (c r.reactant) (2 * r.rate) ∧
    netOf (r.computeFlux c) r.product = min (c r.reactant) (2 * r.rate) / 2 ∧
    (0 ≤ c r.reactant → 0 ≤ c r.reactant + netOf (r.computeFlux c) r.reactant) ∧
    (0 ≤ c r.reactant → 0 ≤ r.rate → 0 ≤ netOf (r.computeFlux c) r.product) := by
  have h1 : netOf (r.computeFlux c) r.reactant = -min (c r.reactant) (2 * r.rate) := by
    unfold computeFlux
    split_ifs with h
    · simp [netOf_cons, netOf_nil, hn, min_eq_right h.le]
    · simp [netOf_cons, netOf_nil, hn, min_eq_left (not_lt.mp h)]
  have h2 : netOf (r.computeFlux c) r.product = min (c r.reactant) (2 * r.rate) / 2 := by
    unfold computeFlux
    split_ifs with h
    · simp [netOf_cons, netOf_nil, hn.symm, min_eq_right h.le]
    · simp [netOf_cons, netOf_nil, hn.symm, min_eq_left (not_lt.mp h)]
  refine ⟨h1, h2, fun _ => ?_, fun h0 hr => ?_⟩
  · rw [h1]; linarith [min_le_left (c r.reactant) (2 * r.rate)]
  · rw [h2]
    have : 0 ≤ min (c r.reactant) (2 * r.rate) := le_min h0 (by linarith)
    linarith

/-- **C09 (nucleation)** -/
theorem nucleation_connectivity_covers (c : ℕ → K) :
    (∀ u ∈ r.computePartials c, u.1 ∈ r.computeConnectivity) ∧
    ∀ u ∈ r.computeReducedPartials c, u.1 ∈ r.computeReducedConnectivity := by
  constructor <;> intro u hu
  · unfold computePartials at hu
    split_ifs at hu <;> simp at hu
    rcases hu with rfl | rfl <;> simp [computeConnectivity]
  · unfold computeReducedPartials at hu
    unfold computeReducedConnectivity
    split_ifs at hu ⊢ with h1 h2 <;> simp at hu
    · rcases hu with rfl | rfl <;> simp
    · subst hu; simp

/-- **C10 (nucleation)** -/
theorem nucleation_reduced_eq_diagonal (c : ℕ → K) (n : ℕ) :
    netOf (r.computeReducedPartials c) (n, n) = netOf (r.computePartials c) (n, n) := by
  unfold computeReducedPartials computePartials
  split_ifs with h1 h2
  · rfl
  · rfl
  · have e1 : ¬ (r.product = n ∧ r.reactant = n) := fun h => h2 (h.1.trans h.2.symm)
    simp [netOf_cons, netOf_nil, e1]

end

/-- **C08 (nucleation)** The Jacobian is the exact derivative at every state that is not exactly on the switching surface
`c = 2·rate` (there the flux has a corner). -/
theorem nucleation_jacobian (r : NucRxn ℝ) (c : ℕ → ℝ) (hc : c r.reactant ≠ 2 * r.rate)
    (row col : ℕ) :
    HasDerivAt (fun x => netOf (r.computeFlux (Function.update c col x)) row)
      (netOf (r.computePartials c) (row, col)) (c col) := by
  by_cases hcol : r.reactant = col
  · subst hcol
    have hup : ∀ x, Function.update c r.reactant x r.reactant = x := fun x => by simp
    rcases lt_or_gt_of_ne hc with h | h
    · -- all of it is consumed
      have e : netOf (r.computePartials c) (row, r.reactant) =
          (if r.reactant = row then -1 else 0) + (if r.product = row then 1 / 2 else 0) := by
        simp [computePartials, not_lt.mpr h.le, netOf_cons, netOf_nil]
      have hl : (fun x => (if r.reactant = row then -x else 0) +
          (if r.product = row then x / 2 else 0)) =ᶠ[nhds (c r.reactant)]
          fun x => netOf (r.computeFlux (Function.update c r.reactant x)) row := by
        filter_upwards [Iio_mem_nhds h] with x hx
        have : ¬ (2 * r.rate < x) := not_lt.mpr (le_of_lt hx)
        simp [computeFlux, hup, this, netOf_cons, netOf_nil]
      rw [e]
      refine HasDerivAt.congr_of_eventuallyEq ?_ hl.symm
      refine HasDerivAt.add ?_ ?_
      · split_ifs
        · exact (hasDerivAt_id' _).neg
        · exact hasDerivAt_const _ _
      · split_ifs
        · exact (hasDerivAt_id' (c r.reactant)).div_const 2
        · exact hasDerivAt_const _ _
    · have e : netOf (r.computePartials c) (row, r.reactant) = 0 := by
        simp [computePartials, h, netOf_nil]
      have hl : (fun _ => (if r.reactant = row then -(2 * r.rate) else 0) +
          (if r.product = row then r.rate else 0)) =ᶠ[nhds (c r.reactant)]
          fun x => netOf (r.computeFlux (Function.update c r.reactant x)) row := by
        filter_upwards [Ioi_mem_nhds h] with x hx
        have : 2 * r.rate < x := hx
        simp [computeFlux, hup, this, netOf_cons, netOf_nil]
      rw [e]
      exact (hasDerivAt_const _ _).congr_of_eventuallyEq hl.symm
  · have e1 : (fun x => netOf (r.computeFlux (Function.update c col x)) row) =
        fun _ => netOf (r.computeFlux c) row := by
      funext x; simp [computeFlux, Function.update_of_ne hcol]
    have e2 : netOf (r.computePartials c) (row, col) = 0 := by
      unfold computePartials
      split_ifs <;> simp [netOf_cons, netOf_nil, hcol]
    rw [e1, e2]
    exact hasDerivAt_const _ _

/-- Non-vacuity: both regimes. -/
example : netOf ((⟨0, 1, 1⟩ : NucRxn ℚ).computeFlux fun _ => 5) 0 = -2 ∧
    netOf ((⟨0, 1, 1⟩ : NucRxn ℚ).computeFlux fun _ => 1) 0 = -1 := by decide +kernel

end NucRxn

/-! ### Sinks -/

namespace SinkRxn

section
variable {K : Type*} [Field K] [LinearOrder K] [IsStrictOrderedRing K] (r : SinkRxn K)

/-- **C06 (sink)** A sink only touches its own cluster, removing it proportionally to its concentration. -/
theorem sink_flux (c : ℕ → K) (n : ℕ) :
    netOf (r.computeFlux c) n = if n = r.reactant then -(r.rate * c n) else 0 := by
  by_cases h : r.reactant = n
  · subst h; simp [computeFlux, netOf_cons, netOf_nil, mul_comm]
  · rw [if_neg (fun e => h e.symm)]
    simp [computeFlux, netOf_cons, netOf_nil, h]

/-- **C06 (sink)** With non-negative factors a sink never creates its cluster. -/
theorem sink_removes (bias strength dc : K) (hb : 0 ≤ bias) (hs : 0 ≤ strength) (hd : 0 ≤ dc)
    (hr : r.rate = computeRate bias strength dc) (c : ℕ → K) (hc : 0 ≤ c r.reactant) :
    netOf (r.computeFlux c) r.reactant ≤ 0 := by
  rw [sink_flux, if_pos rfl, hr]
  have : 0 ≤ bias * strength * dc * c r.reactant := by positivity
  simpa [computeRate] using this

/-- **C09/C10 (sink)** -/
theorem sink_connectivity_covers : ∀ u ∈ r.computePartials, u.1 ∈ r.computeConnectivity := by
  intro u hu
  simp [computePartials] at hu
  subst hu; simp [computeConnectivity]

end

/-- **C08 (sink)** -/
theorem sink_jacobian (r : SinkRxn ℝ) (c : ℕ → ℝ) (row col : ℕ) :
    HasDerivAt (fun x => netOf (r.computeFlux (Function.update c col x)) row)
      (netOf r.computePartials (row, col)) (c col) := by
  simp only [sink_flux]
  have e : netOf r.computePartials (row, col) =
      if r.reactant = row ∧ r.reactant = col then -r.rate else 0 := by
    simp [computePartials, netOf_cons, netOf_nil]
  rw [e]
  by_cases hr : row = r.reactant
  · subst hr
    by_cases hc : r.reactant = col
    · subst hc
      simp only [Function.update_self, if_true, and_self]
      refine (((hasDerivAt_id' (c r.reactant)).const_mul r.rate).fun_neg).congr_deriv ?_
      rw [mul_one]
    · simpa [hc, Function.update_of_ne hc] using hasDerivAt_const (c col) _
  · rw [if_neg (fun e => hr e.1.symm)]
    simpa only [if_neg hr] using hasDerivAt_const (c col) (0 : ℝ)

/-- Non-vacuity. -/
example : netOf ((⟨3, 2⟩ : SinkRxn ℚ).computeFlux fun _ => 5) 3 = -10 := by decide +kernel

/-- A sink on a grouped cluster removes the mean concentration but leaves the first moment alone: the group
`[1,3)` with moment 1 keeps it. -/
theorem sink_leaves_moment (r : SinkRxn ℚ) (c : ℕ → ℚ) (m : ℕ) (hm : m ≠ r.reactant) :
    netOf (r.computeFlux c) m = 0 := by rw [sink_flux, if_neg hm]

end SinkRxn

/-! ### Left side rate -/

section
variable {d : ℕ} {K : Type*} [Field K]

/-- The left side rate of a cluster in a production reaction between distinct ungrouped clusters that is not also a product is its loss rate per concentration. -/
theorem production_leftSideRate (r : ProdRxn 0 K) (hv : ∀ q, r.vol q = 1)
    (h12 : r.r1 ≠ r.r2) (n : ℕ) (h1 : r.prod1 ≠ some n) (h2 : r.prod2 ≠ some n) (c : ℕ → K) :
    netOf (r.computeFlux c) n = -(r.leftSideRate c n * c n) := by
  have hp : ∀ f, netOf (r.productUpdates f) n = 0 := by
    intro f
    refine netOf_eq_zero fun u hu => ?_
    unfold ProdRxn.productUpdates at hu
    split at hu <;> simp_all
    · rcases hu with rfl | rfl <;> assumption
  simp only [ProdRxn.computeFlux, netOf_append, netOf_cons, netOf_nil, hp, netOf_finRange, hv,
    ProdRxn.fluxOf, ProdRxn.leftSideRate]
  by_cases e1 : r.r1 = n
  · subst e1
    simp [h12.symm]; ring
  · by_cases e2 : r.r2 = n
    · subst e2
      simp [h12, h12.symm]; ring
    · have f1 : ¬ n = r.r1 := fun e => e1 e.symm
      have f2 : ¬ n = r.r2 := fun e => e2 e.symm
      simp [e1, e2, f1, f2]

/-- The reaction 0 + 0 → 1. -/
def witSelf : ProdRxn 0 ℚ where
  r1 := 0
  r2 := 0
  prod1 := some 1
  prod2 := none
  mom := fun _ i => i.elim0
  vol := fun _ => 1
  rate := 1
  coefs := fun _ _ _ _ => 1

/-- **Finding** For a cluster reacting with itself the left side rate is half of the loss rate. -/
theorem leftSideRate_self_reaction :
    netOf (witSelf.computeFlux fun _ => 1) 0 = -2 ∧ witSelf.leftSideRate (fun _ => 1) 0 = 1 := by
  decide +kernel

/-- The left side rate of a dissociating ungrouped cluster is its loss rate per concentration. -/
theorem dissociation_leftSideRate (r : DissRxn 0 K) (hv : ∀ q, r.vol q = 1) (n : ℕ)
    (h1 : r.id .p1 ≠ n) (h2 : r.id .p2 ≠ n) (c : ℕ → K) :
    netOf (r.computeFlux c) n = -(r.leftSideRate n * c n) := by
  simp only [DissRxn.computeFlux, netOf_append, netOf_cons, netOf_nil, netOf_finRange, hv,
    DissRxn.fluxOf, DissRxn.leftSideRate, if_neg h1, if_neg h2]
  by_cases e : r.id .r = n
  · subst e; simp; ring
  · have f : ¬ n = r.id .r := fun e' => e e'.symm
    simp [e, f]

end

end Xolotl.Network
