import Verif.Network.Whole
import Verif.Network.SimpleProps
import Verif.Network.DissociationConservation
import Verif.Network.ProductionConservation

/-!
# C07 and the network-wide forms of C04-C10
-/

set_option linter.unusedSectionVars false

namespace Xolotl.Network

/-- Every interleaving performs exactly the operations of the threads. -/
theorem Interleaves.perm {α : Type*} {ts : List (List α)} {l : List α} (h : Interleaves ts l) :
    l.Perm ts.flatten := by
  induction h with
  | done h =>
    rename_i ts
    have : ts.flatten = [] := by simpa using h
    rw [this]
  | step pre post a t l _ ih =>
    simp only [List.flatten_append, List.flatten_cons, List.cons_append] at ih ⊢
    exact (ih.cons a).trans List.perm_middle.symm

/-- Running the threads one after the other is one of the interleavings. -/
theorem Interleaves.sequential {α : Type*} (ts : List (List α)) : Interleaves ts ts.flatten := by
  have key : ∀ (pre : List (List α)) (_ : ∀ t ∈ pre, t = []) (ts : List (List α)),
      Interleaves (pre ++ ts) ts.flatten := by
    intro pre hpre ts
    induction ts generalizing pre with
    | nil => simpa using Interleaves.done hpre
    | cons t ts ih =>
      induction t with
      | nil =>
        have := ih (pre ++ [[]]) (by
          intro t ht
          simp only [List.mem_append, List.mem_singleton] at ht
          rcases ht with h | h
          · exact hpre t h
          · exact h)
        simpa using this
      | cons a t iht => exact Interleaves.step pre ts a t _ iht
  simpa using key [] (by simp) ts

section
variable {ι K : Type*} [DecidableEq ι] [AddCommMonoid K]

/-- **C07 (order independence)** The array obtained after all atomic updates does not depend on the schedule, including schedules of
other orders of the threads (reaction numbering). -/
theorem schedule_independent (a : ι → K) {ts ts' : List (List (ι × K))} (hts : ts.Perm ts')
    {l l' : List (ι × K)} (h : Interleaves ts l) (h' : Interleaves ts' l') :
    applyUpdates a l = applyUpdates a l' := by
  funext n
  rw [applyUpdates_eq, applyUpdates_eq,
    netOf_perm (h.perm.trans ((hts.flatten).trans h'.perm.symm))]

/-- **C07** The result of any schedule is the initial array plus the sum of the individual contributions. -/
theorem schedule_sum (a : ι → K) {ts : List (List (ι × K))} {l : List (ι × K)}
    (h : Interleaves ts l) (n : ι) :
    applyUpdates a l n = a n + (ts.map fun t => netOf t n).sum := by
  rw [applyUpdates_eq, netOf_perm h.perm]
  congr 1
  have := netOf_flatMap ts id n
  simpa [List.flatMap_id] using this

end

namespace Network

section
variable {d : ℕ} {K : Type*} [Field K] [LinearOrder K] [IsStrictOrderedRing K] (N : Network d K)

/-- **C07 (conservation)** If every reaction conserves a linear functional of the right-hand side then so does the whole network, under every
schedule. -/
theorem network_conserves (W : ℕ → K) (c : ℕ → K) (depth spacing : K)
    (hr : ∀ r ∈ N.rxns, wsum W (r.flux (N.preProcess c depth spacing) c) = 0)
    {l : List (ℕ × K)} (h : Interleaves (N.fluxThreads c depth spacing) l) : wsum W l = 0 := by
  have hp : wsum W l = wsum W (N.fluxThreads c depth spacing).flatten :=
    (h.perm.map _).sum_eq
  rw [hp]
  unfold fluxThreads
  have : ∀ rs : List (Rxn d K), (∀ r ∈ rs, wsum W (r.flux (N.preProcess c depth spacing) c) = 0) →
      wsum W (rs.map (Rxn.flux (N.preProcess c depth spacing) c)).flatten = 0 := by
    intro rs
    induction rs with
    | nil => intro _; rfl
    | cons r rs ih =>
      intro hr
      rw [List.map_cons, List.flatten_cons, wsum_append, hr r (by simp),
        ih (fun r h => hr r (by simp [h])), add_zero]
  exact this _ hr

/-- The reaction is one of the conserving ones: a production between fitting groups with exact coefficients, a dissociation or re-solution between fitting groups, or a
trap mutation between balanced single clusters. -/
inductive Conserving (net : Finset (Cluster d)) : Rxn d K → Prop
  | prod {r : ProdRxn d K} (g : ProdIn d K) (cl : Slot → Option (Cluster d)) (hf : Fits net g r cl)
      (hp : r.prod1 = none → r.prod2 = none)
      (hex : ∀ α β q γ, g.valid q = true → (γ = none → q = .r1) →
        g.coefs α β q γ = g.coefSpec α β q γ) : Conserving net (.prod r)
  | diss {r : DissRxn d K} (g : DissIn d K) (cl : DSlot → Cluster d) (hf : DFits net g r cl)
      (hs : g.Splits) : Conserving net (.diss r)
  | resol {r : DissRxn d K} (g : DissIn d K) (cl : DSlot → Cluster d) (hf : DFits net g r cl)
      (hs : g.Splits) : Conserving net (.resol r)
  | tm {r : TmRxn K} {a b e : Cluster d} (ha : a ∈ net) (hb : b ∈ net) (he : e ∈ net)
      (x y z : Fin d → ℤ) (hx : TmRxn.IsSingle a x) (hy : TmRxn.IsSingle b y)
      (hz : TmRxn.IsSingle e z) (hsum : x = y + z) (ra : r.he = a.dof) (rb : r.heV = b.dof)
      (re : r.i = e.dof) : Conserving net (.tm r)

/-- **C07/C04/C05** The right-hand side computed concurrently for a network of conserving reactions, with any sinks, changes the content along every axis by exactly what
the sinks remove. -/
theorem network_content (net : Finset (Cluster d)) (hw : ∀ a ∈ net, a.WF) (hi : DofInj net)
    (hr : ∀ r ∈ N.rxns, Conserving net r ∨ ∃ s, r = .sink s) (k : Fin d) (c : ℕ → K)
    (depth spacing : K) {l : List (ℕ × K)}
    (h : Interleaves (N.fluxThreads c depth spacing) l) :
    totalContent net k (netOf l) =
      -(N.rxns.map fun r => match r with
        | .sink s => weight net k s.reactant * (s.rate * c s.reactant)
        | _ => 0).sum := by
  rw [totalContent_netOf net hw]
  have hp : wsum (weight net k) l = wsum (weight net k) (N.fluxThreads c depth spacing).flatten :=
    (h.perm.map _).sum_eq
  rw [hp]
  unfold fluxThreads
  generalize N.preProcess c depth spacing = t
  have key : ∀ rs : List (Rxn d K), (∀ r ∈ rs, Conserving net r ∨ ∃ s, r = .sink s) →
      wsum (weight net k) (rs.map (Rxn.flux t c)).flatten =
      -(rs.map fun r => match r with
        | .sink s => weight net k s.reactant * (s.rate * c s.reactant)
        | _ => (0 : K)).sum := by
    intro rs
    induction rs with
    | nil => intro _; simp [wsum_nil]
    | cons r rs ih =>
      intro hr
      rw [List.map_cons, List.flatten_cons, wsum_append, ih (fun r h => hr r (by simp [h])),
        List.map_cons, List.sum_cons, neg_add]
      congr 1
      rcases hr r (by simp) with hc | ⟨s, rfl⟩
      · cases hc with
        | prod g cl hf hp hex =>
          have := hf.production_conserves_of_exact hw hi hp hex k c
          rw [totalContent_netOf net hw] at this
          simpa [Rxn.flux] using this
        | diss g cl hf hs =>
          have := hf.dissociation_conserves hs hw hi k c
          rw [totalContent_netOf net hw] at this
          simpa [Rxn.flux] using this
        | resol g cl hf hs =>
          have := hf.dissociation_conserves hs hw hi k c
          rw [totalContent_netOf net hw] at this
          simpa [Rxn.flux] using this
        | tm ha hb he x y z hx hy hz hsum ra rb re =>
          have := TmRxn.trapMutation_conserves _ t net hw hi ha hb he x y z hx hy hz hsum ra rb re k c
          rw [totalContent_netOf net hw] at this
          simpa [Rxn.flux] using this
      · simp [Rxn.flux, SinkRxn.computeFlux, wsum_cons, wsum_nil, mul_comm]
  exact key _ hr

/-- **C07** A network with one moment axis: no hypothesis on coefficients. -/
theorem network_content_one_axis (N : Network 1 K) (net : Finset (Cluster 1))
    (hw : ∀ a ∈ net, a.WF) (hi : DofInj net)
    (hr : ∀ r ∈ N.rxns,
      (∃ p g cl, r = .prod p ∧ Fits net g p cl ∧ (p.prod1 = none → p.prod2 = none) ∧ g.WF) ∨
      (∃ p g cl, (r = .diss p ∨ r = .resol p) ∧ DFits net g p cl ∧ g.Splits))
    (k : Fin 1) (c : ℕ → K) (depth spacing : K) {l : List (ℕ × K)}
    (h : Interleaves (N.fluxThreads c depth spacing) l) : totalContent net k (netOf l) = 0 := by
  rw [N.network_content net hw hi _ k c depth spacing h]
  · rw [neg_eq_zero]
    refine List.sum_eq_zero fun x hx => ?_
    obtain ⟨r, hm, rfl⟩ := List.mem_map.mp hx
    rcases hr r hm with ⟨p, g, cl, rfl, -⟩ | ⟨p, g, cl, rfl | rfl, -⟩ <;> rfl
  · intro r hm
    rcases hr r hm with ⟨p, g, cl, rfl, hf, hp, hg⟩ | ⟨p, g, cl, rfl | rfl, hf, hs⟩
    · exact Or.inl (.prod g cl hf hp fun α β q γ hv hq => g.coefs_eq_one_axis hg α β q γ hv hq)
    · exact Or.inl (.diss g cl hf hs)
    · exact Or.inl (.resol g cl hf hs)

/-- **C09 (network)** Every entry written by any reaction is in the union of the declared patterns. -/
theorem network_connectivity_covers (t : TmData K) (c : ℕ → K) :
    ∀ r ∈ N.rxns, ∀ u ∈ r.partials t c, u.1 ∈ N.rxns.flatMap Rxn.connectivity := by
  intro r hr u hu
  refine List.mem_flatMap.mpr ⟨r, hr, ?_⟩
  cases r with
  | prod r => exact r.production_connectivity_covers c u hu
  | diss r => exact r.dissociation_connectivity_covers u hu
  | resol r => exact r.dissociation_connectivity_covers u hu
  | tm r => exact (r.trapMutation_connectivity_covers t).1 u hu
  | nuc r => exact (r.nucleation_connectivity_covers c).1 u hu
  | sink r => exact r.sink_connectivity_covers u hu

end

/-- What the pre-processing leaves unchanged: everything but the left side rate and the enabled depths, and the latter do not depend on the concentrations. -/
theorem preProcess_fields {d : ℕ} (N : Network d ℝ) (c c' : ℕ → ℝ) (depth spacing : ℝ) :
    (N.preProcess c depth spacing).desorpId = N.tmData.desorpId ∧ (N.preProcess c depth spacing).enabled = (N.preProcess c' depth spacing).enabled ∧
      (N.preProcess c depth spacing).vSizes = (N.preProcess c' depth spacing).vSizes ∧ (N.preProcess c depth spacing).disappearing = (N.preProcess c' depth spacing).disappearing := by
  unfold preProcess
  split <;> exact ⟨rfl, rfl, rfl, rfl⟩

/-- **C08 (network)** Under every pair of schedules the Jacobian assembled concurrently is the derivative of the right-hand side assembled concurrently, away from nucleation corners, in every row but, with modified
trap mutation, those that a trap mutation of the desorbing cluster changes: there the derivative of the left side rate is missing (`trapMutation_jacobian_desorption`). -/
theorem network_jacobian_rows {d : ℕ} (N : Network d ℝ)
    (hp : ∀ r, Rxn.prod r ∈ N.rxns → r.prod1 = none → r.prod2 = none) (c : ℕ → ℝ)
    (hn : ∀ r, Rxn.nuc r ∈ N.rxns → c r.reactant ≠ 2 * r.rate) (depth spacing : ℝ) (row col : ℕ)
    (htm : N.enableTm = true → ∀ r, Rxn.tm r ∈ N.rxns → some r.he = N.tmData.desorpId → r.he ≠ row ∧ r.heV ≠ row ∧ r.i ≠ row)
    (F : ℝ → List (ℕ × ℝ))
    (hF : ∀ x, Interleaves (N.fluxThreads (Function.update c col x) depth spacing) (F x))
    (J : List ((ℕ × ℕ) × ℝ)) (hJ : Interleaves (N.partialThreads c depth spacing) J) :
    HasDerivAt (fun x => netOf (F x) row) (netOf J (row, col)) (c col) := by
  have e1 : ∀ x, netOf (F x) row = (N.rxns.map fun r =>
      netOf (r.flux (N.preProcess (Function.update c col x) depth spacing) (Function.update c col x)) row).sum := by
    intro x
    rw [netOf_perm (hF x).perm, fluxThreads, ← List.flatMap_def, netOf_flatMap]
  have e2 : netOf J (row, col) = (N.rxns.map fun r =>
      netOf (r.partials (N.preProcess c depth spacing) c) (row, col)).sum := by
    rw [netOf_perm hJ.perm, partialThreads, ← List.flatMap_def, netOf_flatMap]
  simp only [e1, e2]
  have key : ∀ rs : List (Rxn d ℝ), (∀ r ∈ rs, r ∈ N.rxns) →
      HasDerivAt (fun x => (rs.map fun r =>
        netOf (r.flux (N.preProcess (Function.update c col x) depth spacing) (Function.update c col x)) row).sum)
        (rs.map fun r => netOf (r.partials (N.preProcess c depth spacing) c) (row, col)).sum (c col) := by
    intro rs
    induction rs with
    | nil => intro _; simpa using hasDerivAt_const (c col) (0 : ℝ)
    | cons r rs ih =>
      intro hm
      simp only [List.map_cons, List.sum_cons]
      refine HasDerivAt.add ?_ (ih fun r h => hm r (by simp [h]))
      have hr := hm r (by simp)
      cases r with
      | prod r => exact r.production_jacobian (hp r hr) c row col
      | diss r => exact r.dissociation_jacobian c row col
      | resol r => exact r.dissociation_jacobian c row col
      | tm r =>
        have hfix : ∀ x, netOf (r.computeFlux (N.preProcess (Function.update c col x) depth spacing) (Function.update c col x)) row =
            netOf (r.computeFlux (N.preProcess c depth spacing) (Function.update c col x)) row := by
          intro x
          obtain ⟨f1, f2, f3, f4⟩ := N.preProcess_fields (Function.update c col x) c depth spacing
          have g1 := (N.preProcess_fields c c depth spacing).1
          by_cases hd : N.enableTm = true ∧ some r.he = N.tmData.desorpId
          · obtain ⟨h1, h2, h3⟩ := htm hd.1 r hr hd.2
            have hz : ∀ t c', netOf (r.computeFlux t c') row = 0 := fun t c' => by
              refine netOf_eq_zero fun u hu => ?_
              unfold TmRxn.computeFlux at hu
              split at hu
              · simp only [List.mem_cons, List.not_mem_nil, or_false] at hu
                rcases hu with rfl | rfl | rfl
                · exact h1
                · exact h2
                · exact h3
              · simp at hu
            rw [hz, hz]
          · have ha : r.appliedRate (N.preProcess (Function.update c col x) depth spacing) = r.appliedRate (N.preProcess c depth spacing) := by
              by_cases he : N.enableTm = true
              · have hne : some r.he ≠ N.tmData.desorpId := fun e => hd ⟨he, e⟩
                rw [TmRxn.appliedRate, TmRxn.appliedRate, f1, g1, if_neg hne, if_neg hne, f4]
              · simp [preProcess, he]
            rw [TmRxn.computeFlux, TmRxn.computeFlux, TmRxn.enabled, TmRxn.enabled, ha, f2, f3]
        refine (r.trapMutation_jacobian_partial (N.preProcess c depth spacing) c row col).congr_of_eventuallyEq (.of_forall hfix)
      | nuc r => exact r.nucleation_jacobian c (hn r hr) row col
      | sink r => exact r.sink_jacobian c row col
  exact key N.rxns fun _ h => h

/-- **C08 (network)** The same in all rows, for a network without modified trap mutation (networks other than PSI, or PSI with the option off). -/
theorem network_jacobian {d : ℕ} (N : Network d ℝ) (htm : N.enableTm = false)
    (hp : ∀ r, Rxn.prod r ∈ N.rxns → r.prod1 = none → r.prod2 = none) (c : ℕ → ℝ)
    (hn : ∀ r, Rxn.nuc r ∈ N.rxns → c r.reactant ≠ 2 * r.rate) (depth spacing : ℝ) (row col : ℕ)
    (F : ℝ → List (ℕ × ℝ))
    (hF : ∀ x, Interleaves (N.fluxThreads (Function.update c col x) depth spacing) (F x))
    (J : List ((ℕ × ℕ) × ℝ)) (hJ : Interleaves (N.partialThreads c depth spacing) J) :
    HasDerivAt (fun x => netOf (F x) row) (netOf J (row, col)) (c col) :=
  N.network_jacobian_rows hp c hn depth spacing row col (fun h => by rw [htm] at h; simp at h) F hF J hJ

/-- Non-vacuity: a network with the production and dissociation of the previous files and a schedule that alternates between them is covered by
`network_content_one_axis` (production part). -/
example (c : ℕ → ℚ) (tm : TmData ℚ) :
    totalContent {Fits.exA, Fits.exB, Fits.exC} 0
      (netOf (([⟨[.prod Fits.exRx, .prod Fits.exRx], false, tm⟩] : List (Network 1 ℚ)).flatMap
        fun N => (N.fluxThreads c 0 0).flatten)) = 0 := by
  have hf := Fits.exFits
  have := (⟨[.prod Fits.exRx, .prod Fits.exRx], false, tm⟩ : Network 1 ℚ).network_content_one_axis
    {Fits.exA, Fits.exB, Fits.exC} (by
      intro a ha
      simp only [Finset.mem_insert, Finset.mem_singleton] at ha
      rcases ha with rfl | rfl | rfl <;>
        exact ⟨fun k => by simp [Fits.exA, Fits.exB, Fits.exC],
          fun k => by simp [Fits.exA, Fits.exB, Fits.exC]⟩)
    (by constructor <;> decide) (by
      intro r hr
      simp at hr
      subst hr
      exact Or.inl ⟨_, _, _, rfl, hf, by simp [Fits.exRx],
        ⟨by decide, fun i => ⟨(2, 2, 4, 0), by fin_cases i; decide +kernel⟩, by decide⟩⟩)
    0 c 0 0 (Interleaves.sequential _)
  simpa using this

end Network

end Xolotl.Network
