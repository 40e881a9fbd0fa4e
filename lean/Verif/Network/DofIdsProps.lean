import Verif.Network.DofIds
import Verif.Network.NumberingProps
import Verif.Network.AssembleProps
import Verif.Network.LoopNetProps
import Verif.Network.Fuel

/-!
# C79: the assembled networks with their own ids

The ids that `defineMomentIds` assigns are those the conservation laws ask for, and no reaction reads or writes outside the degrees of freedom.
-/

set_option linter.unusedSectionVars false

namespace Xolotl.Network

open Numbering

variable {d : ℕ} {K : Type*} [Field K] [LinearOrder K] [IsStrictOrderedRing K]

/-! ### What a reaction may touch -/

/-- The ids of a reaction are below `D`. -/
def ProdRxn.Within (D : ℕ) (r : ProdRxn d K) : Prop :=
  r.r1 < D ∧ r.r2 < D ∧ (∀ k, r.prod1 = some k → k < D) ∧ (∀ k, r.prod2 = some k → k < D) ∧ ∀ q i m, r.mom q i = some m → m < D

def DissRxn.Within (D : ℕ) (r : DissRxn d K) : Prop := (∀ q, r.id q < D) ∧ ∀ q i m, r.mom q i = some m → m < D

/-- The ids of a reaction of any type are below `D`. -/
def Rxn.Within (D : ℕ) : Rxn d K → Prop
  | .prod r => r.Within D
  | .diss r => r.Within D
  | .resol r => r.Within D
  | .tm r => r.he < D ∧ r.heV < D ∧ r.i < D
  | .nuc r => r.reactant < D ∧ r.product < D
  | .sink r => r.reactant < D

theorem mem_emit {ι : Type*} {e : Option ι} {v : K} {u : ι × K} (h : u ∈ emit e v) : e = some u.1 := by
  cases e with
  | none => simp [emit] at h
  | some a => simp [emit] at h; rw [h]

theorem ProdRxn.Within.row {D : ℕ} {r : ProdRxn d K} (h : r.Within D) {q : Slot} {γ : Option (Fin d)} {m : ℕ} (e : r.rowId q γ = some m) : m < D := by
  obtain ⟨h1, h2, h3, h4, h5⟩ := h
  cases γ with
  | none => cases q <;> simp only [ProdRxn.rowId, ProdRxn.id, Option.some.injEq] at e
            · exact e ▸ h1
            · exact e ▸ h2
            · exact h3 _ e
            · exact h4 _ e
  | some k =>
    simp only [ProdRxn.rowId, Option.bind_eq_some_iff] at e
    obtain ⟨_, _, e⟩ := e
    exact h5 _ _ _ e

theorem ProdRxn.Within.colA {D : ℕ} {r : ProdRxn d K} (h : r.Within D) {α : Option (Fin d)} {m : ℕ} (e : r.colA α = some m) : m < D := by
  cases α with
  | none => simp only [ProdRxn.colA, Option.some.injEq] at e; exact e ▸ h.1
  | some k => exact h.2.2.2.2 _ _ _ e

theorem ProdRxn.Within.colB {D : ℕ} {r : ProdRxn d K} (h : r.Within D) {α : Option (Fin d)} {m : ℕ} (e : r.colB α = some m) : m < D := by
  cases α with
  | none => simp only [ProdRxn.colB, Option.some.injEq] at e; exact e ▸ h.2.1
  | some k => exact h.2.2.2.2 _ _ _ e

theorem link_lt {D : ℕ} {a b : Option ℕ} (ha : ∀ m, a = some m → m < D) (hb : ∀ m, b = some m → m < D) : ∀ u ∈ ProdRxn.link a b, u.1 < D ∧ u.2 < D := by
  intro u hu
  cases a <;> cases b <;> simp [ProdRxn.link, ProdRxn.entry] at hu
  rw [hu]
  exact ⟨ha _ rfl, hb _ rfl⟩

theorem linkBlock_lt {D : ℕ} {a b : Option (Fin d) → Option ℕ} (ha : ∀ γ m, a γ = some m → m < D) (hb : ∀ γ m, b γ = some m → m < D) :
    ∀ u ∈ ProdRxn.linkBlock a b, u.1 < D ∧ u.2 < D := by
  intro u hu
  simp only [ProdRxn.linkBlock, List.mem_append, List.mem_flatMap] at hu
  rcases hu with hu | ⟨i, _, (hu | hu) | ⟨j, _, hu⟩⟩ <;> exact link_lt (ha _) (hb _) u hu

/-- No update of the right-hand side leaves the degrees of freedom, ... -/
theorem Rxn.Within.flux_lt {D : ℕ} {r : Rxn d K} (h : r.Within D) (t : TmData K) (c : ℕ → K) : ∀ u ∈ r.flux t c, u.1 < D := by
  intro u hu
  have dd : ∀ r : DissRxn d K, r.Within D → u ∈ r.computeFlux c → u.1 < D := by
    intro r h hu
    simp only [DissRxn.computeFlux, List.mem_append, List.mem_cons, List.not_mem_nil, or_false, List.mem_flatMap] at hu
    rcases hu with (rfl | rfl | rfl) | ⟨k, _, (hu | hu) | hu⟩
    · exact h.1 _
    · exact h.1 _
    · exact h.1 _
    all_goals exact h.2 _ _ _ (mem_emit hu)
  cases r with
  | prod r =>
    simp only [Rxn.flux, ProdRxn.computeFlux, List.mem_append, List.mem_cons, List.not_mem_nil, or_false, List.mem_flatMap] at hu
    rcases hu with ((rfl | rfl) | hu) | ⟨k, _, ((hu | hu) | hu) | hu⟩
    · exact h.1
    · exact h.2.1
    · obtain ⟨_, _, h3, h4, _⟩ := h
      unfold ProdRxn.productUpdates at hu
      cases e1 : r.prod1 <;> cases e2 : r.prod2 <;> simp [e1, e2] at hu
      · rw [hu]; exact h4 _ e2
      · rw [hu]; exact h3 _ e1
      · rcases hu with rfl | rfl
        · exact h3 _ e1
        · exact h4 _ e2
    · exact h.2.2.2.2 _ _ _ (mem_emit hu)
    · exact h.2.2.2.2 _ _ _ (mem_emit hu)
    · exact ProdRxn.Within.row h (mem_emit hu)
    · exact ProdRxn.Within.row h (mem_emit hu)
  | diss r => exact dd r h hu
  | resol r => exact dd r h hu
  | tm r =>
    obtain ⟨h1, h2, h3⟩ := h
    simp only [Rxn.flux, TmRxn.computeFlux] at hu
    split at hu
    · simp at hu
      rcases hu with rfl | rfl | rfl <;> assumption
    · simp at hu
  | nuc r =>
    obtain ⟨h1, h2⟩ := h
    simp only [Rxn.flux, NucRxn.computeFlux] at hu
    split at hu <;> simp at hu <;> rcases hu with rfl | rfl <;> assumption
  | sink r =>
    simp [Rxn.flux, SinkRxn.computeFlux] at hu
    rw [hu]
    exact h

/-- ... no declared entry of the Jacobian does, ... -/
theorem Rxn.Within.connectivity_lt {D : ℕ} {r : Rxn d K} (h : r.Within D) : ∀ u ∈ r.connectivity, u.1 < D ∧ u.2 < D := by
  intro u hu
  have dd : ∀ r : DissRxn d K, r.Within D → u ∈ r.computeConnectivity → u.1 < D ∧ u.2 < D := by
    intro r h hu
    have hd : ∀ q γ m, r.dofOf q γ = some m → m < D := by
      intro q γ m e
      cases γ with
      | none => simp only [DissRxn.dofOf, Option.some.injEq] at e; exact e ▸ h.1 q
      | some k => exact h.2 _ _ _ e
    simp only [DissRxn.computeConnectivity, List.mem_append] at hu
    rcases hu with (hu | hu) | hu <;> exact linkBlock_lt (hd _) (hd _) u hu
  cases r with
  | prod r =>
    have hr : ∀ q γ m, r.rowId q γ = some m → m < D := fun q γ m e => ProdRxn.Within.row h e
    have hA : ∀ α m, r.colA α = some m → m < D := fun α m e => ProdRxn.Within.colA h e
    have hB : ∀ α m, r.colB α = some m → m < D := fun α m e => ProdRxn.Within.colB h e
    simp only [Rxn.connectivity, ProdRxn.computeConnectivity, List.mem_append] at hu
    rcases hu with ((((hu | hu) | hu) | hu) | (hu | hu)) | (hu | hu)
    all_goals first | exact linkBlock_lt (hr _) hA u hu | exact linkBlock_lt (hr _) hB u hu
  | diss r => exact dd r h hu
  | resol r => exact dd r h hu
  | tm r =>
    obtain ⟨h1, h2, h3⟩ := h
    simp [Rxn.connectivity, TmRxn.computeConnectivity] at hu
    rcases hu with rfl | rfl | rfl <;> exact ⟨by assumption, by assumption⟩
  | nuc r =>
    obtain ⟨h1, h2⟩ := h
    simp [Rxn.connectivity, NucRxn.computeConnectivity] at hu
    rcases hu with rfl | rfl <;> exact ⟨by assumption, by assumption⟩
  | sink r =>
    simp [Rxn.connectivity, SinkRxn.computeConnectivity] at hu
    rw [hu]
    exact ⟨h, h⟩

/-- ... and concentrations outside them are not read. -/
theorem Rxn.Within.reads {D : ℕ} {r : Rxn d K} (h : r.Within D) (t : TmData K) {c c' : ℕ → K} (hc : ∀ m < D, c m = c' m) : r.flux t c = r.flux t c' ∧ r.partials t c = r.partials t c' := by
  have dd : ∀ r : DissRxn d K, r.Within D → r.computeFlux c = r.computeFlux c' := by
    intro r h
    have hm : ∀ i, r.cm c i = r.cm c' i := by
      intro i
      unfold DissRxn.cm
      cases e : r.mom .r i with
      | none => rfl
      | some m => exact hc _ (h.2 _ _ _ e)
    have hf : ∀ q γ, r.fluxOf c q γ = r.fluxOf c' q γ := by
      intro q γ
      simp only [DissRxn.fluxOf, hm, hc _ (h.1 .r)]
    simp only [DissRxn.computeFlux, hf]
  cases r with
  | prod r =>
    have hm1 : ∀ q i, r.cm c q i = r.cm c' q i := by
      intro q i
      unfold ProdRxn.cm
      cases e : r.mom q i with
      | none => rfl
      | some m => exact hc _ (h.2.2.2.2 _ _ _ e)
    have h1 := hc _ h.1
    have h2 := hc _ h.2.1
    have hf : ∀ q γ, r.fluxOf c q γ = r.fluxOf c' q γ := by
      intro q γ
      simp only [ProdRxn.fluxOf, hm1, h1, h2]
    have hA : ∀ q γ α, r.pdA c q γ α = r.pdA c' q γ α := by
      intro q γ α
      simp only [ProdRxn.pdA, hm1, h2]
    have hB : ∀ q γ α, r.pdB c q γ α = r.pdB c' q γ α := by
      intro q γ α
      simp only [ProdRxn.pdB, hm1, h1]
    have hM : ∀ q k s, r.pdMoment c q k s = r.pdMoment c' q k s := by
      intro q k s
      simp only [ProdRxn.pdMoment, hA, hB]
    exact ⟨by simp only [Rxn.flux, ProdRxn.computeFlux, hf], by simp only [Rxn.partials, ProdRxn.computePartials, hA, hB, hM]⟩
  | diss r => exact ⟨dd r h, rfl⟩
  | resol r => exact ⟨dd r h, rfl⟩
  | tm r =>
    refine ⟨?_, rfl⟩
    simp only [Rxn.flux, TmRxn.computeFlux, hc _ h.1]
  | nuc r => exact ⟨by simp only [Rxn.flux, NucRxn.computeFlux, hc _ h.1], by simp only [Rxn.partials, NucRxn.computePartials, hc _ h.1]⟩
  | sink r => exact ⟨by simp only [Rxn.flux, SinkRxn.computeFlux, hc _ (show r.reactant < D from h)], rfl⟩

theorem Rxn.Within.left {D : ℕ} {r : Rxn d K} (h : r.Within D) {c c' : ℕ → K} (hc : ∀ m < D, c m = c' m) (n : ℕ) : r.leftSideRate c n = r.leftSideRate c' n := by
  cases r with
  | prod r =>
    have hm1 : ∀ q i, r.cm c q i = r.cm c' q i := by
      intro q i
      unfold ProdRxn.cm
      cases e : r.mom q i with
      | none => rfl
      | some m => exact hc _ (h.2.2.2.2 _ _ _ e)
    simp only [Rxn.leftSideRate, ProdRxn.leftSideRate, hc _ h.1, hc _ h.2.1, hm1]
  | _ => rfl

/-- What it means that a network stays inside `D` degrees of freedom, in terms of what `computeAllFluxes` and `computeAllPartials` do: no thread updates an entry outside, and what they
do does not depend on concentrations outside. -/
def Network.Inside (M : Network d K) (D : ℕ) : Prop :=
  ∀ (c : ℕ → K) (depth spacing : K),
    (∀ t ∈ M.fluxThreads c depth spacing, ∀ u ∈ t, u.1 < D) ∧
    (∀ t ∈ M.partialThreads c depth spacing, ∀ u ∈ t, u.1.1 < D ∧ u.1.2 < D) ∧
    ∀ c' : ℕ → K, (∀ m < D, c m = c' m) → M.fluxThreads c depth spacing = M.fluxThreads c' depth spacing ∧ M.partialThreads c depth spacing = M.partialThreads c' depth spacing

theorem preProcess_congr {M : Network d K} {D : ℕ} (h : ∀ r ∈ M.rxns, r.Within D) {c c' : ℕ → K} (hc : ∀ m < D, c m = c' m) (depth spacing : K) :
    M.preProcess c depth spacing = M.preProcess c' depth spacing := by
  have hl : M.leftSideRate c M.tmData.desorpId = M.leftSideRate c' M.tmData.desorpId := by
    unfold Network.leftSideRate
    split
    · rfl
    · congr 1
      exact List.map_congr_left fun r hr => (h r hr).left hc _
  simp only [Network.preProcess, hl]

theorem inside_of {M : Network d K} {D : ℕ} (h : ∀ r ∈ M.rxns, r.Within D) : M.Inside D := by
  intro c depth spacing
  refine ⟨?_, ?_, fun c' hc => ?_⟩
  · intro t ht u hu
    obtain ⟨r, hr, rfl⟩ := List.mem_map.mp ht
    exact (h r hr).flux_lt _ _ u hu
  · intro t ht u hu
    obtain ⟨r, hr, rfl⟩ := List.mem_map.mp ht
    obtain ⟨r', hr', h'⟩ := List.mem_flatMap.mp (M.network_connectivity_covers _ c r hr u hu)
    exact (h r' hr').connectivity_lt _ h'
  · have hp := preProcess_congr h hc depth spacing
    constructor
    · unfold Network.fluxThreads
      rw [hp]
      exact List.map_congr_left fun r hr => ((h r hr).reads _ hc).1
    · unfold Network.partialThreads
      rw [hp]
      exact List.map_congr_left fun r hr => ((h r hr).reads _ hc).2

/-! ### Tungsten, iron and fuel -/

namespace Dispatch

variable {σ : Type} [DecidableEq σ] {sp : List σ} {N : Net σ sp}

theorem grouped_iff (r : Ival) (s : ℕ) : (axisOf r s).grouped = true ↔ r.e ≠ r.b + 1 := by
  simp only [axisOf, decide_eq_true_eq]
  omega

theorem axesOf_ok (w : Bool) (c : Clu σ) (hi : c.i.e = c.i.b + 1) : Numbering.Ok (axesOf sp w c) := by
  have hl : ∀ a ∈ (List.finRange sp.length).map (fun j => axisOf (c.g (sp.get j)) j), a.slot < sp.length := by
    intro a ha
    obtain ⟨j, _, rfl⟩ := List.mem_map.mp ha
    exact j.2
  have hlt : ((List.finRange sp.length).map (fun j => axisOf (c.g (sp.get j)) j)).Pairwise fun a b => a.slot < b.slot := by
    rw [List.pairwise_map]
    exact (List.pairwise_lt_finRange _).imp fun h => h
  constructor
  · unfold axesOf
    rw [List.pairwise_append]
    refine ⟨hlt.imp le_of_lt, ?_, ?_⟩
    · cases w <;> simp [axisOf]
    · intro a ha b hb
      have := hl a ha
      have : b.slot = sp.length := by
        cases w <;> simp at hb
        · rw [hb]; rfl
        · rcases hb with rfl | rfl <;> rfl
      omega
  · unfold axesOf
    rw [List.pairwise_append]
    refine ⟨hlt.imp fun h _ _ => h.ne, ?_, ?_⟩
    · cases w
      · simp
      · simp only [if_true, List.pairwise_cons, List.mem_singleton, forall_eq]
        refine ⟨fun _ h => absurd hi ((grouped_iff _ _).mp h), by simp, by simp⟩
    · intro a ha b hb _ _
      have := hl a ha
      have : b.slot = sp.length := by
        cases w <;> simp at hb
        · rw [hb]; rfl
        · rcases hb with rfl | rfl <;> rfl
      omega

/-- The layout without the ids. -/
structure Laid (N : Net σ sp) : Prop where
  lay : ∀ k < N.n, Lay sp (N.cl k)
  singleI : ∀ k < N.n, onI sp (N.cl k) → simplex sp (N.cl k)
  singleV : ∀ k < N.n, onV sp (N.cl k) → simplex sp (N.cl k)

theorem Laid.isingle (h : Laid N) {k : ℕ} (hk : k < N.n) : (N.cl k).i.e = (N.cl k).i.b + 1 := by
  rcases (h.lay k hk).kind with ⟨h1, _⟩ | ⟨h1, _⟩
  · exact (h.singleI k hk (onI_of (h.lay k hk) h1).1).2.1
  · simp [h1]

theorem Laid.ok (h : Laid N) (w : Bool) : ∀ a ∈ N.allAxes w, Numbering.Ok a := by
  intro a ha
  obtain ⟨k, hk, rfl⟩ := List.mem_map.mp ha
  exact axesOf_ok w _ (h.isingle (List.mem_range.mp hk))

theorem allAxes_length (w : Bool) : (N.allAxes w).length = N.n := by simp [Net.allAxes]

theorem Laid.isSome (h : Laid N) (w : Bool) {k : ℕ} (hk : k < N.n) (j : Fin (sp.length + 1)) : (N.momentIds w k j).isSome ↔ ∃ a ∈ axesOf sp w (N.cl k), a.grouped = true ∧ a.slot = j := by
  unfold Net.momentIds
  rw [momentId_isSome _ (h.ok w) (by rw [allAxes_length]; exact hk)]
  simp only [Net.allAxes, List.getElem_map, List.getElem_range]

/-- **C79** The ids that `defineMomentIds` assigns are as the conservation laws of C75 and C76 require: one for each grouped species, above those of the clusters, each used once. -/
theorem ready_ids (h : Laid N) (w : Bool) : Ready N (N.momentIds w) where
  lay := h.lay
  singleI := h.singleI
  singleV := h.singleV
  gas k hk j := by
    rw [← not_iff_not, ← ne_eq, Option.ne_none_iff_isSome, h.isSome w hk]
    constructor
    · rintro ⟨a, ha, hg, hs⟩
      simp only [axesOf, List.mem_append, List.mem_map, List.mem_finRange, true_and, List.mem_cons] at ha
      rcases ha with ⟨j', rfl⟩ | ha
      · have : j' = j := Fin.ext hs
        subst this
        exact (grouped_iff _ _).mp hg
      · have : a.slot = sp.length := by
          rcases ha with rfl | ha
          · rfl
          · cases w <;> simp at ha
            rw [ha]; rfl
        have := j.2
        rw [Fin.val_castSucc] at hs
        omega
    · intro hne
      exact ⟨_, List.mem_append_left _ (List.mem_map.mpr ⟨j, List.mem_finRange j, rfl⟩), (grouped_iff _ _).mpr hne, rfl⟩
  vac k hk := by
    rw [← not_iff_not, ← ne_eq, Option.ne_none_iff_isSome, h.isSome w hk]
    constructor
    · rintro ⟨a, ha, hg, hs⟩
      simp only [axesOf, List.mem_append, List.mem_map, List.mem_finRange, true_and, List.mem_cons] at ha
      rcases ha with ⟨j', rfl⟩ | rfl | ha
      · have := j'.2
        simp [axisOf] at hs
        omega
      · exact (grouped_iff _ _).mp hg
      · cases w <;> simp at ha
        rw [ha] at hg
        exact absurd (h.isingle hk) ((grouped_iff _ _).mp hg)
    · intro hne
      exact ⟨_, List.mem_append_right _ List.mem_cons_self, (grouped_iff _ _).mpr hne, by simp [axisOf]⟩
  ge k hk j m e := by
    have := ((dof_bijection _ (h.ok w)).1 k j m e).1
    rwa [allAxes_length] at this
  inj k hk k' hk' j j' m e e' := by
    obtain ⟨a, b⟩ := (dof_bijection _ (h.ok w)).2.1 k k' j j' m e e'
    exact ⟨a, Fin.ext b⟩

theorem Laid.lt (h : Laid N) (w : Bool) {k : ℕ} {j : Fin (sp.length + 1)} {m : ℕ} (e : N.momentIds w k j = some m) : m < N.dofs w := ((dof_bijection _ (h.ok w)).1 k j m e).2

theorem n_le_dofs (w : Bool) : N.n ≤ N.dofs w := by
  unfold Net.dofs numDofs
  rw [allAxes_length]
  omega

theorem rxns_within (h : Laid N) (w : Bool) (R : Rates K) (pair : ℕ → ℕ → Out) (reso : ℕ → ℕ → List ℕ) (sinks : ℕ → ℕ)
    (hp : ∀ i < N.n, ∀ j < N.n, ∀ q ∈ (pair i j).prods, (∀ k, q.1 = some k → k < N.n) ∧ ∀ k, q.2 = some k → k < N.n)
    (hd : ∀ i < N.n, ∀ j < N.n, ∀ k ∈ (pair i j).diss, k < N.n) (hr : ∀ i < N.n, ∀ j < N.n, ∀ k ∈ reso i j, k < N.n) :
    ∀ r ∈ N.rxns (N.momentIds w) R pair reso sinks, r.Within (N.dofs w) := by
  have hn := n_le_dofs (N := N) w
  have dis : ∀ (x : K) (k a b : ℕ), k < N.n → a < N.n → b < N.n → (N.mkDiss (N.momentIds w) x k a b).Within (N.dofs w) := by
    intro x k a b hk ha hb
    refine ⟨fun q => ?_, fun q i m e => ?_⟩
    · cases q <;> simp only [Net.mkDiss] <;> omega
    · cases q <;> exact h.lt w e
  intro r hr'
  simp only [Net.rxns, List.mem_flatMap, List.mem_range, List.mem_filter, List.mem_append, List.mem_map] at hr'
  obtain ⟨i, hi, j, ⟨hj, _⟩, ((hr' | ⟨k, hk, rfl⟩) | ⟨q, hq, rfl⟩) | ⟨k, hk, rfl⟩⟩ := hr'
  · split at hr'
    · obtain rfl := List.eq_of_mem_replicate hr'
      exact lt_of_lt_of_le hi hn
    · simp at hr'
  · exact dis _ _ _ _ (hr i hi j hj k hk) hi hj
  · obtain ⟨h1, h2⟩ := hp i hi j hj q hq
    refine ⟨lt_of_lt_of_le hi hn, lt_of_lt_of_le hj hn, fun k e => lt_of_lt_of_le (h1 k e) hn, fun k e => lt_of_lt_of_le (h2 k e) hn, fun s a m e => ?_⟩
    cases s
    · exact h.lt w e
    · exact h.lt w e
    · obtain ⟨_, _, e⟩ := Option.bind_eq_some_iff.mp e
      exact h.lt w e
    · obtain ⟨_, _, e⟩ := Option.bind_eq_some_iff.mp e
      exact h.lt w e
  · exact dis _ _ _ _ (hd i hi j hj k hk) hi hj

theorem goods_lt {c1 c2 : Clu σ} {s k : ℕ} (h : k ∈ N.goods c1 c2 s) : k < N.n := List.mem_range.mp (List.mem_of_mem_filter h)

theorem tmSearch_mem (f : ℕ → Option ℕ) (p : ℕ → List ℕ) (fuel n s : ℕ) {q : ℕ × ℕ} (h : q ∈ Products.tmSearch f p fuel n s) : (∃ s', q.1 ∈ p s') ∧ ∃ n', f n' = some q.2 := by
  induction fuel generalizing n s with
  | zero => simp [Products.tmSearch] at h
  | succ m ih =>
    rw [Products.tmSearch] at h
    split at h
    · exact ih _ _ h
    · rename_i c e
      split at h
      · exact ih _ _ h
      · obtain ⟨k, hk, rfl⟩ := List.mem_map.mp h
        exact ⟨⟨_, hk⟩, _, e⟩

theorem fe_within (N : Net Unit [()]) (h : Laid N) (R : Rates K) (mob : ℕ → Bool) : ∀ r ∈ feRxns N (N.momentIds true) R mob, r.Within (N.dofs true) := by
  have hN : LayS N := ⟨h.lay, h.singleI, h.singleV⟩
  refine rxns_within h true R _ _ _ (fun i hi j hj q hq => ?_) (fun i hi j hj k hk => ?_) (fun i hi j hj k hk => by simp at hk)
  · obtain ⟨_, h2⟩ := fe_shape hq
    obtain ⟨x, y⟩ := q
    simp only at h2
    subst h2
    exact ⟨fun k e => by simp only at e; subst e; exact (fe_reach hN hi hj hq).1, fun k e => by simp at e⟩
  · exact (fe_reach hN hi hj (mem_of_count hk (fe_diss N hN _ _ hi hj k))).1

/-- **C79** Iron: no reaction reads or writes outside the degrees of freedom, whatever the rates and the clusters that diffuse. -/
theorem fe_inside (N : Net Unit [()]) (h : Laid N) (R : Rates K) (mob : ℕ → Bool) (M : Network 2 K) (hM : M.rxns = feRxns N (N.momentIds true) R mob) : M.Inside (N.dofs true) := by
  refine inside_of ?_
  rw [hM]
  exact fe_within N h R mob

theorem ne_within (N : Net Unit [()]) (h : Laid N) (R : Rates K) (mob : ℕ → Bool) : ∀ r ∈ neRxns N (N.momentIds false) R mob, r.Within (N.dofs false) := by
  have hN : LayS N := ⟨h.lay, h.singleI, h.singleV⟩
  refine rxns_within h false R _ _ _ (fun i hi j hj q hq => ?_) (fun i hi j hj k hk => (ne_diss_sound N hN hi hj hk).1) (fun i hi j hj k hk => (ne_reso_sound N hN hi hj hk).1)
  obtain ⟨_, h2⟩ := ne_shape hq
  obtain ⟨x, y⟩ := q
  simp only at h2
  subst h2
  exact ⟨fun k e => by simp only at e; subst e; exact (ne_reach hN hi hj hq).1, fun k e => by simp at e⟩

/-- **C79** Fuel, with the reactions of the base classes. -/
theorem ne_inside (N : Net Unit [()]) (h : Laid N) (R : Rates K) (mob : ℕ → Bool) (M : Network 2 K) (hM : M.rxns = neRxns N (N.momentIds false) R mob) : M.Inside (N.dofs false) := by
  refine inside_of ?_
  rw [hM]
  exact ne_within N h R mob

theorem psi_within (hsp : sp.Nodup) (he : σ) (N : Net σ sp) (h : Laid N) (R : Rates K) (mob : ℕ → Bool) : ∀ r ∈ psiRxns he N (N.momentIds true) R mob, r.Within (N.dofs true) := by
  refine rxns_within h true R _ _ _ (fun i hi j hj q hq => ?_) (fun i hi j hj k hk => ?_) (fun i hi j hj k hk => by simp at hk)
  · rcases (psi_shape hq).2 with h2 | ⟨k, l, rfl⟩
    · obtain ⟨x, y⟩ := q
      simp only at h2
      subst h2
      exact ⟨fun k e => by simp only at e; subst e; exact (psi_reach h.lay hi hj hq).1, fun k e => by simp at e⟩
    · obtain ⟨_, _, _, _, _, hin⟩ := psi_second_conditions he N _ _ _ _ hq
      have : ∃ s', k ∈ N.goods (N.cl i) (N.cl j) s' := by
        unfold psiSecond at hin
        split at hin
        · simp at hin
        · split at hin
          · simp at hin
          · split at hin
            · simp at hin
            · exact (tmSearch_mem _ _ _ _ _ hin).1
      have hl : ∃ n : ℕ, N.find (fun _ => 0) 0 n = some l := by
        unfold psiSecond at hin
        split at hin
        · simp at hin
        · split at hin
          · simp at hin
          · split at hin
            · simp at hin
            · exact (tmSearch_mem _ _ _ _ _ hin).2
      obtain ⟨_, hk⟩ := this
      obtain ⟨_, hl⟩ := hl
      exact ⟨fun k' e => by simp only [Option.some.injEq] at e; exact e ▸ goods_lt hk, fun k' e => by simp only [Option.some.injEq] at e; exact e ▸ (N.find_some.mp hl).1⟩
  · exact (psi_reach h.lay hi hj (mem_of_count hk (psi_diss hsp he N _ _ _ _ (h.lay i hi) (h.lay j hj) k))).1

/-- **C79 (partial)** Tungsten, with any gases, without modified trap mutation (for which see `Verif.Network.MutateProps`). -/
theorem psi_inside_partial (hsp : sp.Nodup) (he : σ) (N : Net σ sp) (h : Laid N) (R : Rates K) (mob : ℕ → Bool) (M : Network (sp.length + 1) K) (hM : M.rxns = psiRxns he N (N.momentIds true) R mob) :
    M.Inside (N.dofs true) := by
  refine inside_of ?_
  rw [hM]
  exact psi_within hsp he N h R mob

/-- **C79** Fuel with its own sources and sinks: no update leaves the degrees of freedom and no concentration outside them is read. -/
theorem ne_own_inside (N : Net Unit [()]) (h : Laid N) (R : Rates K) (mob : ℕ → Bool) (M : Network 2 K) (hM : M.rxns = neRxns N (N.momentIds false) R mob) (E : Fuel.Extra K)
    (c : ℕ → K) (depth spacing : K) : (∀ t ∈ Fuel.threads M E c depth spacing, ∀ u ∈ t, u.1 < N.dofs false) ∧
      ∀ c' : ℕ → K, (∀ m < N.dofs false, c m = c' m) → Fuel.threads M E c depth spacing = Fuel.threads M E c' depth spacing := by
  have hw := ne_within N h R mob
  rw [← hM] at hw
  constructor
  · intro t ht u hu
    obtain ⟨r, hr, rfl⟩ := List.mem_map.mp ht
    have hr := hw r hr
    cases r with
    | prod r =>
      simp only [Fuel.flux, Fuel.source, List.mem_append] at hu
      rcases hu with hu | hu
      · split at hu
        · simp at hu
          rcases hu with rfl | rfl
          · exact hr.1
          · exact hr.2.1
        · simp at hu
      · exact Rxn.Within.flux_lt (r := .prod r) hr (M.preProcess c depth spacing) c u hu
    | sink r =>
      simp [Fuel.flux] at hu
      rw [hu]
      exact hr
    | diss r => exact Rxn.Within.flux_lt hr (M.preProcess c depth spacing) c u hu
    | resol r => exact Rxn.Within.flux_lt hr (M.preProcess c depth spacing) c u hu
    | tm r => exact Rxn.Within.flux_lt hr (M.preProcess c depth spacing) c u hu
    | nuc r => exact Rxn.Within.flux_lt hr (M.preProcess c depth spacing) c u hu
  · intro c' hc
    have hp := preProcess_congr hw hc depth spacing
    unfold Fuel.threads
    rw [hp]
    refine List.map_congr_left fun r hr => ?_
    have hr := hw r hr
    have := (hr.reads (M.preProcess c' depth spacing) hc).1
    cases r with
    | prod r =>
      simp only [Fuel.flux]
      congr 1
    | sink r => simp only [Fuel.flux, hc _ (show r.reactant < _ from hr)]
    | diss r => exact this
    | resol r => exact this
    | tm r => exact this
    | nuc r => exact this

/-- The ids of `grNet` are those given there: 7 of eight degrees of freedom, all of which the reactions change (see `grM`). -/
example : grNet.dofs true = 8 ∧ (List.range 7).map (fun k => (grNet.momentIds true k 0, grNet.momentIds true k 1)) = (List.range 7).map (fun k => (grMom k 0, grMom k 1)) ∧ grMom 6 1 = some 7 := by
  decide +kernel

/-- Its layout is as the theorems ask. -/
example : Laid grNet := ⟨grNet_ready.lay, grNet_ready.singleI, grNet_ready.singleV⟩

/-- With two grouped axes: two moments for each group, in the order of the species. -/
example : twoNet.dofs true = 7 ∧ (List.range 3).map (fun k => (twoNet.momentIds true k 0, twoNet.momentIds true k 1)) = [(none, none), (some 3, some 4), (some 5, some 6)] := by decide +kernel

end Dispatch

/-! ### Zirconium and alloys -/

namespace Pairs

variable {κ : Type} [DecidableEq κ] {W : World κ}

theorem axesOf_ok {ks : List κ} (hnd : ks.Nodup) (c : Cl κ) : Numbering.Ok (axesOf ks c) := by
  constructor
  · unfold axesOf
    rw [List.pairwise_map]
    exact hnd.imp fun _ => le_rfl
  · unfold axesOf
    rw [List.pairwise_map]
    refine hnd.imp fun {a b} hab h1 h2 => ?_
    have key : ∀ s, (axisOf (axes c s) 0).grouped = true → c.kind = s := by
      intro s hs
      by_contra hc
      simp [axisOf, axes, hc] at hs
    exact absurd ((key a h1).symm.trans (key b h2)) hab

theorem allAxes_ok {ks : List κ} (hnd : ks.Nodup) : ∀ a ∈ W.allAxes ks, Numbering.Ok a := by
  intro a ha
  obtain ⟨k, hk, rfl⟩ := List.mem_map.mp ha
  exact axesOf_ok hnd _

theorem allAxes_length (ks : List κ) : (W.allAxes ks).length = W.n := by simp [World.allAxes]

/-- **C79** The ids that `defineMomentIds` assigns in zirconium and alloys are as the conservation laws of C78 require. -/
theorem ready_ids {ks : List κ} (hnd : ks.Nodup) (hall : ∀ s, s ∈ ks) (hpos : ∀ k < W.n, 0 < (W.cl k).reg.b ∧ (W.cl k).reg.b < (W.cl k).reg.e) : Ready W (W.momentIds ks) where
  pos := hpos
  alone k hk := by
    rw [← not_iff_not, ← ne_eq, Option.ne_none_iff_isSome]
    unfold World.momentIds
    rw [momentId_isSome _ (allAxes_ok hnd) (by rw [allAxes_length]; exact hk)]
    simp only [World.allAxes, List.getElem_map, List.getElem_range, axesOf, List.mem_map]
    unfold Single
    constructor
    · rintro ⟨_, ⟨s, _, rfl⟩, hg, _⟩
      by_cases hs : (W.cl k).kind = s
      · simp [axisOf, axes, hs] at hg
        omega
      · simp [axisOf, axes, hs] at hg
    · intro hne
      refine ⟨_, ⟨(W.cl k).kind, hall _, rfl⟩, ?_, rfl⟩
      simp [axisOf, axes]
      omega
  ge k hk m e := by
    have := ((dof_bijection _ (allAxes_ok hnd)).1 k 0 m e).1
    rwa [allAxes_length] at this
  inj k hk k' hk' m e e' := ((dof_bijection _ (allAxes_ok hnd)).2.1 k k' 0 0 m e e').1

theorem ids_lt {ks : List κ} (hnd : ks.Nodup) {k m : ℕ} (e : W.momentIds ks k = some m) : m < W.dofs ks := ((dof_bijection _ (allAxes_ok hnd)).1 k 0 m e).2

theorem n_le_dofs (ks : List κ) : W.n ≤ W.dofs ks := by
  unfold World.dofs numDofs
  rw [allAxes_length]
  omega

theorem rxns_within {ks : List κ} (hnd : ks.Nodup) (ρ : Rules κ K) (R : Rates K) (pair : ℕ → ℕ → Out) (sinks : ℕ → ℕ)
    (hp : ∀ i < W.n, ∀ j < W.n, ∀ k, some k ∈ (pair i j).prods → k < W.n) (hd : ∀ i < W.n, ∀ j < W.n, ∀ k ∈ (pair i j).diss, k < W.n) :
    ∀ r ∈ W.rxns ρ (W.momentIds ks) R pair sinks, r.Within (W.dofs ks) := by
  have hn := n_le_dofs (W := W) ks
  intro r hr'
  simp only [World.rxns, List.mem_flatMap, List.mem_range, List.mem_filter, List.mem_append, List.mem_map] at hr'
  obtain ⟨i, hi, j, ⟨hj, _⟩, (hr' | ⟨q, hq, rfl⟩) | ⟨k, hk, rfl⟩⟩ := hr'
  · split at hr'
    · obtain rfl := List.eq_of_mem_replicate hr'
      exact lt_of_lt_of_le hi hn
    · simp at hr'
  · refine ⟨lt_of_lt_of_le hi hn, lt_of_lt_of_le hj hn, fun k e => ?_, fun k e => by simp [World.mkProd] at e, fun s a m e => ?_⟩
    · have e : q = some k := e
      subst e
      exact lt_of_lt_of_le (hp i hi j hj k hq) hn
    · cases s
      · exact ids_lt hnd e
      · exact ids_lt hnd e
      · obtain ⟨_, _, e⟩ := Option.bind_eq_some_iff.mp e
        exact ids_lt hnd e
      · simp [World.mkProd] at e
  · have := hd i hi j hj k hk
    refine ⟨fun q => ?_, fun q i m e => ?_⟩
    · cases q <;> simp only [World.mkDiss] <;> omega
    · cases q <;> exact ids_lt hnd e

theorem zrKinds_all : zrKinds.Nodup ∧ ∀ s, s ∈ zrKinds := ⟨by decide, fun s => by cases s <;> decide⟩
theorem alloyKinds_all : alloyKinds.Nodup ∧ ∀ s, s ∈ alloyKinds := ⟨by decide, fun s => by cases s <;> decide⟩

theorem zr_within (W : World ZK) (hpos : ∀ k < W.n, 0 < (W.cl k).reg.b ∧ (W.cl k).reg.b < (W.cl k).reg.e) (R : Rates K) (mob : ℕ → Bool) :
    ∀ r ∈ zrRxns W (W.momentIds zrKinds) R mob, r.Within (W.dofs zrKinds) := by
  have hr := ready_ids zrKinds_all.1 zrKinds_all.2 hpos
  exact rxns_within zrKinds_all.1 _ R _ _ (fun i hi j hj k hk => (zr_sound hr mob hi hj hk).1) fun i hi j hj k hk => (zr_soundD hr mob hi hj hk).1

/-- **C79** Zirconium: no reaction reads or writes outside the degrees of freedom. -/
theorem zr_inside (W : World ZK) (hpos : ∀ k < W.n, 0 < (W.cl k).reg.b ∧ (W.cl k).reg.b < (W.cl k).reg.e) (R : Rates K) (mob : ℕ → Bool) (M : Network 1 K)
    (hM : M.rxns = zrRxns W (W.momentIds zrKinds) R mob) : M.Inside (W.dofs zrKinds) := by
  refine inside_of ?_
  rw [hM]
  exact zr_within W hpos R mob

theorem alloy_within (W : World AK) (h : AlloyReady W (W.momentIds alloyKinds)) (R : Rates K) (mob : ℕ → Bool) : ∀ r ∈ alloyRxns W (W.momentIds alloyKinds) R mob, r.Within (W.dofs alloyKinds) :=
  rxns_within alloyKinds_all.1 _ R _ _ (fun i hi j hj k hk => (alloy_sound h mob hi hj hk).1) fun i hi j hj k hk => (alloy_soundD h mob hi hj hk).1

/-- **C79** Alloys. -/
theorem alloy_inside (W : World AK) (h : AlloyReady W (W.momentIds alloyKinds)) (R : Rates K) (mob : ℕ → Bool) (M : Network 1 K)
    (hM : M.rxns = alloyRxns W (W.momentIds alloyKinds) R mob) : M.Inside (W.dofs alloyKinds) := by
  refine inside_of ?_
  rw [hM]
  exact alloy_within W h R mob

/-- **C79 (partial)** Zirconium with the ids of `defineMomentIds`: vacancies less interstitials change by what the sinks remove. Missing as in `zr_lattice_partial`. -/
theorem zr_network_partial (W : World ZK) (hpos : ∀ k < W.n, 0 < (W.cl k).reg.b ∧ (W.cl k).reg.b < (W.cl k).reg.e) (R : Rates K) (mob : ℕ → Bool)
    (hA : ∀ i < W.n, ∀ j < W.n, (mob i = true ∨ mob j = true) → Aligned zvac (W.cl i) (W.cl j)) (M : Network 1 K) (hM : M.rxns = zrRxns W (W.momentIds zrKinds) R mob)
    (c : ℕ → K) (depth spacing : K) {l : List (ℕ × K)} (hl : Interleaves (M.fluxThreads c depth spacing) l) :
    lattice zvac W (W.momentIds zrKinds) (netOf l) = -∑ i ∈ (Finset.range W.n).filter (fun i => mob i = true ∧ (W.cl i).reg.e = (W.cl i).reg.b + 1 ∧ (W.cl i).kind ≠ .basal),
      ((if (W.cl i).kind = .i then -(W.cl i).reg.b else (W.cl i).reg.b : ℤ) : K) * (R.sink i * c i) :=
  zr_lattice_partial (ready_ids zrKinds_all.1 zrKinds_all.2 hpos) R mob hA M hM c depth spacing hl

/-- The ids of the groups of `zrEx` are those given there: 7, 8 and 9 of ten degrees of freedom. -/
example : zrEx.dofs zrKinds = 10 ∧ (List.range 7).map (zrEx.momentIds zrKinds) = (List.range 7).map zrExMom ∧ (List.range 7).map zrExMom = [none, none, none, none, some 7, some 8, some 9] := by
  decide +kernel

/-- And of `alloyEx`, so that the theorems apply to it. -/
example : alloyEx.dofs alloyKinds = 10 ∧ (List.range 8).map (alloyEx.momentIds alloyKinds) = (List.range 8).map alloyExMom := by decide +kernel

/-- The layout of `alloyEx` with these ids. -/
example : AlloyReady alloyEx (alloyEx.momentIds alloyKinds) :=
  { ready_ids alloyKinds_all.1 alloyKinds_all.2 alloyEx_ready.pos with lay := alloyEx_ready.lay, single := alloyEx_ready.single, small := alloyEx_ready.small }

end Pairs

end Xolotl.Network
