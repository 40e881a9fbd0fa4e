import Verif.Network.ConstNet
import Verif.Network.PatternProps
import Verif.Network.ConstantProps

/-!
# C79, C90: networks with constant reactions

No reaction reads or writes outside the degrees of freedom and the matrix holds the derivatives, also for a network of zirconium or of an alloy that is a part of a larger network.
-/

set_option linter.unusedSectionVars false

namespace Xolotl.Network

variable {d : ℕ} {K : Type*} [Field K] [LinearOrder K] [IsStrictOrderedRing K]

/-- The ids of a constant reaction are below `D`. -/
def ConstRxn.Within (D : ℕ) (r : ConstRxn d) : Prop := r.r1 < D ∧ (∀ b, r.r2 = some b → b < D) ∧ (∀ i m, r.mom1 i = some m → m < D) ∧ ∀ i m, r.mom2 i = some m → m < D

namespace ConstRxn

variable {D : ℕ} {r : ConstRxn d}

theorem Within.row (h : r.Within D) : ∀ γ m, r.row γ = some m → m < D := by
  rintro (_ | i) m e
  · exact Option.some.inj e ▸ h.1
  · exact h.2.2.1 i m e

theorem Within.col (h : r.Within D) : ∀ γ m, r.col γ = some m → m < D := by
  rintro (_ | i) m e
  · exact h.2.1 m e
  · obtain ⟨_, -, e⟩ := Option.bind_eq_some_iff.mp e
    exact h.2.2.2 i m e

theorem Within.connectivity_lt (h : r.Within D) : ∀ u ∈ r.computeConnectivity, u.1 < D ∧ u.2 < D := by
  intro u hu
  unfold computeConnectivity at hu
  rcases List.mem_append.mp hu with hu | hu
  · exact linkBlock_lt h.row h.row u hu
  · cases e : r.r2 with
    | none => rw [e] at hu; simp at hu
    | some b => rw [e] at hu; exact linkBlock_lt h.row h.col u hu

theorem emit_lt {o : Option ℕ} {x : K} {u : ℕ × K} (ho : ∀ m, o = some m → m < D) (hu : u ∈ emit o x) : u.1 < D := by
  cases o with
  | none => simp [emit] at hu
  | some n =>
    simp only [emit, List.mem_singleton] at hu
    rw [hu]
    exact ho n rfl

theorem colTerm_lt {R : ℕ × Option ℕ → K} {c : ℕ → K} {a b : Option ℕ} {u : ℕ × K} (ha : ∀ m, a = some m → m < D) (hu : u ∈ colTerm R c a b) : u.1 < D := by
  unfold colTerm at hu
  split at hu
  · simp at hu
  · exact emit_lt ha hu

theorem colTerm_congr {R : ℕ × Option ℕ → K} {c c' : ℕ → K} (hc : ∀ m < D, c m = c' m) {a b : Option ℕ} (hb : ∀ m, b = some m → m < D) : colTerm R c a b = colTerm R c' a b := by
  unfold colTerm
  split
  · rfl
  · rw [hc _ (hb _ rfl)]

theorem Within.flux_lt (h : r.Within D) (R : ℕ × Option ℕ → K) (c : ℕ → K) : ∀ u ∈ r.computeFlux R c, u.1 < D := by
  intro u hu
  unfold computeFlux at hu
  split at hu
  · simp only [List.mem_append, List.mem_flatMap] at hu
    rcases hu with hu | ⟨i, -, hu⟩ <;> exact emit_lt (h.row _) hu
  · simp only [List.mem_append, List.mem_flatMap] at hu
    rcases hu with hu | ⟨i, -, (hu | hu) | ⟨j, -, hu⟩⟩ <;> exact colTerm_lt (h.row _) hu

theorem Within.flux_congr (h : r.Within D) (R : ℕ × Option ℕ → K) {c c' : ℕ → K} (hc : ∀ m < D, c m = c' m) : r.computeFlux R c = r.computeFlux R c' := by
  have e : ∀ a γ, colTerm R c a (r.col γ) = colTerm R c' a (r.col γ) := fun a γ => colTerm_congr hc (h.col γ)
  unfold computeFlux
  split <;> simp only [e]

end ConstRxn

/-- Every constant reaction that the generators create stays within the degrees of freedom. -/
theorem constantReactions_within {n D : ℕ} (hn : n ≤ D) (mom : ℕ → Fin d → Option ℕ) (hm : ∀ k i m, mom k i = some m → m < D) (conns : ℕ × Option ℕ → Bool) :
    ∀ r ∈ constantReactions n mom conns, r.Within D := by
  intro r hr
  simp only [constantReactions, List.mem_flatMap, List.mem_range] at hr
  obtain ⟨i, hi, j, hj, hr⟩ := hr
  split at hr
  · rw [List.mem_append, List.mem_append] at hr
    have hi' : i < D := by omega
    have hj' : j < D := by omega
    rcases hr with (hr | hr) | hr <;> split at hr <;> simp only [List.mem_singleton, List.not_mem_nil] at hr <;> subst hr
    · exact ⟨hi', fun b e => by simp at e, hm i, fun _ _ e => by simp at e⟩
    · exact ⟨hi', fun b e => Option.some.inj e ▸ hj', hm i, hm j⟩
    · exact ⟨hj', fun b e => Option.some.inj e ▸ hi', hm j, hm i⟩
  · simp at hr

namespace Pattern

open Xolotl.Network.Conn

/-- What it means that a network with constant reactions stays inside `D` degrees of freedom: no thread updates an entry outside, no connectivity leads outside, and what the threads do does not depend on
concentrations outside. -/
def Joined.Inside (N : Joined d K) (D : ℕ) : Prop :=
  (∀ t ∈ N.requests, ∀ u ∈ t, ∃ a b, u = (some a, some b) ∧ a < D ∧ b < D) ∧ ∀ (c : ℕ → K) (depth spacing : K),
    (∀ t ∈ N.fluxThreads c depth spacing, ∀ u ∈ t, u.1 < D) ∧
    (∀ t ∈ N.partialThreads c depth spacing, ∀ u ∈ t, u.1.1 < D ∧ u.1.2 < D) ∧
    ∀ c' : ℕ → K, (∀ m < D, c m = c' m) → N.fluxThreads c depth spacing = N.fluxThreads c' depth spacing ∧ N.partialThreads c depth spacing = N.partialThreads c' depth spacing

theorem joined_inside {N : Joined d K} {D : ℕ} (hw : ∀ r ∈ N.net.rxns, r.Within D) (hc : ∀ r ∈ N.consts, r.Within D) : N.Inside D := by
  refine ⟨fun t ht u hu => ?_, fun c depth spacing => ?_⟩
  · rcases List.mem_append.mp ht with ht | ht
    · obtain ⟨r, hr, rfl⟩ := List.mem_map.mp ht
      obtain ⟨v, hv, rfl⟩ := List.mem_map.mp hu
      exact ⟨v.1, v.2, rfl, (hw r hr).connectivity_lt v hv⟩
    · obtain ⟨r, hr, rfl⟩ := List.mem_map.mp ht
      obtain ⟨v, hv, rfl⟩ := List.mem_map.mp hu
      exact ⟨v.1, v.2, rfl, (hc r hr).connectivity_lt v hv⟩
  · obtain ⟨h1, h2, h3⟩ := inside_of (M := N.net) hw c depth spacing
    refine ⟨fun t ht u hu => ?_, fun t ht u hu => ?_, fun c' hcc => ?_⟩
    · rcases List.mem_append.mp ht with ht | ht
      · exact h1 t ht u hu
      · obtain ⟨r, hr, rfl⟩ := List.mem_map.mp ht
        exact (hc r hr).flux_lt _ _ u hu
    · rcases List.mem_append.mp ht with ht | ht
      · exact h2 t ht u hu
      · obtain ⟨r, hr, rfl⟩ := List.mem_map.mp ht
        exact (hc r hr).connectivity_lt _ (r.constant_partials_covered _ u hu)
    · obtain ⟨e1, e2⟩ := h3 c' hcc
      refine ⟨?_, by rw [Joined.partialThreads, Joined.partialThreads, e2]⟩
      rw [Joined.fluxThreads, Joined.fluxThreads, e1]
      congr 1
      exact List.map_congr_left fun r hr => (hc r hr).flux_congr _ hcc

theorem Joined.rows {N : Joined d K} {D : ℕ} (h : N.Inside D) : ∀ r c, (some r, some c) ∈ N.requests.flatten → r < D := fun r c hm => by
  obtain ⟨t, ht, hu⟩ := List.mem_flatten.mp hm
  obtain ⟨a, b, e, ha, -⟩ := h.1 t ht _ hu
  simp only [Prod.mk.injEq, Option.some.injEq] at e
  exact e.1 ▸ ha

theorem mem_constRequests {cs : List (ConstRxn d)} {r c : ℕ} : (some r, some c) ∈ (constRequests cs).flatten ↔ ∃ x ∈ cs, (r, c) ∈ x.computeConnectivity := by
  simp only [constRequests, List.mem_flatten, List.mem_map]
  constructor
  · rintro ⟨_, ⟨x, hx, rfl⟩, h⟩
    obtain ⟨u, hu, e⟩ := List.mem_map.mp h
    simp only [Prod.mk.injEq, Option.some.injEq] at e
    obtain ⟨rfl, rfl⟩ := e
    exact ⟨x, hx, hu⟩
  · rintro ⟨x, hx, h⟩
    exact ⟨_, ⟨x, hx, rfl⟩, List.mem_map.mpr ⟨_, h, rfl⟩⟩

/-- Every update of the derivatives was asked for. -/
theorem Joined.covered {N₀ N : Joined d K} (hs : N.net.rxns.map Rxn.connectivity = N₀.net.rxns.map Rxn.connectivity) (hk : N.consts = N₀.consts) (c : ℕ → K) (depth spacing : K) :
    ∀ u ∈ (N.partialThreads c depth spacing).flatten, (some u.1.1, some u.1.2) ∈ N₀.requests.flatten := by
  intro u hu
  obtain ⟨t, ht, hu⟩ := List.mem_flatten.mp hu
  rw [Joined.requests, List.flatten_append, List.mem_append]
  rcases List.mem_append.mp ht with ht | ht
  · obtain ⟨r, hr, rfl⟩ := List.mem_map.mp ht
    left
    refine mem_requests.mpr ?_
    rw [List.flatMap_def, ← hs, ← List.flatMap_def]
    exact N.net.network_connectivity_covers _ c r hr u hu
  · obtain ⟨r, hr, rfl⟩ := List.mem_map.mp ht
    exact .inr (mem_constRequests.mpr ⟨r, hk ▸ hr, r.constant_partials_covered _ u hu⟩)

/-- **C90** One evaluation of the matrix with constant reactions, at rates, also constant ones, other than those at the set up. -/
theorem constant_matrix_exact {D : ℕ} (N₀ N : Joined d K) (hi : N₀.Inside D) (hs : N.net.rxns.map Rxn.connectivity = N₀.net.rxns.map Rxn.connectivity) (hk : N.consts = N₀.consts)
    (B : Build D N₀.requests) (m : Mem K) (hm : Clean B m) (c : ℕ → K) (depth spacing : K) :
    ∃ ps, (N.partialThreads c depth spacing).mapM (place B.crs) = some ps ∧ ∀ l, Interleaves ps l →
      ∃ m', rhsJacobian B.coo m l = some m' ∧ Clean B m' ∧ ∀ r k, m'.J r k = netOf (N.partialThreads c depth spacing).flatten (r, k) :=
  evaluation B (Joined.rows hi) m hm _ fun u hu => by
    have := Joined.covered hs hk c depth spacing u hu
    exact ⟨Joined.rows hi _ _ this, this⟩

/-- The derivative of all fluxes. -/
theorem Joined.deriv (N : Joined d ℝ) (c : ℕ → ℝ) (hM : Smooth N.net c) (depth spacing : ℝ) (src : ℕ → ℝ) (r k : ℕ) (hq : Quiet N.net r) (F : ℝ → List (ℕ × ℝ))
    (hF : ∀ x, Interleaves (N.fluxThreads (Function.update c k x) depth spacing) (F x)) :
    HasDerivAt (fun x => applyUpdates src (F x) r) (netOf (N.partialThreads c depth spacing).flatten (r, k)) (c k) := by
  have h1 := N.net.network_jacobian_rows hM.prod c hM.nuc depth spacing r k hq _ (fun x => Interleaves.sequential _) _ (Interleaves.sequential _)
  have h2 : HasDerivAt (fun x => netOf (N.consts.map fun q => q.computeFlux N.rates (Function.update c k x)).flatten r)
      (netOf (N.consts.map fun q => q.computePartials N.rates).flatten (r, k)) (c k) := by
    induction N.consts with
    | nil => exact hasDerivAt_const _ _
    | cons q qs ih =>
      simp only [List.map_cons, List.flatten_cons, netOf_append]
      exact (q.constant_jacobian N.rates c r k).add ih
  have h3 := (h1.add h2).const_add (src r)
  have e : ∀ x, applyUpdates src (F x) r = src r + (netOf (N.net.fluxThreads (Function.update c k x) depth spacing).flatten r +
      netOf (N.consts.map fun q => q.computeFlux N.rates (Function.update c k x)).flatten r) := fun x => by
    rw [applyUpdates_eq, netOf_perm (hF x).perm, Joined.fluxThreads, List.flatten_append, netOf_append]
  simp only [e]
  rw [Joined.partialThreads, List.flatten_append, netOf_append]
  exact h3

/-- **C90** The matrix is the Jacobian of the right-hand side with constant reactions. -/
theorem constant_matrix_jacobian {D : ℕ} (N₀ N : Joined d ℝ) (hi : N₀.Inside D) (hs : N.net.rxns.map Rxn.connectivity = N₀.net.rxns.map Rxn.connectivity) (hk : N.consts = N₀.consts)
    (B : Build D N₀.requests) (c : ℕ → ℝ) (hM : Smooth N.net c) (depth spacing : ℝ) :
    Delivers B (fun c => N.fluxThreads c depth spacing) (N.partialThreads c depth spacing) c (Quiet N.net) := by
  obtain ⟨ps, e, -⟩ := constant_matrix_exact N₀ N hi hs hk B (start B.nPartials fun _ _ => 0) rfl c depth spacing
  refine ⟨ps, e, fun m hm l hl => ?_⟩
  obtain ⟨ps', e', h⟩ := constant_matrix_exact N₀ N hi hs hk B m hm c depth spacing
  obtain rfl := Option.some.inj (e.symm.trans e')
  obtain ⟨m', e1, hc, hJ⟩ := h l hl
  refine ⟨m', e1, hc, fun src r k F hq hF => ?_⟩
  rw [hJ r k]
  exact N.deriv c hM depth spacing src r k hq F hF

/-- **C90** Any number of evaluations with constant reactions, while the larger network changes the constant rates in between. -/
theorem constant_evaluations_clean {D : ℕ} (N₀ : Joined d K) (hi : N₀.Inside D) (B : Build D N₀.requests) : ∀ (es : List (List (ℕ × K))) (m : Mem K), Clean B m →
    (∀ l ∈ es, ∃ (N : Joined d K) (c : ℕ → K) (depth spacing : K) (ps : List (List (ℕ × K))), N.net.rxns.map Rxn.connectivity = N₀.net.rxns.map Rxn.connectivity ∧ N.consts = N₀.consts ∧
      (N.partialThreads c depth spacing).mapM (place B.crs) = some ps ∧ Interleaves ps l) →
    ∃ m', evaluations B.coo m es = some m' ∧ Clean B m' := by
  intro es
  induction es with
  | nil => exact fun m hm _ => ⟨m, rfl, hm⟩
  | cons l es ih =>
    intro m hm h
    obtain ⟨N, c, depth, spacing, ps, hs, hk, hp, hl⟩ := h l (by simp)
    obtain ⟨ps', hp', h'⟩ := constant_matrix_exact N₀ N hi hs hk B m hm c depth spacing
    obtain rfl := Option.some.inj (hp.symm.trans hp')
    obtain ⟨m1, e1, hm1, -⟩ := h' l hl
    obtain ⟨m', e2, hm'⟩ := ih m1 hm1 fun l' hl' => h l' (by simp [hl'])
    exact ⟨m', by rw [evaluations, List.foldlM_cons, e1]; exact e2, hm'⟩

/-- **C90** A component of the right-hand side with constant reactions does not change with a concentration outside of its row of the pattern. -/
theorem constant_outside_pattern {D : ℕ} (N₀ N : Joined d ℝ) (hi : N₀.Inside D) (hs : N.net.rxns.map Rxn.connectivity = N₀.net.rxns.map Rxn.connectivity) (hk : N.consts = N₀.consts)
    (B : Build D N₀.requests) (c : ℕ → ℝ) (hM : Smooth N.net c) (depth spacing : ℝ) (r k : ℕ) (hq : Quiet N.net r) (hrk : (r, k) ∉ B.coo) (src : ℕ → ℝ) (F : ℝ → List (ℕ × ℝ))
    (hF : ∀ x, Interleaves (N.fluxThreads (Function.update c k x) depth spacing) (F x)) : HasDerivAt (fun x => applyUpdates src (F x) r) 0 (c k) := by
  have := N.deriv c hM depth spacing src r k hq F hF
  rwa [netOf_eq_zero] at this
  intro u hu e
  apply hrk
  have h := Joined.covered hs hk c depth spacing u hu
  rw [e] at h
  exact (B.mem_coo (Joined.rows hi) r k).mpr (.inl ⟨Joined.rows hi _ _ h, .inr h⟩)

/-! ### Zirconium and alloys -/

section
open Xolotl.Network.Pairs

/-- The constant reactions of a network of zirconium or of an alloy with its own ids. -/
def worldConsts {κ : Type} [DecidableEq κ] (W : World κ) (ks : List κ) (conns : ℕ × Option ℕ → Bool) : List (ConstRxn 1) := constantReactions W.n (fun k _ => W.momentIds ks k) conns

theorem worldConsts_within {κ : Type} [DecidableEq κ] (W : World κ) {ks : List κ} (hnd : ks.Nodup) (conns : ℕ × Option ℕ → Bool) : ∀ r ∈ worldConsts W ks conns, r.Within (W.dofs ks) :=
  constantReactions_within (Pairs.n_le_dofs (W := W) ks) _ (fun _ _ _ e => Pairs.ids_lt hnd e) conns

/-- **C79** Zirconium as a part of a larger network: no reaction, constant or not, reads or writes outside the degrees of freedom, whatever entries the larger network marks and whatever rates it delivers. -/
theorem zr_constant_inside (W : World ZK) (hpos : ∀ k < W.n, 0 < (W.cl k).reg.b ∧ (W.cl k).reg.b < (W.cl k).reg.e) (R : Pairs.Rates K) (mob : ℕ → Bool) (conns : ℕ × Option ℕ → Bool) (N : Joined 1 K)
    (hN : N.net.rxns = zrRxns W (W.momentIds zrKinds) R mob) (hc : N.consts = worldConsts W zrKinds conns) : N.Inside (W.dofs zrKinds) :=
  joined_inside (by rw [hN]; exact zr_within W hpos R mob) (by rw [hc]; exact worldConsts_within W zrKinds_all.1 conns)

/-- **C79** Alloys as a part of a larger network. -/
theorem alloy_constant_inside (W : World AK) (h : AlloyReady W (W.momentIds alloyKinds)) (R : Pairs.Rates K) (mob : ℕ → Bool) (conns : ℕ × Option ℕ → Bool) (N : Joined 1 K)
    (hN : N.net.rxns = alloyRxns W (W.momentIds alloyKinds) R mob) (hc : N.consts = worldConsts W alloyKinds conns) : N.Inside (W.dofs alloyKinds) :=
  joined_inside (by rw [hN]; exact alloy_within W h R mob) (by rw [hc]; exact worldConsts_within W alloyKinds_all.1 conns)

/-- **C90** Zirconium as a part of a larger network: the matrix is the Jacobian, for all rates and all constant rates, also when both change after the set up. -/
theorem zr_constant_jacobian (W : World ZK) (hpos : ∀ k < W.n, 0 < (W.cl k).reg.b ∧ (W.cl k).reg.b < (W.cl k).reg.e) (R₀ R : Pairs.Rates ℝ) (mob : ℕ → Bool) (conns : ℕ × Option ℕ → Bool) (N₀ N : Joined 1 ℝ)
    (h₀ : N₀.net.rxns = zrRxns W (W.momentIds zrKinds) R₀ mob) (hc₀ : N₀.consts = worldConsts W zrKinds conns) (hN : N.net.rxns = zrRxns W (W.momentIds zrKinds) R mob) (hc : N.consts = worldConsts W zrKinds conns)
    (B : Build (W.dofs zrKinds) N₀.requests) (c : ℕ → ℝ) (depth spacing : ℝ) :
    Delivers B (fun c => N.fluxThreads c depth spacing) (N.partialThreads c depth spacing) c fun _ => True :=
  (constant_matrix_jacobian N₀ N (zr_constant_inside W hpos R₀ mob conns N₀ h₀ hc₀) (by rw [hN, h₀]; exact world_rates W _ _ R R₀ _ _) (hc.trans hc₀.symm) B c (world_smooth W _ _ R _ _ N.net hN c).1 depth spacing).weaken
    fun n _ => (world_smooth W _ _ R _ _ N.net hN c).2 n

/-- **C90** Alloys as a part of a larger network. -/
theorem alloy_constant_jacobian (W : World AK) (h : AlloyReady W (W.momentIds alloyKinds)) (R₀ R : Pairs.Rates ℝ) (mob : ℕ → Bool) (conns : ℕ × Option ℕ → Bool) (N₀ N : Joined 1 ℝ)
    (h₀ : N₀.net.rxns = alloyRxns W (W.momentIds alloyKinds) R₀ mob) (hc₀ : N₀.consts = worldConsts W alloyKinds conns) (hN : N.net.rxns = alloyRxns W (W.momentIds alloyKinds) R mob)
    (hc : N.consts = worldConsts W alloyKinds conns) (B : Build (W.dofs alloyKinds) N₀.requests) (c : ℕ → ℝ) (depth spacing : ℝ) :
    Delivers B (fun c => N.fluxThreads c depth spacing) (N.partialThreads c depth spacing) c fun _ => True :=
  (constant_matrix_jacobian N₀ N (alloy_constant_inside W h R₀ mob conns N₀ h₀ hc₀) (by rw [hN, h₀]; exact world_rates W _ _ R R₀ _ _) (hc.trans hc₀.symm) B c (world_smooth W _ _ R _ _ N.net hN c).1 depth spacing).weaken
    fun n _ => (world_smooth W _ _ R _ _ N.net hN c).2 n

/-! ### Concrete cases -/

/-- The marks of the example: the group of vacancies gives to the interstitial, and a constant source of the single vacancy. -/
def markEx (p : ℕ × Option ℕ) : Bool := p = (2, some 4) ∨ p = (0, none)

/-- The constant reactions of `zrEx` for these marks. -/
example : (worldConsts zrEx zrKinds markEx).map (fun r => (r.r1, r.r2, r.mom1 0, r.mom2 0)) = [(0, none, none, none), (2, some 4, none, some 7)] := by decide +kernel

/-- What they ask for: the diagonal, and the column of the group and of its moment. -/
example : constRequests (worldConsts zrEx zrKinds markEx) = [[(some 0, some 0)], [(some 2, some 2), (some 2, some 4), (some 2, some 7)]] := by decide +kernel

/-- What they do with the rates 3, 5 and 7. -/
example : (worldConsts zrEx zrKinds markEx).map (fun r => (r.computeFlux (fun p => if p.2 = none then 3 else if p.2 = some 4 then 5 else (7 : ℚ)) (fun n => n + 1),
      r.computePartials (fun p => if p.2 = none then 3 else if p.2 = some 4 then 5 else (7 : ℚ)))) =
    [([(0, 3)], []), ([(2, 25), (2, 56)], [((2, 4), 5), ((2, 7), 7)])] := by decide +kernel

/-- Complete executions exist for zirconium with the groups of `zrEx` and these constant reactions, and the theorem applies. -/
example (R₀ R : Pairs.Rates ℝ) (q q' : ℕ × Option ℕ → ℝ) (c : ℕ → ℝ) (depth spacing : ℝ) (t : TmData ℝ) :
    ∃ B : Build (zrEx.dofs zrKinds) (⟨⟨zrRxns zrEx (zrEx.momentIds zrKinds) R₀ fun _ => true, false, t⟩, worldConsts zrEx zrKinds markEx, q⟩ : Joined 1 ℝ).requests,
      Delivers B (fun c => (⟨⟨zrRxns zrEx (zrEx.momentIds zrKinds) R fun _ => true, false, t⟩, worldConsts zrEx zrKinds markEx, q'⟩ : Joined 1 ℝ).fluxThreads c depth spacing)
        ((⟨⟨zrRxns zrEx (zrEx.momentIds zrKinds) R fun _ => true, false, t⟩, worldConsts zrEx zrKinds markEx, q'⟩ : Joined 1 ℝ).partialThreads c depth spacing) c fun _ => True := by
  obtain ⟨B⟩ := build_exists _ _ (Joined.rows (zr_constant_inside zrEx zrEx_ready.pos R₀ (fun _ => true) markEx ⟨⟨zrRxns zrEx (zrEx.momentIds zrKinds) R₀ fun _ => true, false, t⟩, worldConsts zrEx zrKinds markEx, q⟩ rfl rfl))
  exact ⟨B, zr_constant_jacobian zrEx zrEx_ready.pos R₀ R (fun _ => true) markEx _ _ rfl rfl rfl rfl B c depth spacing⟩

end

end Pattern

end Xolotl.Network
