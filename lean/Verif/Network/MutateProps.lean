import Verif.Network.DofIdsProps
import Verif.Network.Mutate

/-!
# C75, C79 with modified trap mutation
-/

set_option linter.unusedSectionVars false

namespace Xolotl.Network.Dispatch

open Xolotl.Network Xolotl.Network.Products Xolotl.Network.Reflect

variable {σ : Type} [DecidableEq σ] {sp : List σ} {K : Type*} [Field K] [LinearOrder K] [IsStrictOrderedRing K]

/-- The cluster is exactly He_n. -/
def IsHe (he : σ) (sp : List σ) (c : Clu σ) (n : ℤ) : Prop := simplex sp c ∧ (∀ l ∈ sp, (c.g l).b = if l = he then n else 0) ∧ c.v.b = 0 ∧ c.i.b = 0
/-- The cluster is exactly He_nV_s. -/
def IsHeV (he : σ) (sp : List σ) (c : Clu σ) (n s : ℤ) : Prop := simplex sp c ∧ (∀ l ∈ sp, (c.g l).b = if l = he then n else 0) ∧ c.v.b = s ∧ c.i.b = 0

theorem psiModified_mem {he : σ} (hhe : he ∈ sp) (vs : ℤ → List ℤ) (N : Net σ sp) (m1 m2 : Bool) (c1 c2 : Clu σ) (q : Option ℕ) :
    q ∈ psiModified he vs N m1 m2 c1 c2 ↔ (m1 = true ∨ m2 = true) ∧ ∃ n s, 1 ≤ n ∧ n ≤ 7 ∧ s ∈ vs n ∧ IsHe he sp c1 n ∧ IsHeV he sp c2 n s ∧ q = N.find (fun _ => 0) 0 s := by
  unfold psiModified
  split
  · rename_i h
    simp [h]
  rename_i hm
  have hm' := mobile_of hm
  split
  · rename_i h
    simp only [List.not_mem_nil, false_iff]
    rintro ⟨_, n, s, h1, -, -, ⟨-, a, -⟩, ⟨-, b, -⟩, -⟩
    have a := a he hhe
    have b := b he hhe
    rw [if_pos rfl] at a b
    rcases h with ⟨h, _⟩ | ⟨h, _⟩ | ⟨_, h⟩
    · have := h.2.2 he hhe; omega
    · have := h.2.2 he hhe; omega
    · have := h.2.2 he hhe; omega
  split
  · rename_i h
    obtain ⟨s1, s2, n1, n7⟩ := h
    simp only [List.mem_map, List.mem_filter, decide_eq_true_eq]
    constructor
    · rintro ⟨s, ⟨hs, g1, e2, ev, ei, el⟩, rfl⟩
      refine ⟨hm', _, s, n1, n7, hs, ⟨s1, fun l hl => ?_, g1.2.1, g1.2.2.1⟩, ⟨s2, fun l hl => ?_, ev, ei⟩, rfl⟩
      · split_ifs with e
        · rw [e]
        · exact g1.2.2.2 l hl e
      · split_ifs with e
        · rw [e, e2]
        · exact el l hl e
    · rintro ⟨_, n, s, h1, h7, hs, ⟨_, a, av, ai⟩, ⟨_, b, bv, bi⟩, rfl⟩
      have a0 := a he hhe
      have b0 := b he hhe
      rw [if_pos rfl] at a0 b0
      refine ⟨s, ⟨by rw [a0]; exact hs, ⟨by omega, av, ai, fun l hl e => ?_⟩, by rw [a0, b0], bv, bi, fun l hl e => ?_⟩, rfl⟩
      · have := a l hl
        rwa [if_neg e] at this
      · have := b l hl
        rwa [if_neg e] at this
  · rename_i h
    simp only [List.not_mem_nil, false_iff]
    rintro ⟨_, n, s, h1, h7, -, ⟨s1, a, -⟩, ⟨s2, -⟩, -⟩
    have a := a he hhe
    rw [if_pos rfl] at a
    exact h ⟨s1, s2, by omega, by omega⟩

/-- **C75** The modified trap mutations of the network: one set of clusters for every He_n that comes before a He_nV_s with a size `s` of the table for `n` helium atoms, one of them mobile; the third cluster is
the one the look-up of I_s gives, which may be none. -/
theorem mutations_mem {he : σ} (hhe : he ∈ sp) (vs : ℤ → List ℤ) (N : Net σ sp) (mob : ℕ → Bool) (i j : ℕ) (q : Option ℕ) :
    (i, j, q) ∈ mutations he vs N mob ↔ i ≤ j ∧ j < N.n ∧ (mob i = true ∨ mob j = true) ∧
      ∃ n s, 1 ≤ n ∧ n ≤ 7 ∧ s ∈ vs n ∧ IsHe he sp (N.cl i) n ∧ IsHeV he sp (N.cl j) n s ∧ q = N.find (fun _ => 0) 0 s := by
  simp only [mutations, List.mem_flatMap, List.mem_range, List.mem_filter, decide_eq_true_eq, List.mem_map, Prod.mk.injEq]
  constructor
  · rintro ⟨i', hi, j', ⟨hj, hij⟩, q', hq, rfl, rfl, rfl⟩
    exact ⟨hij, hj, (psiModified_mem hhe ..).mp hq⟩
  · rintro ⟨hij, hj, h⟩
    exact ⟨i, by omega, j, ⟨hj, hij⟩, q, (psiModified_mem hhe ..).mpr h, rfl, rfl, rfl⟩

theorem nodup_le_one {α : Type*} : ∀ l : List α, l.length ≤ 1 → l.Nodup
  | [], _ => List.nodup_nil
  | [a], _ => List.nodup_singleton a
  | _ :: _ :: _, h => by simp at h

/-- **C75** No reaction is added twice (the tables name no size twice, `tmSizes_nodup`). -/
theorem mutations_nodup {he : σ} {vs : ℤ → List ℤ} (hvs : ∀ n, (vs n).Nodup) (N : Net σ sp) (mob : ℕ → Bool) : (mutations he vs N mob).Nodup := by
  have one : ∀ m1 m2 c1 c2, (psiModified he vs N m1 m2 c1 c2).length ≤ 1 := by
    intro m1 m2 c1 c2
    unfold psiModified
    split_ifs
    · simp
    · simp
    · rw [List.length_map, ← List.countP_eq_length_filter]
      refine le_trans (List.countP_mono_left (q := fun s => s == c2.v.b) fun s _ h => ?_) (List.nodup_iff_count_le_one.mp (hvs _) c2.v.b)
      rw [decide_eq_true_eq] at h
      simp [h.2.2.1]
    · simp
  refine List.nodup_flatMap.mpr ⟨fun i _ => List.nodup_flatMap.mpr ⟨fun j _ => nodup_le_one _ (by rw [List.length_map]; exact one ..), ?_⟩, ?_⟩
  · refine (List.nodup_range.filter _).imp fun {a b} hab => ?_
    rintro ⟨x, y, z⟩ h1 h2
    simp only [List.mem_map, Prod.mk.injEq] at h1 h2
    obtain ⟨_, _, _, e1, _⟩ := h1
    obtain ⟨_, _, _, e2, _⟩ := h2
    exact hab (e1.trans e2.symm)
  · refine List.nodup_range.imp fun {a b} hab => ?_
    rintro ⟨x, y, z⟩ h1 h2
    simp only [List.mem_flatMap, List.mem_map, Prod.mk.injEq] at h1 h2
    obtain ⟨_, _, _, _, e1, _⟩ := h1
    obtain ⟨_, _, _, _, e2, _⟩ := h2
    exact hab (e1.trans e2.symm)

theorem tmSizes_nodup (m : TmMaterial) (n : ℤ) : (tmSizes m n).Nodup := by
  unfold tmSizes
  split
  · refine List.Nodup.map (fun a b h => by simpa using h) ?_
    generalize (⟨n.toNat - 1, _⟩ : Fin 7) = l
    revert l
    cases m <;> decide
  · exact List.nodup_nil

theorem mapM_some {α β : Type*} (f : α → Option β) : ∀ l : List α, (∃ r, l.mapM f = some r) ↔ ∀ a ∈ l, (f a).isSome
  | [] => by simp
  | a :: l => by
    rw [List.mapM_cons, List.forall_mem_cons, ← mapM_some f l]
    cases f a with
    | none => simp
    | some b =>
      cases h : l.mapM f with
      | none => simp
      | some r => simp

theorem mapM_mem {α β : Type*} {f : α → Option β} : ∀ {l : List α} {r : List β}, l.mapM f = some r → ∀ b ∈ r, ∃ a ∈ l, f a = some b
  | [], r, h, b, hb => by simp at h; subst h; simp at hb
  | a :: l, r, h, b, hb => by
    rw [List.mapM_cons] at h
    simp only [Option.bind_eq_bind, Option.pure_def, Option.bind_eq_some_iff, Option.some.injEq] at h
    obtain ⟨b', hb', r', hr', rfl⟩ := h
    rcases List.mem_cons.mp hb with rfl | hb
    · exact ⟨a, List.mem_cons_self, hb'⟩
    · obtain ⟨a', h1, h2⟩ := mapM_mem hr' b hb
      exact ⟨a', List.mem_cons_of_mem _ h1, h2⟩

theorem mapM_length {α β : Type*} {f : α → Option β} : ∀ {l : List α} {r : List β}, l.mapM f = some r → r.length = l.length
  | [], r, h => by simp at h; subst h; rfl
  | a :: l, r, h => by
    rw [List.mapM_cons] at h
    simp only [Option.bind_eq_bind, Option.pure_def, Option.bind_eq_some_iff, Option.some.injEq] at h
    obtain ⟨b', hb', r', hr', rfl⟩ := h
    rw [List.length_cons, List.length_cons, mapM_length hr']

/-- **C75** No reaction holds an invalid cluster exactly if I_s is in the network whenever a He_n comes before a He_nV_s with `s` of the table. -/
theorem mut_defined_iff {he : σ} (hhe : he ∈ sp) (vs : ℤ → List ℤ) (N : Net σ sp) (mom : ℕ → Fin (sp.length + 1) → Option ℕ) (R : Rates K) (rate : ℕ → ℕ → ℕ → K) (mob : ℕ → Bool) :
    (∃ r, psiAll he vs N mom R rate mob = some r) ↔ ∀ i j n s, i ≤ j → j < N.n → (mob i = true ∨ mob j = true) → 1 ≤ n → n ≤ 7 → s ∈ vs n → IsHe he sp (N.cl i) n → IsHeV he sp (N.cl j) n s →
      ∃ k < N.n, (N.cl k).Mem sp (fun _ => 0) 0 s := by
  have e1 : (∃ r, psiAll he vs N mom R rate mob = some r) ↔ ∃ r, mutRxns (K := K) he vs N rate mob = some r := by
    simp [psiAll]
  rw [e1, mutRxns, mapM_some]
  have e2 : ∀ s : ℤ, (N.find (fun _ => 0) 0 s).isSome ↔ ∃ k < N.n, (N.cl k).Mem sp (fun _ => 0) 0 s := fun s => by
    rw [Option.isSome_iff_exists]
    exact exists_congr fun k => N.find_some
  constructor
  · intro h i j n s hij hj hm h1 h7 hs a b
    have := h _ ((mutations_mem hhe vs N mob i j _).mpr ⟨hij, hj, hm, n, s, h1, h7, hs, a, b, rfl⟩)
    rw [mkMut, Option.isSome_map] at this
    exact (e2 s).mp this
  · rintro h ⟨i, j, q⟩ hu
    obtain ⟨hij, hj, hm, n, s, h1, h7, hs, a, b, rfl⟩ := (mutations_mem hhe vs N mob i j q).mp hu
    rw [mkMut, Option.isSome_map]
    exact (e2 s).mpr (h i j n s hij hj hm h1 h7 hs a b)

theorem tmSizes_mem (m : TmMaterial) (n s : ℤ) (h : s ∈ tmSizes m n) : 1 ≤ s ∧ s ≤ (if m = .w211 then 3 else 2) := by
  unfold tmSizes at h
  split at h
  · rename_i hn
    obtain ⟨k, hk, rfl⟩ := List.mem_map.mp h
    have : ∀ m : TmMaterial, ∀ l, ∀ k : ℕ, k ∈ m.allVSizes l → 1 ≤ k ∧ k ≤ (if m = .w211 then 3 else 2) := by
      intro m l k h; revert l; intro l; fin_cases l <;> cases m <;> simp_all [TmMaterial.allVSizes] <;> omega
    have := this m _ k hk
    constructor
    · omega
    · have := this.2
      split_ifs at this ⊢ <;> omega
  · simp at h

/-- **C75** With the tables of the surfaces it is enough that I_1 and I_2 (for W211 also I_3) are in the network. -/
theorem mut_enough {he : σ} (hhe : he ∈ sp) (m : TmMaterial) (N : Net σ sp) (mom : ℕ → Fin (sp.length + 1) → Option ℕ) (R : Rates K) (rate : ℕ → ℕ → ℕ → K) (mob : ℕ → Bool)
    (hI : ∀ s : ℤ, 1 ≤ s → s ≤ (if m = .w211 then 3 else 2) → ∃ k < N.n, (N.cl k).Mem sp (fun _ => 0) 0 s) : ∃ r, psiAll he (tmSizes m) N mom R rate mob = some r :=
  (mut_defined_iff hhe _ N mom R rate mob).mpr fun _ _ n s _ _ _ _ _ hs _ _ => hI s (tmSizes_mem m n s hs).1 (tmSizes_mem m n s hs).2

/-- The reactions: the clusters they hold are He_n, He_nV_s and I_s, and they read the tables at the place of `n` with the size `s`. -/
theorem mutRxns_mem {he : σ} (hhe : he ∈ sp) {vs : ℤ → List ℤ} (hvs : ∀ n, ∀ s ∈ vs n, 0 ≤ s) {N : Net σ sp} {rate : ℕ → ℕ → ℕ → K} {mob : ℕ → Bool} {l : List (Rxn (sp.length + 1) K)} (hl : mutRxns he vs N rate mob = some l)
    {r : Rxn (sp.length + 1) K} (hr : r ∈ l) :
    ∃ t : TmRxn K, r = .tm t ∧ ∃ n s : ℤ, s ∈ vs n ∧ t.he < N.n ∧ t.heV < N.n ∧ t.i < N.n ∧ IsHe he sp (N.cl t.he) n ∧ IsHeV he sp (N.cl t.heV) n s ∧ (N.cl t.i).Mem sp (fun _ => 0) 0 s ∧
      (t.heIdx.val : ℤ) + 1 = n ∧ (t.vSize : ℤ) = s ∧ t.rate = rate t.he t.heV t.i := by
  obtain ⟨⟨i, j, q⟩, hu, e⟩ := mapM_mem hl r hr
  obtain ⟨hij, hj, hm, n, s, h1, h7, hs, a, b, hq⟩ := (mutations_mem hhe vs N mob i j q).mp hu
  simp only [mkMut, Option.map_eq_some_iff] at e
  obtain ⟨k, rfl, rfl⟩ := e
  obtain ⟨hk, hmem⟩ := N.find_some.mp hq.symm
  refine ⟨_, rfl, n, s, hs, lt_of_le_of_lt hij hj, hj, hk, a, b, hmem, ?_, ?_, rfl⟩
  · have := b.2.1 he hhe
    rw [if_pos rfl] at this
    simp only [mkTm, this, Fin.ofNat]
    omega
  · have := hvs n s hs
    simp only [mkTm, b.2.2.1]
    omega

theorem isSingle_box {N : Net σ sp} {mom : ℕ → Fin (sp.length + 1) → Option ℕ} (h : Ready N mom) {k : ℕ} (hk : k < N.n) (hs : simplex sp (N.cl k)) :
    TmRxn.IsSingle (box N mom k) fun j => (refl sp false (N.cl k) j).b := by
  refine ⟨h.momNone hk hs, fun i => ?_⟩
  have e := refl_simplex false hs i
  show refl sp false (N.cl k) i = _
  rw [← e]

/-- One modified trap mutation changes no content. -/
theorem mut_conserves {he : σ} {N : Net σ sp} {mom : ℕ → Fin (sp.length + 1) → Option ℕ} (h : Ready N mom) (t : TmRxn K) (d : TmData K) {n s : ℤ} (hs : 0 < s) (t1 : t.he < N.n) (t2 : t.heV < N.n) (t3 : t.i < N.n)
    (a : IsHe he sp (N.cl t.he) n) (b : IsHeV he sp (N.cl t.heV) n s) (e : (N.cl t.i).Mem sp (fun _ => 0) 0 s) (k : Fin (sp.length + 1)) (c : ℕ → K) :
    wsum (weight (boxes N mom) k) (t.computeFlux d c) = 0 := by
  rw [← totalContent_netOf _ h.wf]
  have hlay := h.lay t.i t3
  have hbi := mem_pts.mp e.2.2
  have hbv := mem_pts.mp e.2.1
  have hi1 := h.isingle t3
  have hi : (N.cl t.i).i.b = s := by omega
  obtain ⟨hon, hv, -⟩ := onI_of hlay (by omega)
  have hsi := h.singleI _ t3 hon
  refine TmRxn.trapMutation_conserves t d _ h.wf h.dofInj (mem_boxes.mpr ⟨_, t1, rfl⟩) (mem_boxes.mpr ⟨_, t2, rfl⟩) (mem_boxes.mpr ⟨_, t3, rfl⟩) _ _ _
    (isSingle_box h t1 a.1) (isSingle_box h t2 b.1) (isSingle_box h t3 hsi) ?_ rfl rfl rfl k c
  funext j
  refine Fin.lastCases ?_ (fun j => ?_) j
  · have := h.isingle t1
    have := h.isingle t2
    simp only [Pi.add_apply, refl_last, one_V, Bool.false_eq_true, if_false, a.2.2.1, a.2.2.2, b.2.2.1, b.2.2.2] at *
    have := hon.2.1
    omega
  · simp only [Pi.add_apply, refl_cast, a.2.1 _ (List.get_mem _ _), b.2.1 _ (List.get_mem _ _), hon.2.2 _ (List.get_mem _ _), add_zero]

/-- **C75** Tungsten with modified trap mutation: whatever the rates, the concentrations, the depth and the order of the updates, no gas content changes and the vacancies less interstitials change by what the sinks take
(groups along one axis at most; interstitial clusters of sizes 1 to `m`). -/
theorem psi_all_network_partial (hsp : sp.Nodup) (he : σ) (hhe : he ∈ sp) (vs : ℤ → List ℤ) (hvs : ∀ n, ∀ s ∈ vs n, 0 < s) (N : Net σ sp) {mom : ℕ → Fin (sp.length + 1) → Option ℕ} (h : Ready N mom)
    {i0 : Fin (sp.length + 1)} (hO : OneAxis N i0) (m : ℕ) (hI : ∀ n : ℕ, 1 ≤ n → ((N.find (fun _ => 0) 0 n).isSome ↔ n ≤ m)) (R : Rates K) (rate : ℕ → ℕ → ℕ → K) (mob : ℕ → Bool)
    (M : Network (sp.length + 1) K) (hM : psiAll he vs N mom R rate mob = some M.rxns) (c : ℕ → K) (depth spacing : K) {l : List (ℕ × K)} (hl : Interleaves (M.fluxThreads c depth spacing) l) :
    (∀ g : Fin sp.length, totalContent (boxes N mom) g.castSucc (netOf l) = 0) ∧
    totalContent (boxes N mom) (Fin.last _) (netOf l) = -∑ k ∈ Finset.range N.n,
      if mob k = true ∧ (onI sp (N.cl k) ∨ (onV sp (N.cl k) ∧ (N.cl k).v.b = 1 ∧ simplex sp (N.cl k))) then (((N.cl k).v.b : K) - (N.cl k).i.b) * (R.sink k * c k) else 0 := by
  simp only [psiAll, Option.map_eq_some_iff] at hM
  obtain ⟨tms, htms, hrx⟩ := hM
  set d := M.preProcess c depth spacing with hd
  let M' : Network (sp.length + 1) K := ⟨psiRxns he N mom R mob, false, d⟩
  have key := psi_network_partial hsp he hhe N h hO m hI R mob M' rfl c depth spacing (Interleaves.sequential _)
  have tm0 : ∀ k, ((tms.map (Rxn.flux d c)).map (wsum (weight (boxes N mom) k))).sum = 0 := by
    intro k
    rw [List.map_map]
    refine sum_map_zero _ _ fun r hr => ?_
    obtain ⟨t, rfl, n, s, hs, t1, t2, t3, a, b, e, -⟩ := mutRxns_mem hhe (fun n s h => (hvs n s h).le) htms hr
    exact mut_conserves h t d (hvs n s hs) t1 t2 t3 a b e k c
  have eq : ∀ k, totalContent (boxes N mom) k (netOf l) = totalContent (boxes N mom) k (netOf (M'.fluxThreads c depth spacing).flatten) := by
    intro k
    rw [totalContent_netOf _ h.wf, totalContent_netOf _ h.wf]
    have hperm : wsum (weight (boxes N mom) k) l = wsum (weight (boxes N mom) k) (M.fluxThreads c depth spacing).flatten := (hl.perm.map _).sum_eq
    rw [hperm, wsum_flatten, wsum_flatten, Network.fluxThreads, ← hrx, ← hd, List.map_append, List.map_append, List.sum_append, tm0 k, add_zero]
    rfl
  exact ⟨fun g => (eq _).trans (key.1 g), (eq _).trans key.2⟩

/-- **C79** Tungsten with modified trap mutation: when no reaction holds an invalid cluster, none reads or writes outside the degrees of freedom. -/
theorem psi_all_inside (hsp : sp.Nodup) (he : σ) (hhe : he ∈ sp) (vs : ℤ → List ℤ) (hvs : ∀ n, ∀ s ∈ vs n, 0 ≤ s) (N : Net σ sp) (h : Laid N) (R : Rates K) (rate : ℕ → ℕ → ℕ → K) (mob : ℕ → Bool)
    (M : Network (sp.length + 1) K) (hM : psiAll he vs N (N.momentIds true) R rate mob = some M.rxns) : M.Inside (N.dofs true) := by
  simp only [psiAll, Option.map_eq_some_iff] at hM
  obtain ⟨tms, htms, hrx⟩ := hM
  refine inside_of fun r hr => ?_
  rw [← hrx, List.mem_append] at hr
  rcases hr with hr | hr
  · exact psi_within hsp he N h R mob r hr
  · obtain ⟨t, rfl, n, s, hs, t1, t2, t3, -⟩ := mutRxns_mem hhe hvs htms hr
    have := n_le_dofs (N := N) true
    exact ⟨by omega, by omega, by omega⟩

/-! ### Concrete cases -/

def muRates : Rates ℚ := grRates

/-- The surface W111 at 933 K: He_1 mutates 0.6 nm below the surface; it is also the cluster that desorbs. -/
def muData : TmData ℚ := ⟨some 0, 61 / 100, 0, 1, (TmMaterial.w111.updateData (933 : ℚ)).1, (TmMaterial.w111.updateData (933 : ℚ)).2.1, fun _ => false⟩

/-- The network of `grNet` with the surface W111: He_1 (0) becomes He_1V_1 (5) and I_1 (3). -/
example : mutations () (tmSizes .w111) grNet (fun _ => true) = [(0, 5, some 3)] ∧ mutations () (tmSizes .w111) grNet (fun k => decide (k = 3)) = [] ∧ mutations () (tmSizes .w100) grNet (fun _ => true) = [] := by
  decide +kernel

def muRxns : List (Rxn 2 ℚ) := psiRxns () grNet grMom muRates (fun _ => true) ++ [.tm (mkTm () grNet (fun _ _ _ => 39 / 61) 0 5 3)]

def muM : Network 2 ℚ := ⟨muRxns, true, muData⟩

theorem muM_all : psiAll () (tmSizes .w111) grNet grMom muRates (fun _ _ _ => 39 / 61) (fun _ => true) = some muM.rxns := by
  have h : mutRxns (K := ℚ) () (tmSizes .w111) grNet (fun _ _ _ => 39 / 61) (fun _ => true) = some [.tm (mkTm () grNet (fun _ _ _ => 39 / 61) 0 5 3)] := by
    rw [mutRxns, show mutations () (tmSizes .w111) grNet (fun _ => true) = [(0, 5, some 3)] by decide +kernel]
    rfl
  rw [psiAll, h]
  rfl

/-- At the depth of the table the mutation takes part and moves concentrations; helium is conserved in any schedule of the updates. -/
example : (Rxn.flux (muM.preProcess grC (6 / 10) (1 / 10)) grC (.tm (mkTm () grNet (fun _ _ _ => 39 / 61) 0 5 3) : Rxn 2 ℚ)).length = 3 ∧
    (Rxn.flux (muM.preProcess grC 3 (1 / 10)) grC (.tm (mkTm () grNet (fun _ _ _ => 39 / 61) 0 5 3) : Rxn 2 ℚ)).length = 0 := by
  decide +kernel

theorem gr_interstitials : ∀ n : ℕ, 1 ≤ n → ((grNet.find (fun _ => 0) 0 n).isSome ↔ n ≤ 2) := by
  intro n hn
  rw [Option.isSome_iff_exists]
  constructor
  · rintro ⟨k, hk⟩
    obtain ⟨hk, -, -, hi⟩ := grNet.find_some.mp hk
    have hk : k < 7 := hk
    have := mem_pts.mp hi
    interval_cases k <;> simp [grNet, grCl, cl1] at this <;> omega
  · intro h
    rcases (show n = 1 ∨ n = 2 by omega) with rfl | rfl
    · exact ⟨3, by decide +kernel⟩
    · exact ⟨4, by decide +kernel⟩

example {l : List (ℕ × ℚ)} (hl : Interleaves (muM.fluxThreads grC (6 / 10) (1 / 10)) l) : totalContent (boxes grNet grMom) 0 (netOf l) = 0 :=
  (psi_all_network_partial (by simp) () (by simp) (tmSizes .w111) (fun n s h => (tmSizes_mem .w111 n s h).1) grNet grNet_ready grNet_oneAxis 2 gr_interstitials muRates _ _ muM muM_all grC _ _ hl).1 0

/-- He_1V_1 (0), He_1 (1), I_1 (2): the same clusters as He_1, He_1V_1, I_1, numbered otherwise. -/
def orderNet (p : Bool) : Net Unit [()] where
  n := 3
  cl := fun k => if k = 2 then cl1 (0, 1) (0, 1) (1, 2) else if (k = 0) = (p = true) then cl1 (1, 2) (1, 2) (0, 1) else cl1 (1, 2) (0, 1) (0, 1)
  nonneg := by cases p <;> decide
  disj := by
    intro k hk k' hk' x v i h h'
    have e1 := h.1 () (by simp)
    have e2 := h'.1 () (by simp)
    have e3 := h.2.1
    have e4 := h'.2.1
    have e5 := h.2.2
    have e6 := h'.2.2
    simp only [mem_pts] at e1 e2 e3 e4 e5 e6
    cases p <;> interval_cases k <;> interval_cases k' <;> first | rfl | (simp [cl1] at e1 e2 e3 e4 e5 e6; omega)

/-- **C75 (negation)** Whether a helium cluster mutates depends on the numbering of the clusters: with He_1V_1 before He_1 there is no reaction, since the rule names the first cluster of a pair and only pairs in the order
of the ids are visited. -/
theorem mut_order : mutations () (tmSizes .w111) (orderNet false) (fun _ => true) = [(0, 1, some 2)] ∧ mutations () (tmSizes .w111) (orderNet true) (fun _ => true) = [] := by
  decide +kernel

/-- He_7 (0), He_7V_2 (1), I_1 (2): the surfaces W100, W110 and W111 need I_2. -/
def lackNet : Net Unit [()] where
  n := 3
  cl := fun k => if k = 2 then cl1 (0, 1) (0, 1) (1, 2) else if k = 0 then cl1 (7, 8) (0, 1) (0, 1) else cl1 (7, 8) (2, 3) (0, 1)
  nonneg := by decide
  disj := by
    intro k hk k' hk' x v i h h'
    have e1 := h.1 () (by simp)
    have e2 := h'.1 () (by simp)
    have e3 := h.2.1
    have e4 := h'.2.1
    have e5 := h.2.2
    have e6 := h'.2.2
    simp only [mem_pts] at e1 e2 e3 e4 e5 e6
    interval_cases k <;> interval_cases k' <;> first | rfl | (simp [cl1] at e1 e2 e3 e4 e5 e6; omega)

/-- **C79 (negation)** With interstitials of size 1 only, every surface gets a reaction with an invalid cluster. -/
theorem mut_invalid (m : TmMaterial) (mom : ℕ → Fin 2 → Option ℕ) (R : Rates ℚ) (rate : ℕ → ℕ → ℕ → ℚ) : (0, 1, none) ∈ mutations () (tmSizes m) lackNet (fun _ => true) ∧
    psiAll () (tmSizes m) lackNet mom R rate (fun _ => true) = none := by
  have h : (0, 1, none) ∈ mutations () (tmSizes m) lackNet (fun _ => true) := by cases m <;> decide +kernel
  refine ⟨h, ?_⟩
  rw [psiAll, Option.map_eq_none_iff]
  by_contra hne
  obtain ⟨r, hr⟩ := Option.ne_none_iff_exists'.mp hne
  have := (mapM_some _ _).mp ⟨r, hr⟩ _ h
  simp [mkMut] at this

end Xolotl.Network.Dispatch
