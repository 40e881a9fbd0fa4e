import Verif.Network.Bursting
import Verif.Network.TotalsProps

/-!
# Properties of bursting
-/

set_option linter.unusedSectionVars false

namespace Xolotl.Network.Bursting

open Totals Finset

variable {d : ℕ} {K : Type*} [Field K] [LinearOrder K] [IsStrictOrderedRing K]

/-- A network: boxes of non-negative compositions, distinct degrees of freedom; every axis is a gas, the vacancy or the interstitial. -/
structure Ok (net : List (Cluster d)) (ax : Axes d) : Prop where
  wf : ∀ a ∈ net, a.WF
  nonneg : ∀ a ∈ net, ∀ k, 0 ≤ (a.reg k).b
  dof : (net.map (·.dof)).Nodup
  momDof : ∀ a ∈ net, ∀ b ∈ net, ∀ k, a.mom k ≠ some b.dof
  mom : ∀ a ∈ net, ∀ b ∈ net, ∀ k j m, a.mom k = some m → b.mom j = some m → a = b
  gas : ax.gas.Nodup
  notV : ax.v ∉ ax.gas
  notI : ax.i ∉ ax.gas
  vi : ax.v ≠ ax.i
  cover : ∀ k, k ∈ ax.gas ∨ k = ax.v ∨ k = ax.i

/-- The cluster has a composition with gas. -/
def HasGas (ax : Axes d) (a : Cluster d) : Prop := ∃ n ∈ a.pts, ∃ g ∈ ax.gas, n g ≠ 0

/-- The cluster has a composition of vacancies only (or the empty one). -/
def HasVac (ax : Axes d) (a : Cluster d) : Prop := ∃ n ∈ a.pts, ∀ k, k ≠ ax.v → n k = 0

/-! ## The parts -/

theorem find_spec {net : List (Cluster d)} {n : Fin d → ℤ} {b : Cluster d} (h : find net n = some b) : b ∈ net ∧ n ∈ b.pts := by
  refine ⟨List.mem_of_find?_eq_some h, ?_⟩
  have := List.find?_some h
  simp only [decide_eq_true_eq] at this
  exact Fintype.mem_piFinset.2 fun k => mem_pts.2 (this k)

theorem find_hasVac {net : List (Cluster d)} {ax : Axes d} {j : ℤ} {b : Cluster d} (h : find net (vComp ax.v j) = some b) : HasVac ax b :=
  ⟨_, (find_spec h).2, fun _ hk => if_neg hk⟩

theorem interval_sum (I : Ival) (f : ℤ → K) : ((interval I).map f).sum = ∑ j ∈ I.pts, f j := by
  have : ∀ (m : ℕ) (b : ℤ), (((List.range m).map fun (j : ℕ) => b + j).map f).sum = ∑ j ∈ Finset.Ico b (b + m), f j := by
    intro m b
    induction m with
    | zero => simp
    | succ m ih =>
      rw [List.range_succ, List.map_append, List.map_append, List.sum_append, ih]
      have e : Finset.Ico b (b + ((m + 1 : ℕ) : ℤ)) = insert (b + m) (Finset.Ico b (b + m)) := by
        ext x; simp only [mem_Ico, mem_insert]; omega
      rw [e, sum_insert (by simp)]
      simp [add_comm]
  unfold interval Ival.pts
  rw [this]
  by_cases h : I.b ≤ I.e
  · rw [Int.toNat_of_nonneg (by omega)]
    congr 2
    omega
  · have : (I.e - I.b).toNat = 0 := by omega
    rw [this, Finset.Ico_eq_empty (by simp), Finset.Ico_eq_empty (by omega)]

theorem transfer_other {net : List (Cluster d)} {ax : Axes d} {src : ℕ} {f : K} {l : List ℤ} {c c' : ℕ → K}
    (h : transfer net ax.v src f l c = some c') (x : ℕ) (hx : ∀ b ∈ net, HasVac ax b → b.dof ≠ x) : c' x = c x := by
  induction l generalizing c with
  | nil => simp only [transfer, Option.some.injEq] at h; rw [h]
  | cons j l ih =>
    unfold transfer at h
    cases e : find net (vComp ax.v j) with
    | none => rw [e] at h; cases h
    | some b =>
      rw [e] at h
      rw [ih h]
      exact if_neg fun hb => hx b (find_spec e).1 (find_hasVac e) hb.symm

/-- What a vacancy cluster receives: for every size listed that falls into it, the concentration divided by the number of vacancy sizes it holds. -/
theorem transfer_eq {net : List (Cluster d)} {ax : Axes d} {src : ℕ} {f : K} {l : List ℤ} {c c' : ℕ → K} (b : Cluster d)
    (hl : ∀ j ∈ l, find net (vComp ax.v j) = some b) (hb : b.dof ≠ src) (h : transfer net ax.v src f l c = some c') :
    c' b.dof = c b.dof + l.length * (c src * f / ((b.reg ax.v).len : K)) ∧ ∀ x, x ≠ b.dof → c' x = c x := by
  induction l generalizing c with
  | nil => simp only [transfer, Option.some.injEq] at h; rw [h]; simp
  | cons j l ih =>
    unfold transfer at h
    rw [hl j List.mem_cons_self] at h
    obtain ⟨h1, h2⟩ := ih (fun j hj => hl j (List.mem_cons_of_mem _ hj)) h
    refine ⟨?_, fun x hx => (h2 x hx).trans (if_neg hx)⟩
    rw [h1]
    have e1 : addAt c b.dof (c src * f / ((b.reg ax.v).len : K)) b.dof = c b.dof + c src * f / ((b.reg ax.v).len : K) := if_pos rfl
    have e2 : addAt c b.dof (c src * f / ((b.reg ax.v).len : K)) src = c src := if_neg (Ne.symm hb)
    rw [e1, e2, List.length_cons]
    push_cast
    ring

/-- **Groups over the same vacancies**: when the vacancy sizes of the burst group are those of one vacancy group, that group receives exactly the concentration a single size would, `c · f`,
and nothing else changes. -/
theorem transfer_group {net : List (Cluster d)} {ax : Axes d} {src : ℕ} {f : K} {c c' : ℕ → K} (b : Cluster d) (hpos : (b.reg ax.v).b < (b.reg ax.v).e)
    (hl : ∀ j ∈ interval (b.reg ax.v), find net (vComp ax.v j) = some b) (hb : b.dof ≠ src)
    (h : transfer net ax.v src f (interval (b.reg ax.v)) c = some c') : c' b.dof = c b.dof + c src * f ∧ ∀ x, x ≠ b.dof → c' x = c x := by
  obtain ⟨h1, h2⟩ := transfer_eq b hl hb h
  refine ⟨?_, h2⟩
  have hlen : ((interval (b.reg ax.v)).length : K) = ((b.reg ax.v).len : K) := by
    unfold interval Ival.len
    rw [List.length_map, List.length_range, ← Int.cast_natCast, Int.toNat_of_nonneg (by omega)]
  have h0 : ((b.reg ax.v).len : K) ≠ 0 := by
    unfold Ival.len
    exact_mod_cast (by omega : (b.reg ax.v).e - (b.reg ax.v).b ≠ 0)
  rw [h1, hlen, mul_div_cancel₀ _ h0]

theorem clearMoments_eq (a : Cluster d) (c : ℕ → K) (x : ℕ) : clearMoments a c x = if ∃ k, a.mom k = some x then 0 else c x := by
  have : ∀ (l : List (Fin d)) (c : ℕ → K), l.foldl (fun c k => clearMoment c (a.mom k)) c x = if ∃ k ∈ l, a.mom k = some x then 0 else c x := by
    intro l
    induction l with
    | nil => intro c; simp
    | cons k l ih =>
      intro c
      rw [List.foldl_cons, ih]
      by_cases hl : ∃ k ∈ l, a.mom k = some x
      · rw [if_pos hl, if_pos]
        obtain ⟨k', h1, h2⟩ := hl
        exact ⟨k', List.mem_cons_of_mem _ h1, h2⟩
      · rw [if_neg hl]
        cases hk : a.mom k with
        | none =>
          rw [show clearMoment c none x = c x from rfl, if_neg]
          rintro ⟨k', h1, h2⟩
          rcases List.mem_cons.1 h1 with rfl | h1
          · rw [hk] at h2; cases h2
          · exact hl ⟨k', h1, h2⟩
        | some m =>
          rw [show clearMoment c (some m) x = if x = m then 0 else c x from rfl]
          by_cases hm : x = m
          · rw [if_pos hm, if_pos ⟨k, List.mem_cons_self, by rw [hk, hm]⟩]
          · rw [if_neg hm, if_neg]
            rintro ⟨k', h1, h2⟩
            rcases List.mem_cons.1 h1 with rfl | h1
            · rw [hk] at h2; exact hm (Option.some.inj h2).symm
            · exact hl ⟨k', h1, h2⟩
  unfold clearMoments
  rw [this]
  simp

theorem addAt_fold {α : Type*} [DecidableEq α] (l : List α) (hl : l.Nodup) (y : α → K) (f : α → K) (g : α) :
    l.foldl (fun (b : α → K) g => addAt b g (y g)) f g = f g + if g ∈ l then y g else 0 := by
  induction l generalizing f with
  | nil => simp
  | cons x l ih =>
    rw [List.foldl_cons, ih (List.nodup_cons.1 hl).2]
    by_cases e : g = x
    · subst e
      have : g ∉ l := (List.nodup_cons.1 hl).1
      simp [addAt, this]
    · simp [addAt, e]

theorem releaseGroup_eq (a : Cluster d) (x factor : K) (burst : Fin d → K) (g : Fin d) :
    releaseGroup a x factor burst g = addAt burst g (∑ j ∈ (a.reg g).pts, x * (j : K) * Totals.factor a g * factor) := by
  unfold releaseGroup
  rw [← interval_sum]
  generalize interval (a.reg g) = l
  induction l generalizing burst with
  | nil => funext k; simp [addAt]; rintro rfl; rfl
  | cons j l ih =>
    rw [List.foldl_cons, ih, List.map_cons, List.sum_cons]
    funext k
    unfold addAt
    by_cases e : k = g
    · simp [e, add_assoc]
    · simp [e]

theorem group_amount (a : Cluster d) (ha : a.WF) (h0 : ∀ k, 0 ≤ (a.reg k).b) (k : Fin d) (x : K) :
    ∑ j ∈ (a.reg k).pts, x * (j : K) * Totals.factor a k = x * ∑ n ∈ a.pts, (n k : K) := by
  have h1 := sum_sizes (K := K) a k 0 ha.pos fun j => x * (j : K)
  have h2 : sizes a k 0 = (a.reg k).pts := by
    rw [sizes_eq]
    exact filter_true_of_mem fun j hj => by
      have := (mem_pts.1 hj).1
      have := h0 k
      simp only [Nat.cast_zero]; omega
  rw [h2, from_all a k 0 (by simpa using h0 k)] at h1
  rw [h1, mul_sum]

theorem simplex_pts {a : Cluster d} (h : isSimplex a) : a.pts = {origin a} := by
  ext n
  simp only [Cluster.pts, Fintype.mem_piFinset, mem_pts, mem_singleton]
  constructor
  · intro hn
    funext k
    have h1 := hn k
    have h2 := h k
    unfold origin
    omega
  · rintro rfl k
    have h2 := h k
    unfold origin
    omega

/-- **What is released when a cluster is treated**: its mean concentration times the gas atoms of its compositions. -/
theorem step_burst {net : List (Cluster d)} {ax : Axes d} (ok : Ok net ax) {factor : K} {a : Cluster d} (ha : a ∈ net) {s s' : State d K}
    (h : step net ax factor a s = some s') (g : Fin d) (hg : g ∈ ax.gas) :
    s'.burst g = s.burst g + s.c a.dof * (∑ n ∈ a.pts, (n g : K)) * factor := by
  unfold step at h
  by_cases hs : isSimplex a
  · rw [if_pos hs] at h
    rw [simplex_pts hs, sum_singleton]
    cases e : ax.gas.find? fun g => decide (onAxis (origin a) g) with
    | some g' =>
      rw [e] at h
      cases h
      dsimp only [addAt]
      have hon := List.find?_some e
      simp only [decide_eq_true_eq] at hon
      by_cases hgg : g = g'
      · rw [if_pos hgg, hgg]
      · rw [if_neg hgg, hon.2 g hgg]
        simp
    | none =>
      rw [e] at h
      dsimp only at h
      by_cases hm : ¬ onAxis (origin a) ax.v ∧ ¬ onAxis (origin a) ax.i
      · rw [if_pos hm] at h
        cases ht : transfer net ax.v a.dof 1 [origin a ax.v] s.c with
        | none => rw [ht] at h; cases h
        | some c =>
          rw [ht] at h
          cases h
          dsimp only
          rw [addAt_fold ax.gas ok.gas (fun g => s.c a.dof * (origin a g : K) * factor), if_pos hg]
      · rw [if_neg hm] at h
        cases h
        have : origin a g = 0 := by
          rcases not_and_or.1 hm with hv | hi
          · exact (not_not.1 hv).2 g fun e => ok.notV (e ▸ hg)
          · exact (not_not.1 hi).2 g fun e => ok.notI (e ▸ hg)
        rw [this]
        simp
  · rw [if_neg hs] at h
    cases ht : transfer net ax.v a.dof (Totals.factor a ax.v) (interval (a.reg ax.v)) s.c with
    | none => rw [ht] at h; cases h
    | some c =>
      rw [ht] at h
      cases h
      dsimp only
      have : (fun (b : Fin d → K) g => releaseGroup a (s.c a.dof) factor b g)
          = fun b g => addAt b g (∑ j ∈ (a.reg g).pts, s.c a.dof * (j : K) * Totals.factor a g * factor) := by
        funext b g
        exact releaseGroup_eq ..
      rw [show (releaseGroup a (s.c a.dof) factor) = (fun (b : Fin d → K) g => releaseGroup a (s.c a.dof) factor b g) from rfl, this,
        addAt_fold ax.gas ok.gas (fun g => ∑ j ∈ (a.reg g).pts, s.c a.dof * (j : K) * Totals.factor a g * factor), if_pos hg, ← sum_mul,
        group_amount a (ok.wf a ha) (ok.nonneg a ha)]

theorem step_other {net : List (Cluster d)} {ax : Axes d} {factor : K} {a : Cluster d} {s s' : State d K}
    (h : step net ax factor a s = some s') (x : ℕ) (hx : ∀ b ∈ net, HasVac ax b → b.dof ≠ x) (h1 : x ≠ a.dof) (h2 : ∀ k, a.mom k ≠ some x) :
    s'.c x = s.c x := by
  unfold step at h
  by_cases hs : isSimplex a
  · rw [if_pos hs] at h
    cases e : ax.gas.find? fun g => decide (onAxis (origin a) g) with
    | some g' =>
      rw [e] at h
      cases h
      exact if_neg h1
    | none =>
      rw [e] at h
      dsimp only at h
      by_cases hm : ¬ onAxis (origin a) ax.v ∧ ¬ onAxis (origin a) ax.i
      · rw [if_pos hm] at h
        cases ht : transfer net ax.v a.dof 1 [origin a ax.v] s.c with
        | none => rw [ht] at h; cases h
        | some c =>
          rw [ht] at h
          cases h
          exact (if_neg h1).trans (transfer_other ht x hx)
      · rw [if_neg hm] at h
        cases h
        rfl
  · rw [if_neg hs] at h
    cases ht : transfer net ax.v a.dof (Totals.factor a ax.v) (interval (a.reg ax.v)) s.c with
    | none => rw [ht] at h; cases h
    | some c =>
      rw [ht] at h
      cases h
      dsimp only
      rw [clearMoments_eq, if_neg (fun ⟨k, hk⟩ => h2 k hk)]
      exact (if_neg h1).trans (transfer_other ht x hx)

theorem hasGas_simplex {ax : Axes d} {a : Cluster d} (hs : isSimplex a) (hg : HasGas ax a) : ∃ g ∈ ax.gas, origin a g ≠ 0 := by
  obtain ⟨n, hn, g, h1, h2⟩ := hg
  rw [simplex_pts hs, mem_singleton] at hn
  exact ⟨g, h1, hn ▸ h2⟩

/-- A cluster with gas, and any group, is empty after it has been treated. -/
theorem step_clears {net : List (Cluster d)} {ax : Axes d} (ok : Ok net ax) {factor : K} {a : Cluster d} (ha : a ∈ net) {s s' : State d K}
    (h : step net ax factor a s = some s') (hg : HasGas ax a ∨ ¬ isSimplex a) : s'.c a.dof = 0 ∧ ∀ k m, a.mom k = some m → s'.c m = 0 := by
  unfold step at h
  by_cases hs : isSimplex a
  · have hmom : ∀ k m, a.mom k = some m → s'.c m = 0 := by
      intro k m hk
      rw [((ok.wf a ha).mom k).2 (hs k)] at hk
      cases hk
    refine ⟨?_, hmom⟩
    obtain ⟨g, hg1, hg2⟩ := hasGas_simplex hs (hg.resolve_right (fun h => h hs))
    rw [if_pos hs] at h
    cases e : ax.gas.find? fun g => decide (onAxis (origin a) g) with
    | some g' =>
      rw [e] at h
      cases h
      exact if_pos rfl
    | none =>
      rw [e] at h
      dsimp only at h
      have hm : ¬ onAxis (origin a) ax.v ∧ ¬ onAxis (origin a) ax.i :=
        ⟨fun hv => hg2 (hv.2 g fun e => ok.notV (e ▸ hg1)), fun hi => hg2 (hi.2 g fun e => ok.notI (e ▸ hg1))⟩
      rw [if_pos hm] at h
      cases ht : transfer net ax.v a.dof 1 [origin a ax.v] s.c with
      | none => rw [ht] at h; cases h
      | some c =>
        rw [ht] at h
        cases h
        exact if_pos rfl
  · rw [if_neg hs] at h
    cases ht : transfer net ax.v a.dof (Totals.factor a ax.v) (interval (a.reg ax.v)) s.c with
    | none => rw [ht] at h; cases h
    | some c =>
      rw [ht] at h
      cases h
      dsimp only
      constructor
      · rw [clearMoments_eq, if_neg (fun ⟨k, hk⟩ => ok.momDof a ha a ha k hk)]
        exact if_pos rfl
      · intro k m hk
        rw [clearMoments_eq, if_pos ⟨k, hk⟩]

/-! ## The whole loop -/

theorem dof_inj {net : List (Cluster d)} {ax : Axes d} (ok : Ok net ax) {a b : Cluster d} (ha : a ∈ net) (hb : b ∈ net) (h : a.dof = b.dof) : a = b :=
  List.inj_on_of_nodup_map ok.dof ha hb h

/-- A value of a cluster that receives no vacancies only changes when the cluster is treated. -/
theorem run_other {net : List (Cluster d)} {ax : Axes d} (ok : Ok net ax) {factor : K} {a : Cluster d} (ha : a ∈ net) (hv : ¬ HasVac ax a)
    (l : List (Cluster d)) (hl : ∀ b ∈ l, b ∈ net) (hal : a ∉ l) {s s' : State d K} (h : run net ax factor l s = some s') :
    s'.c a.dof = s.c a.dof ∧ ∀ k m, a.mom k = some m → s'.c m = s.c m := by
  induction l generalizing s with
  | nil => cases h; exact ⟨rfl, fun _ _ _ => rfl⟩
  | cons b l ih =>
    unfold run at h
    cases e : step net ax factor b s with
    | none => rw [e] at h; cases h
    | some t =>
      rw [e] at h
      have hb := hl b List.mem_cons_self
      have hne : a ≠ b := fun e => hal (e ▸ List.mem_cons_self)
      obtain ⟨i1, i2⟩ := ih (fun x hx => hl x (List.mem_cons_of_mem _ hx)) (fun hx => hal (List.mem_cons_of_mem _ hx)) h
      constructor
      · rw [i1]
        refine step_other e _ (fun x hx hxv hd => hv ?_) (fun hd => hne (dof_inj ok ha hb hd)) fun k => ok.momDof b hb a ha k
        rw [dof_inj ok ha hx hd.symm]; exact hxv
      · intro k m hm
        rw [i2 k m hm]
        refine step_other e _ (fun x hx _ hd => ok.momDof a ha x hx k (hd ▸ hm)) (fun hd => ok.momDof a ha b hb k (hd ▸ hm)) fun j hj => ?_
        exact hne (ok.mom a ha b hb k j m hm hj)

theorem run_clears {net : List (Cluster d)} {ax : Axes d} (ok : Ok net ax) {factor : K} {a : Cluster d} (ha : a ∈ net) (hv : ¬ HasVac ax a)
    (hg : HasGas ax a ∨ ¬ isSimplex a) (l : List (Cluster d)) (hl : ∀ b ∈ l, b ∈ net) (hnd : l.Nodup) (hal : a ∈ l) {s s' : State d K}
    (h : run net ax factor l s = some s') : s'.c a.dof = 0 ∧ ∀ k m, a.mom k = some m → s'.c m = 0 := by
  induction l generalizing s with
  | nil => cases hal
  | cons b l ih =>
    unfold run at h
    cases e : step net ax factor b s with
    | none => rw [e] at h; cases h
    | some t =>
      rw [e] at h
      have hl' : ∀ x ∈ l, x ∈ net := fun x hx => hl x (List.mem_cons_of_mem _ hx)
      by_cases hab : a = b
      · subst hab
        obtain ⟨c1, c2⟩ := step_clears ok ha e hg
        obtain ⟨o1, o2⟩ := run_other ok ha hv l hl' (List.nodup_cons.1 hnd).1 h
        exact ⟨o1.trans c1, fun k m hm => (o2 k m hm).trans (c2 k m hm)⟩
      · exact ih hl' (List.nodup_cons.1 hnd).2 ((List.mem_cons.1 hal).resolve_left hab) h

theorem net_nodup {net : List (Cluster d)} {ax : Axes d} (ok : Ok net ax) : net.Nodup := List.Nodup.of_map _ ok.dof

/-- **After a burst no gas remains**: the content of every gas is zero, whatever the concentrations and the groups were, in a network in which vacancy clusters are not grouped together with gas. -/
theorem no_gas {net : List (Cluster d)} {ax : Axes d} (ok : Ok net ax) (hsep : ∀ a ∈ net, HasVac ax a → ¬ HasGas ax a) (factor : K) (s s' : State d K)
    (h : updateBurstingConcs net ax factor s = some s') (g : Fin d) (hg : g ∈ ax.gas) :
    (∀ a ∈ net, ∀ n ∈ a.pts, n g ≠ 0 → a.conc s'.c n = 0) ∧ trueAtoms net g s'.c = 0 := by
  have key : ∀ a ∈ net, ∀ n ∈ a.pts, n g ≠ 0 → a.conc s'.c n = 0 := by
    intro a ha n hn hng
    have hgas : HasGas ax a := ⟨n, hn, g, hg, hng⟩
    obtain ⟨c1, c2⟩ := run_clears ok ha (fun hv => hsep a ha hv hgas) (.inl hgas) net (fun _ h => h) (net_nodup ok) ha h
    unfold Cluster.conc
    rw [c1, zero_add]
    refine sum_eq_zero fun i _ => ?_
    cases hm : a.mom i with
    | none => simp
    | some m => simp [c2 i m hm]
  refine ⟨key, List.sum_eq_zero fun x hx => ?_⟩
  obtain ⟨a, ha, rfl⟩ := List.mem_map.1 hx
  refine sum_eq_zero fun n hn => ?_
  by_cases h0 : n g = 0
  · simp [h0]
  · rw [key a ha n hn h0, mul_zero]

/-- **The released amount** of a gas is the factor times the total number of its atoms before the burst. -/
theorem released {net : List (Cluster d)} {ax : Axes d} (ok : Ok net ax) (hsep : ∀ a ∈ net, HasVac ax a → ¬ HasGas ax a) (factor : K) (s s' : State d K)
    (h : updateBurstingConcs net ax factor s = some s') (g : Fin d) (hg : g ∈ ax.gas) :
    s'.burst g = s.burst g + totalAtoms net s.c g 0 * factor := by
  rw [totalAtoms_eq net fun a ha => (ok.wf a ha).pos]
  have e : (net.map fun a => ∑ n ∈ from_ a g ((0 : ℕ) : ℤ), s.c a.dof * (n g : K)) = net.map fun a => s.c a.dof * ∑ n ∈ a.pts, (n g : K) :=
    List.map_congr_left fun a ha => by rw [from_all a g 0 (by simpa using ok.nonneg a ha g), mul_sum]
  rw [e]
  have main : ∀ (l : List (Cluster d)) (_ : ∀ b ∈ l, b ∈ net) (_ : l.Nodup) (t : State d K)
      (_ : ∀ a ∈ l, HasGas ax a → t.c a.dof = s.c a.dof) (_ : run net ax factor l t = some s'),
      s'.burst g = t.burst g + (l.map fun a => s.c a.dof * ∑ n ∈ a.pts, (n g : K)).sum * factor := by
    intro l
    induction l with
    | nil => intro _ _ t _ h; cases h; simp
    | cons b l ih =>
      intro hl hnd t ht h
      unfold run at h
      cases e : step net ax factor b t with
      | none => rw [e] at h; cases h
      | some u =>
        rw [e] at h
        dsimp only at h
        have hb := hl b List.mem_cons_self
        have hu : ∀ a ∈ l, HasGas ax a → u.c a.dof = s.c a.dof := by
          intro a ha hga
          have han := hl a (List.mem_cons_of_mem _ ha)
          rw [← ht a (List.mem_cons_of_mem _ ha) hga]
          refine step_other e _ (fun x hx hxv hd => ?_) (fun hd => ?_) fun k => ok.momDof b hb a han k
          · exact hsep x hx hxv (dof_inj ok hx han hd ▸ hga)
          · exact (List.nodup_cons.1 hnd).1 (dof_inj ok han hb hd ▸ ha)
        rw [ih (fun x hx => hl x (List.mem_cons_of_mem _ hx)) (List.nodup_cons.1 hnd).2 u hu h, step_burst ok hb e g hg, List.map_cons, List.sum_cons]
        by_cases hgb : HasGas ax b
        · rw [ht b List.mem_cons_self hgb]; ring
        · have : ∑ n ∈ b.pts, (n g : K) = 0 := sum_eq_zero fun n hn => by
            by_contra hne
            exact hgb ⟨n, hn, g, hg, fun h0 => hne (by rw [h0]; simp)⟩
          rw [this]; ring
  exact main net (fun _ h => h) (net_nodup ok) s (fun _ _ _ => rfl) h

/-- Without first moments along the gas axis, the released amount is the factor times the gas content before. -/
theorem released_content {net : List (Cluster d)} {ax : Axes d} (ok : Ok net ax) (hsep : ∀ a ∈ net, HasVac ax a → ¬ HasGas ax a) (factor : K)
    (s s' : State d K) (h : updateBurstingConcs net ax factor s = some s') (g : Fin d) (hg : g ∈ ax.gas)
    (h0 : ∀ a ∈ net, ∀ m, a.mom g = some m → s.c m = 0) : s'.burst g = s.burst g + trueAtoms net g s.c * factor := by
  rw [released ok hsep factor s s' h g hg, atoms_gap net ok.wf s.c g 0 fun a ha => by simpa using ok.nonneg a ha g]
  have : (net.map fun a => a.vol * (a.var g * (a.mom g).elim 0 s.c)).sum = 0 := by
    refine List.sum_eq_zero fun x hx => ?_
    obtain ⟨a, ha, rfl⟩ := List.mem_map.1 hx
    cases hm : a.mom g with
    | none => simp
    | some m => simp [h0 a ha m hm]
  rw [this, add_zero]

/-! ## Vacancies -/

/-- Vacancies counted with the mean concentrations. -/
def vac (net : List (Cluster d)) (ax : Axes d) (c : ℕ → K) : K := weighted net (fun a => ∑ n ∈ a.pts, (n ax.v : K)) c

theorem weighted_change (net : List (Cluster d)) (hn : (net.map (·.dof)).Nodup) (w : Cluster d → K) (b : Cluster d) (hb : b ∈ net) (c c' : ℕ → K)
    (h : ∀ a ∈ net, a ≠ b → c' a.dof = c a.dof) : weighted net w c' = weighted net w c + (c' b.dof - c b.dof) * w b := by
  unfold weighted
  induction net with
  | nil => cases hb
  | cons x net ih =>
    rw [List.map_cons, List.nodup_cons] at hn
    simp only [List.map_cons, List.sum_cons]
    by_cases e : x = b
    · subst e
      have : ∀ a ∈ net, c' a.dof = c a.dof := fun a ha => h a (List.mem_cons_of_mem _ ha) fun e => hn.1 (e ▸ List.mem_map_of_mem ha)
      rw [List.map_congr_left (g := fun a => c a.dof * w a) fun a ha => by rw [this a ha]]
      ring
    · rw [ih hn.2 ((List.mem_cons.1 hb).resolve_left (Ne.symm e)) fun a ha => h a (List.mem_cons_of_mem _ ha), h x List.mem_cons_self e]
      ring

theorem weighted_same (net : List (Cluster d)) (w : Cluster d → K) (c c' : ℕ → K) (h : ∀ a ∈ net, c' a.dof = c a.dof) :
    weighted net w c' = weighted net w c := by
  unfold weighted
  congr 1
  exact List.map_congr_left fun a ha => by rw [h a ha]

theorem vac_addAt {net : List (Cluster d)} {ax : Axes d} (ok : Ok net ax) (c : ℕ → K) (b : Cluster d) (hb : b ∈ net) (y : K) :
    vac net ax (addAt c b.dof y) = vac net ax c + y * ∑ n ∈ b.pts, (n ax.v : K) := by
  unfold vac
  rw [weighted_change net ok.dof _ b hb c]
  · simp [addAt]
  · intro a ha hne
    exact if_neg fun hd => hne (dof_inj ok ha hb hd)

theorem hasVac_simplex {ax : Axes d} {b : Cluster d} {j : ℤ} (hs : isSimplex b) (h : vComp ax.v j ∈ b.pts) :
    ∑ n ∈ b.pts, (n ax.v : K) = j ∧ ((b.reg ax.v).len : K) = 1 := by
  have h1 := hs ax.v
  constructor
  · rw [simplex_pts hs] at h ⊢
    rw [sum_singleton, ← mem_singleton.1 h]
    simp [vComp]
  · unfold Ival.len
    rw [h1]
    simp

/-- Transfers to vacancy clusters that are single compositions add exactly the vacancies they carry. -/
theorem transfer_vac {net : List (Cluster d)} {ax : Axes d} (ok : Ok net ax) (hsim : ∀ a ∈ net, HasVac ax a → isSimplex a) {a : Cluster d} (ha : a ∈ net)
    (hv : ¬ HasVac ax a) {f : K} {l : List ℤ} {c c' : ℕ → K} (h : transfer net ax.v a.dof f l c = some c') :
    vac net ax c' = vac net ax c + c a.dof * f * (l.map fun (j : ℤ) => (j : K)).sum := by
  induction l generalizing c with
  | nil => simp only [transfer, Option.some.injEq] at h; rw [h]; simp
  | cons j l ih =>
    unfold transfer at h
    cases e : find net (vComp ax.v j) with
    | none => rw [e] at h; cases h
    | some b =>
      rw [e] at h
      dsimp only at h
      obtain ⟨hb, hmem⟩ := find_spec e
      have hbv := find_hasVac e
      obtain ⟨s1, s2⟩ := hasVac_simplex (K := K) (ax := ax) (hsim b hb hbv) hmem
      rw [ih h, vac_addAt ok c b hb, s1, s2, List.map_cons, List.sum_cons]
      have hne : ¬ a.dof = b.dof := fun hd => hv (dof_inj ok ha hb hd ▸ hbv)
      simp only [addAt, if_neg hne]
      ring

theorem vac_clear {net : List (Cluster d)} {ax : Axes d} (ok : Ok net ax) (c : ℕ → K) (a : Cluster d) (ha : a ∈ net) :
    vac net ax (clear a c) = vac net ax c - c a.dof * ∑ n ∈ a.pts, (n ax.v : K) := by
  unfold vac
  rw [weighted_change net ok.dof _ a ha c]
  · simp only [clear, if_true]; ring
  · intro b hb hne
    exact if_neg fun hd => hne (dof_inj ok hb ha hd)

/-- The vacancies counted with the mean concentrations do not change when a cluster is treated. -/
theorem step_vac {net : List (Cluster d)} {ax : Axes d} (ok : Ok net ax) (hsim : ∀ a ∈ net, HasVac ax a → isSimplex a) {factor : K} {a : Cluster d}
    (ha : a ∈ net) {s s' : State d K} (h : step net ax factor a s = some s') : vac net ax s'.c = vac net ax s.c := by
  unfold step at h
  by_cases hs : isSimplex a
  · rw [if_pos hs] at h
    cases e : ax.gas.find? fun g => decide (onAxis (origin a) g) with
    | some g' =>
      rw [e] at h
      cases h
      dsimp only
      have hon := List.find?_some e
      simp only [decide_eq_true_eq] at hon
      rw [vac_clear ok _ a ha, simplex_pts hs, sum_singleton, hon.2 ax.v fun e' => ok.notV (e' ▸ List.mem_of_find?_eq_some e)]
      simp
    | none =>
      rw [e] at h
      dsimp only at h
      by_cases hm : ¬ onAxis (origin a) ax.v ∧ ¬ onAxis (origin a) ax.i
      · rw [if_pos hm] at h
        cases ht : transfer net ax.v a.dof 1 [origin a ax.v] s.c with
        | none => rw [ht] at h; cases h
        | some c =>
          rw [ht] at h
          cases h
          dsimp only
          by_cases hv : HasVac ax a
          · -- the empty composition: nothing is moved
            have hv0 : origin a ax.v = 0 := by
              obtain ⟨n, hn, hz⟩ := hv
              rw [simplex_pts hs, mem_singleton] at hn
              subst hn
              by_contra hne
              exact hm.1 ⟨hne, hz⟩
            unfold transfer at ht
            cases ef : find net (vComp ax.v (origin a ax.v)) with
            | none => rw [ef] at ht; cases ht
            | some b =>
              rw [ef] at ht
              simp only [transfer, Option.some.injEq] at ht
              obtain ⟨hb, hmem⟩ := find_spec ef
              obtain ⟨s1, s2⟩ := hasVac_simplex (K := K) (ax := ax) (hsim b hb (find_hasVac ef)) hmem
              rw [vac_clear ok _ a ha, ← ht, vac_addAt ok _ b hb, s1, simplex_pts hs, sum_singleton, hv0]
              simp
          · have hne : ∀ b ∈ net, HasVac ax b → b.dof ≠ a.dof := fun b hb hbv hd => hv (dof_inj ok hb ha hd ▸ hbv)
            rw [vac_clear ok _ a ha, transfer_vac ok hsim ha hv ht, transfer_other ht a.dof hne, simplex_pts hs, sum_singleton]
            simp
      · rw [if_neg hm] at h
        cases h
        rfl
  · rw [if_neg hs] at h
    have hv : ¬ HasVac ax a := fun hv => hs (hsim a ha hv)
    cases ht : transfer net ax.v a.dof (Totals.factor a ax.v) (interval (a.reg ax.v)) s.c with
    | none => rw [ht] at h; cases h
    | some c =>
      rw [ht] at h
      cases h
      dsimp only
      have hne : ∀ b ∈ net, HasVac ax b → b.dof ≠ a.dof := fun b hb hbv hd => hv (dof_inj ok hb ha hd ▸ hbv)
      have hm : vac net ax (clearMoments a (clear a c)) = vac net ax (clear a c) :=
        weighted_same net _ _ _ fun b hb => by rw [clearMoments_eq, if_neg (fun ⟨k, hk⟩ => ok.momDof a ha b hb k hk)]
      have hsum : Totals.factor a ax.v * ((interval (a.reg ax.v)).map fun (j : ℤ) => (j : K)).sum = ∑ n ∈ a.pts, (n ax.v : K) := by
        rw [interval_sum]
        have := group_amount (K := K) a (ok.wf a ha) (ok.nonneg a ha) ax.v 1
        simp only [one_mul] at this
        rw [← this, mul_comm, sum_mul]
      rw [hm, vac_clear ok _ a ha, transfer_vac ok hsim ha hv ht, transfer_other ht a.dof hne, mul_assoc, hsum]
      ring

/-- **The vacancies after a burst**: those before, less the part that was in first moments along the vacancy axis, in a network in which vacancy clusters are not grouped. -/
theorem vacancies {net : List (Cluster d)} {ax : Axes d} (ok : Ok net ax) (hsim : ∀ a ∈ net, HasVac ax a → isSimplex a) (factor : K) (s s' : State d K)
    (h : updateBurstingConcs net ax factor s = some s') :
    trueAtoms net ax.v s'.c = trueAtoms net ax.v s.c - (net.map fun a => a.vol * (a.var ax.v * (a.mom ax.v).elim 0 s.c)).sum := by
  have hrun : ∀ (l : List (Cluster d)) (_ : ∀ b ∈ l, b ∈ net) (t t' : State d K) (_ : run net ax factor l t = some t'), vac net ax t'.c = vac net ax t.c := by
    intro l
    induction l with
    | nil => intro _ t t' h; cases h; rfl
    | cons b l ih =>
      intro hl t t' h
      unfold run at h
      cases e : step net ax factor b t with
      | none => rw [e] at h; cases h
      | some u =>
        rw [e] at h
        rw [ih (fun x hx => hl x (List.mem_cons_of_mem _ hx)) u t' h, step_vac ok hsim (hl b List.mem_cons_self) e]
  have hvac : ∀ c : ℕ → K, totalAtoms net c ax.v 0 = vac net ax c := by
    intro c
    rw [totalAtoms_eq net fun a ha => (ok.wf a ha).pos]
    unfold vac weighted
    congr 1
    exact List.map_congr_left fun a ha => by rw [from_all a ax.v 0 (by simpa using ok.nonneg a ha ax.v), mul_sum]
  have hz : (net.map fun a => a.vol * (a.var ax.v * (a.mom ax.v).elim 0 s'.c)).sum = 0 := by
    refine List.sum_eq_zero fun x hx => ?_
    obtain ⟨a, ha, rfl⟩ := List.mem_map.1 hx
    cases hm : a.mom ax.v with
    | none => simp
    | some m =>
      have hns : ¬ isSimplex a := fun hs => by
        rw [((ok.wf a ha).mom ax.v).2 (hs ax.v)] at hm
        cases hm
      have := (run_clears ok ha (fun hv => hns (hsim a ha hv)) (.inr hns) net (fun _ h => h) (net_nodup ok) ha h).2 ax.v m hm
      simp [this]
  have g1 := atoms_gap net ok.wf s.c ax.v 0 fun a ha => by simpa using ok.nonneg a ha ax.v
  have g2 := atoms_gap net ok.wf s'.c ax.v 0 fun a ha => by simpa using ok.nonneg a ha ax.v
  rw [g2, g1, hz, hvac, hvac, hrun net (fun _ h => h) s s' h]
  ring

/-- **The vacancy content is unchanged**, if vacancy clusters are not grouped and no group has a first moment along the vacancy axis. -/
theorem vacancies_kept_partial {net : List (Cluster d)} {ax : Axes d} (ok : Ok net ax) (hsim : ∀ a ∈ net, HasVac ax a → isSimplex a) (factor : K)
    (s s' : State d K) (h : updateBurstingConcs net ax factor s = some s') (h0 : ∀ a ∈ net, ∀ m, a.mom ax.v = some m → s.c m = 0) :
    trueAtoms net ax.v s'.c = trueAtoms net ax.v s.c := by
  rw [vacancies ok hsim factor s s' h]
  have : (net.map fun a => a.vol * (a.var ax.v * (a.mom ax.v).elim 0 s.c)).sum = 0 := by
    refine List.sum_eq_zero fun x hx => ?_
    obtain ⟨a, ha, rfl⟩ := List.mem_map.1 hx
    cases hm : a.mom ax.v with
    | none => simp
    | some m => simp [h0 a ha m hm]
  rw [this, sub_zero]

/-- **The function has a defined result** if every number of vacancies that occurs in a group or mixed cluster has a vacancy cluster. -/
theorem defined {net : List (Cluster d)} {ax : Axes d} (ok : Ok net ax)
    (hf : ∀ a ∈ net, (HasGas ax a ∧ (∀ g ∈ ax.gas, ¬ (isSimplex a ∧ onAxis (origin a) g)) ∨ ¬ isSimplex a) →
      ∀ n ∈ a.pts, ∃ b ∈ net, vComp ax.v (n ax.v) ∈ b.pts)
    (hi : ∀ a ∈ net, isSimplex a → ¬ HasGas ax a → onAxis (origin a) ax.v ∨ onAxis (origin a) ax.i)
    (factor : K) (s : State d K) : ∃ s', updateBurstingConcs net ax factor s = some s' := by
  have hfind : ∀ j, (∃ b ∈ net, vComp ax.v j ∈ b.pts) → ∃ b, find net (vComp ax.v j) = some b := by
    rintro j ⟨b, hb, hm⟩
    have : (find net (vComp ax.v j)).isSome := by
      unfold find
      rw [List.find?_isSome]
      exact ⟨b, hb, decide_eq_true fun k => mem_pts.1 (Fintype.mem_piFinset.1 hm k)⟩
    exact Option.isSome_iff_exists.1 this
  have htr : ∀ (src : ℕ) (f : K) (l : List ℤ) (_ : ∀ j ∈ l, ∃ b ∈ net, vComp ax.v j ∈ b.pts) (c : ℕ → K), ∃ c', transfer net ax.v src f l c = some c' := by
    intro src f l
    induction l with
    | nil => intro _ c; exact ⟨c, rfl⟩
    | cons j l ih =>
      intro hl c
      obtain ⟨b, hb⟩ := hfind j (hl j List.mem_cons_self)
      unfold transfer
      rw [hb]
      exact ih (fun x hx => hl x (List.mem_cons_of_mem _ hx)) _
  have hstep : ∀ a ∈ net, ∀ s : State d K, ∃ s', step net ax factor a s = some s' := by
    intro a ha s
    unfold step
    by_cases hs : isSimplex a
    · rw [if_pos hs]
      cases e : ax.gas.find? fun g => decide (onAxis (origin a) g) with
      | some g => exact ⟨_, rfl⟩
      | none =>
        dsimp only
        by_cases hm : ¬ onAxis (origin a) ax.v ∧ ¬ onAxis (origin a) ax.i
        · rw [if_pos hm]
          have hga : HasGas ax a := by
            by_contra hng
            rcases hi a ha hs hng with h | h
            · exact hm.1 h
            · exact hm.2 h
          have hno : ∀ g ∈ ax.gas, ¬ (isSimplex a ∧ onAxis (origin a) g) := fun g hg h => by
            have := List.find?_eq_none.1 e g hg
            simp [h.2] at this
          obtain ⟨c, hc⟩ := htr a.dof 1 [origin a ax.v] (fun j hj => by
            rw [List.mem_singleton.1 hj]
            exact hf a ha (.inl ⟨hga, hno⟩) (origin a) (by rw [simplex_pts hs]; exact mem_singleton_self _)) s.c
          rw [hc]
          exact ⟨_, rfl⟩
        · rw [if_neg hm]
          exact ⟨_, rfl⟩
    · rw [if_neg hs]
      obtain ⟨c, hc⟩ := htr a.dof (Totals.factor a ax.v) (interval (a.reg ax.v)) (fun j hj => by
        obtain ⟨m, hm, rfl⟩ := List.mem_map.1 hj
        have hm := List.mem_range.1 hm
        have hpos := (ok.wf a ha).pos
        have := hf a ha (.inr hs) (fun k => if k = ax.v then (a.reg ax.v).b + m else (a.reg k).b) (Fintype.mem_piFinset.2 fun k => by
          rw [mem_pts]
          have := hpos k
          by_cases hk : k = ax.v
          · subst hk; rw [if_pos rfl]; omega
          · rw [if_neg hk]; omega)
        simpa using this) s.c
      rw [hc]
      exact ⟨_, rfl⟩
  have hrun : ∀ (l : List (Cluster d)) (_ : ∀ b ∈ l, b ∈ net) (s : State d K), ∃ s', run net ax factor l s = some s' := by
    intro l
    induction l with
    | nil => intro _ s; exact ⟨s, rfl⟩
    | cons b l ih =>
      intro hl s
      obtain ⟨t, ht⟩ := hstep b (hl b List.mem_cons_self) s
      unfold run
      rw [ht]
      exact ih (fun x hx => hl x (List.mem_cons_of_mem _ hx)) t
  exact hrun net (fun _ h => h) s

/-! ## Concrete cases -/

/-- Helium, vacancy, interstitial. -/
def ax3 : Axes 3 := ⟨[0], 1, 2⟩

/-- A box with the ranges given. -/
def box (dof : ℕ) (mom : Fin 3 → Option ℕ) (h0 h1 v0 v1 i0 i1 : ℤ) : Cluster 3 :=
  ⟨dof, mom, fun k => if k = 0 then ⟨h0, h1⟩ else if k = 1 then ⟨v0, v1⟩ else ⟨i0, i1⟩⟩

def noMom : Fin 3 → Option ℕ := fun _ => none

/-- He, V, V₂, I, HeV and the group of He₁ and He₂ with V₂. -/
def net6 : List (Cluster 3) :=
  [box 0 noMom 1 2 0 1 0 1, box 1 noMom 0 1 1 2 0 1, box 2 noMom 0 1 2 3 0 1, box 3 noMom 0 1 0 1 1 2, box 4 noMom 1 2 1 2 0 1,
    box 5 (fun k => if k = 0 then some 6 else none) 1 3 2 3 0 1]

theorem net6_ok : Ok net6 ax3 := by
  refine ⟨?_, by decide, by decide, by decide, by decide, by decide, by decide, by decide, by decide, by decide⟩
  intro a ha
  simp only [net6, List.mem_cons, List.not_mem_nil, or_false] at ha
  rcases ha with rfl | rfl | rfl | rfl | rfl | rfl <;> exact ⟨by decide, by decide⟩

/-- Membership of a vacancy composition or gas, by the ranges. -/
theorem hasVac_iff {ax : Axes d} {a : Cluster d} (h : ∀ k, (a.reg k).b < (a.reg k).e) :
    HasVac ax a ↔ ∀ k, k ≠ ax.v → (a.reg k).b ≤ 0 ∧ 0 < (a.reg k).e := by
  constructor
  · rintro ⟨n, hn, hz⟩ k hk
    have := mem_pts.1 (Fintype.mem_piFinset.1 hn k)
    rwa [hz k hk] at this
  · intro hk
    refine ⟨fun k => if k = ax.v then (a.reg k).b else 0, Fintype.mem_piFinset.2 fun k => mem_pts.2 ?_, fun k hk => if_neg hk⟩
    by_cases e : k = ax.v
    · rw [if_pos e]; exact ⟨le_rfl, h k⟩
    · rw [if_neg e]; exact hk k e

theorem net6_sim : ∀ a ∈ net6, HasVac ax3 a → isSimplex a := by
  intro a ha hv
  rw [hasVac_iff ((net6_ok.wf a ha).pos)] at hv
  revert hv
  revert a
  decide

theorem simplex_no_gas {ax : Axes d} {net : List (Cluster d)} (ok : Ok net ax) (hsim : ∀ a ∈ net, HasVac ax a → isSimplex a) :
    ∀ a ∈ net, HasVac ax a → ¬ HasGas ax a := by
  intro a ha hv hg
  have hs := hsim a ha hv
  obtain ⟨g, hg1, hg2⟩ := hasGas_simplex hs hg
  obtain ⟨n, hn, hz⟩ := hv
  rw [simplex_pts hs, mem_singleton] at hn
  subst hn
  exact hg2 (hz g fun e => ok.notV (e ▸ hg1))

/-- A group of V₁ and V₂, and He with V₁ or V₂ grouped: all of the concentration goes to the vacancy group. -/
example : ∀ j ∈ interval ((box 0 noMom 0 1 1 3 0 1).reg ax3.v), find [box 0 noMom 0 1 1 3 0 1, box 1 noMom 1 2 1 3 0 1] (vComp ax3.v j) = some (box 0 noMom 0 1 1 3 0 1) := by
  intro j hj
  obtain ⟨m, hm, rfl⟩ := List.mem_map.1 hj
  have hm : m < 2 := List.mem_range.1 hm
  obtain rfl | rfl : m = 0 ∨ m = 1 := by omega
  · rfl
  · rfl

/-- With one of each, and 2 nm of depth: 1 + 1 + 3 helium atoms per volume are released, the vacancies go to V (2) and V₂ (3). -/
example : ∃ s' : State 3 ℚ, updateBurstingConcs net6 ax3 2 ⟨fun i => if i < 6 then 1 else 0, fun _ => 0⟩ = some s' ∧ s'.burst 0 = 10 ∧
    (List.range 7).map s'.c = [0, 2, 3, 1, 0, 0, 0] := by
  refine ⟨_, rfl, ?_, ?_⟩ <;> decide +kernel

/-- The hypotheses of the theorems hold for it. -/
example (s s' : State 3 ℚ) (h : updateBurstingConcs net6 ax3 2 s = some s') : trueAtoms net6 0 s'.c = 0 ∧ trueAtoms net6 1 s'.c = trueAtoms net6 1 s.c ∧
    s'.burst 0 = s.burst 0 + totalAtoms net6 s.c 0 0 * 2 :=
  ⟨(no_gas net6_ok (simplex_no_gas net6_ok net6_sim) 2 s s' h 0 (by decide)).2,
    vacancies_kept_partial net6_ok net6_sim 2 s s' h (fun a ha m hm => by
      have : ∀ a ∈ net6, a.mom ax3.v = none := by decide
      rw [this a ha] at hm; cases hm),
    released net6_ok (simplex_no_gas net6_ok net6_sim) 2 s s' h 0 (by decide)⟩

/-- It has a result for every state. -/
example (s : State 3 ℚ) : ∃ s', updateBurstingConcs net6 ax3 2 s = some s' := by
  refine defined net6_ok ?_ ?_ 2 s
  · intro a ha h n hn
    have hn1 := mem_pts.1 (Fintype.mem_piFinset.1 hn 1)
    have hcl : ∀ a ∈ net6, (1 ≤ (a.reg 1).b ∧ (a.reg 1).e ≤ 3) ∨ isSimplex a ∧ (onAxis (origin a) 0 ∨ (0 ≤ (a.reg 0).b ∧ (a.reg 0).e ≤ 1)) := by decide
    have hv : n 1 = 1 ∨ n 1 = 2 := by
      rcases hcl a ha with hr | ⟨hs, ho | ⟨h1, h2⟩⟩
      · omega
      · rcases h with h | h
        · exact absurd ⟨hs, ho⟩ (h.2 0 (by decide))
        · exact absurd hs h
      · rcases h with ⟨⟨n', hn', g, hg, hg'⟩, _⟩ | h
        · have := mem_pts.1 (Fintype.mem_piFinset.1 hn' 0)
          simp only [ax3, List.mem_singleton] at hg
          subst hg
          omega
        · exact absurd hs h
    change ∃ b ∈ net6, vComp 1 (n 1) ∈ b.pts
    rcases hv with e | e <;> rw [e] <;> decide +kernel
  · intro a ha _ hg
    have : ∀ a ∈ net6, onAxis (origin a) ax3.v ∨ onAxis (origin a) ax3.i ∨ 0 < origin a 0 := by decide
    rcases this a ha with h | h | h
    · exact .inl h
    · exact .inr h
    · exact absurd ⟨origin a, Fintype.mem_piFinset.2 fun k => mem_pts.2 ⟨le_rfl, (net6_ok.wf a ha).pos k⟩, 0, by decide, h.ne'⟩ hg

/-! ## Where the claim fails -/

/-- V, and the group of V₂ and V₃: vacancies that were in the group are gone after a burst in a place without any gas. -/
theorem grouped_vacancies_lost : ∃ s' : State 3 ℚ,
    updateBurstingConcs [box 0 noMom 0 1 1 2 0 1, box 1 (fun k => if k = 1 then some 2 else none) 0 1 2 4 0 1] ax3 1 ⟨fun i => if i = 1 then 1 else 0, fun _ => 0⟩ = some s' ∧
    trueAtoms [box 0 noMom 0 1 1 2 0 1, box 1 (fun k => if k = 1 then some 2 else none) 0 1 2 4 0 1] 1 (fun i => if i = 1 then 1 else 0 : ℕ → ℚ) = 5 ∧
    trueAtoms [box 0 noMom 0 1 1 2 0 1, box 1 (fun k => if k = 1 then some 2 else none) 0 1 2 4 0 1] 1 s'.c = 0 := by
  refine ⟨_, rfl, ?_, ?_⟩ <;> decide +kernel

/-- A group of interstitials makes the function use the invalid cluster: it looks for the composition without anything. -/
theorem grouped_interstitials_undefined (s : State 3 ℚ) :
    updateBurstingConcs [box 0 noMom 0 1 1 2 0 1, box 1 (fun k => if k = 2 then some 2 else none) 0 1 0 1 2 4] ax3 1 s = none := by
  have h1 : step [box 0 noMom 0 1 1 2 0 1, box 1 (fun k => if k = 2 then some 2 else none) 0 1 0 1 2 4] ax3 1 (box 0 noMom 0 1 1 2 0 1) s = some s := by
    unfold step
    rw [if_pos (by decide), show (ax3.gas.find? fun g => decide (onAxis (origin (box 0 noMom 0 1 1 2 0 1)) g)) = none by decide]
    dsimp only
    rw [if_neg (by decide)]
  have h2 : step [box 0 noMom 0 1 1 2 0 1, box 1 (fun k => if k = 2 then some 2 else none) 0 1 0 1 2 4] ax3 1
      (box 1 (fun k => if k = 2 then some 2 else none) 0 1 0 1 2 4) s = none := by
    unfold step
    rw [if_neg (by decide), show interval ((box 1 (fun k => if k = 2 then some 2 else none) 0 1 0 1 2 4).reg ax3.v) = [0] by decide]
    unfold transfer
    rw [show find [box 0 noMom 0 1 1 2 0 1, box 1 (fun k => if k = 2 then some 2 else none) 0 1 0 1 2 4] (vComp ax3.v 0) = none by decide]
  unfold updateBurstingConcs run
  rw [h1]
  dsimp only
  unfold run
  rw [h2]

/-- With a first moment along the vacancy axis the vacancies change: here HeV₁ (none) and HeV₂ (two). -/
theorem moment_lost : ∃ s' : State 3 ℚ,
    updateBurstingConcs [box 0 noMom 0 1 1 2 0 1, box 1 noMom 0 1 2 3 0 1, box 2 (fun k => if k = 1 then some 3 else none) 1 2 1 3 0 1] ax3 1
      ⟨fun i => if i = 2 then 1 else if i = 3 then 2 else 0, fun _ => 0⟩ = some s' ∧
    trueAtoms [box 0 noMom 0 1 1 2 0 1, box 1 noMom 0 1 2 3 0 1, box 2 (fun k => if k = 1 then some 3 else none) 1 2 1 3 0 1] 1
      (fun i => if i = 2 then 1 else if i = 3 then 2 else 0 : ℕ → ℚ) = 4 ∧
    trueAtoms [box 0 noMom 0 1 1 2 0 1, box 1 noMom 0 1 2 3 0 1, box 2 (fun k => if k = 1 then some 3 else none) 1 2 1 3 0 1] 1 s'.c = 3 := by
  refine ⟨_, rfl, ?_, ?_⟩ <;> decide +kernel

/-- **In two and three dimensions nothing is ever accounted**: the monitors call the function with the factor 0 (PetscMonitor2D.cpp:1653, PetscMonitor3D.cpp:1722). -/
theorem factor_zero {net : List (Cluster d)} {ax : Axes d} (ok : Ok net ax) (hsep : ∀ a ∈ net, HasVac ax a → ¬ HasGas ax a) (s s' : State d K)
    (h : updateBurstingConcs net ax 0 s = some s') (g : Fin d) (hg : g ∈ ax.gas) : s'.burst g = s.burst g := by
  rw [released ok hsep 0 s s' h g hg, mul_zero, add_zero]

/-- The monitor reads the released tritium from entry 2.  In the network with tritium and no deuterium the function writes it to entry 1, where the monitor reads deuterium. -/
theorem tritium_as_deuterium : accountIndex Species.psiTritium "T" = 1 ∧ accountIndex Species.psiFull "T" = 2 ∧
    accountIndex Species.psiFull "D" = 1 ∧ accountIndex Species.psiDeuterium "D" = 1 := by
  decide +kernel

end Xolotl.Network.Bursting
