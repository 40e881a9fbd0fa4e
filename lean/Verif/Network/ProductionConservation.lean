import Verif.Network.Layout
import Verif.Network.CoefsProps
import Verif.Network.ProductionLemmas

/-!
# C04: production reactions conserve the content of the network
-/

set_option linter.unusedSectionVars false

namespace Xolotl.Network

variable {d : ℕ} {K : Type*} [Field K] [LinearOrder K] [IsStrictOrderedRing K]

/-- The reaction `r`, whose coefficients were computed from `g`, reacts the clusters `cl` of the network. A product that is not
tracked is absent (`none`) and was given the dummy region at the origin (Reaction.tpp:143-156,
186-193). -/
structure Fits (net : Finset (Cluster d)) (g : ProdIn d K) (r : ProdRxn d K)
    (cl : Slot → Option (Cluster d)) : Prop where
  mem : ∀ q a, cl q = some a → a ∈ net
  id : ∀ q, r.id q = (cl q).map Cluster.dof
  mom : ∀ q k, r.mom q k = (cl q).bind fun a => a.mom k
  vol : ∀ q a, cl q = some a → r.vol q = a.vol
  reg : ∀ q a, cl q = some a → g.reg q = a.reg
  dummy : ∀ q, cl q = none → ∀ k, g.reg q k = ⟨0, 1⟩
  disp : ∀ q a k m, cl q = some a → a.mom k = some m → g.disp q k = a.var k
  prod1 : g.prod1 = r.prod1
  prod2 : g.prod2 = r.prod2
  coefs : r.coefs = g.coefs

namespace Fits

variable {net : Finset (Cluster d)} {g : ProdIn d K} {r : ProdRxn d K}
  {cl : Slot → Option (Cluster d)}

theorem valid_iff (hf : Fits net g r cl) (q : Slot) : g.valid q = (r.id q).isSome := by
  cases q <;> simp [ProdIn.valid, ProdRxn.id, hf.prod1, hf.prod2]

/-- Weighted contribution of the equations of one participant. -/
def term (W : ℕ → K) (c : ℕ → K) (r : ProdRxn d K) (q : Slot) : K :=
  (r.id q).elim 0 W * (r.fluxOf c .r1 none / r.vol q) +
  ∑ i, (r.rowId q (some i)).elim 0 W * (r.fluxOf c q (some i) / r.vol q)

theorem wsum_flux (W : ℕ → K) (c : ℕ → K) (r : ProdRxn d K) (hp : r.prod1 = none → r.prod2 = none) :
    wsum W (r.computeFlux c) =
      -term W c r .r1 - term W c r .r2 + term W c r .p1 + term W c r .p2 := by
  have h2 : wsum W (r.productUpdates (r.fluxOf c .r1 none)) =
      r.prod1.elim 0 W * (r.fluxOf c .r1 none / r.vol .p1) +
      r.prod2.elim 0 W * (r.fluxOf c .r1 none / r.vol .p2) := by
    rcases h1 : r.prod1 with _ | a
    · simp [ProdRxn.productUpdates, h1, hp h1, wsum_nil]
    · rcases h2 : r.prod2 with _ | b <;>
        simp [ProdRxn.productUpdates, h1, h2, wsum_cons, wsum_nil]
  simp only [ProdRxn.computeFlux, wsum_append, h2, wsum_cons, wsum_nil, wsum_finRange, wsum_emit,
    term, ProdRxn.id, ProdRxn.rowId, Option.elim_some, Option.bind_some, Finset.sum_add_distrib,
    mul_neg, Finset.sum_neg_distrib]
  ring

/-- The contribution of a participant is the content that the individual composition quadruples bring to it. -/
theorem term_eq (hf : Fits net g r cl) (hw : ∀ a ∈ net, a.WF) (hi : DofInj net)
    (hex : ∀ α β q γ, g.valid q = true → (γ = none → q = .r1) →
      g.coefs α β q γ = g.coefSpec α β q γ)
    (k : Fin d) (c : ℕ → K) (q : Slot) :
    term (weight net k) c r q = r.rate * ∑ α, ∑ β,
      (∑ x ∈ g.allQuads, g.dev .r1 α x * g.dev .r2 β x * (q.part (x k) : K)) *
        r.uA c α * r.uB c β := by
  unfold term
  rcases hq : cl q with _ | a
  · have hid : r.id q = none := by rw [hf.id, hq]; rfl
    have hz : ∀ x ∈ g.allQuads, q.part (x k) = 0 := by
      intro x hx
      have hm := (ProdIn.mem_allQuads g).mp hx k
      rw [ProdIn.axis, show x k = ((x k).1, (x k).2.1, (x k).2.2.1, (x k).2.2.2) from rfl,
        mem_quads] at hm
      have hd := hf.dummy q hq k
      cases q <;> simp only [ProdIn.reg] at hd <;> simp only [Slot.part, hd] at * <;> omega
    have hs : ∀ α β, ∑ x ∈ g.allQuads, g.dev .r1 α x * g.dev .r2 β x * (q.part (x k) : K) = 0 :=
      fun α β => Finset.sum_eq_zero fun x hx => by rw [hz x hx]; simp
    simp [ProdRxn.rowId, hid, hs]
  · have ha := hf.mem q a hq
    have hid : r.id q = some a.dof := by rw [hf.id, hq]; rfl
    have hv : g.valid q = true := by rw [hf.valid_iff, hid]; rfl
    have hmom : ∀ i, r.mom q i = a.mom i := fun i => by rw [hf.mom, hq]; rfl
    have hrow : ∀ i, r.rowId q (some i) = a.mom i := fun i => by
      simp [ProdRxn.rowId, hid, hmom]
    have hvol := a.vol_ne (K := K) (hw a ha)
    have h0 : ∀ α β, r.coefs α β .r1 none =
        ∑ x ∈ g.allQuads, g.dev .r1 α x * g.dev .r2 β x := fun α β => by
      rw [hf.coefs, hex α β .r1 none rfl (fun _ => rfl)]
      simp [ProdIn.coefSpec, ProdIn.dispO, ProdIn.dev]
    have hsum : ∑ i, (r.rowId q (some i)).elim 0 (weight net k) *
        (r.fluxOf c q (some i) / r.vol q) =
        (a.mom k).elim 0 (fun _ => a.var k) * r.fluxOf c q (some k) := by
      rw [Finset.sum_eq_single k]
      · rw [hrow, hf.vol q a hq]
        rcases hm : a.mom k with _ | m
        · simp
        · simp only [Option.elim_some]
          rw [weight_mom net hi k k ha hm, if_pos rfl]
          field_simp
      · intro i _ hne
        rw [hrow]
        rcases hm : a.mom i with _ | m
        · simp
        · simp only [Option.elim_some]
          rw [weight_mom net hi k i ha hm, if_neg hne, zero_mul]
      · simp
    have hk : ∀ α β, (a.mom k).elim 0 (fun _ => a.var k) * r.coefs α β q (some k) =
        ∑ x ∈ g.allQuads, g.dev .r1 α x * g.dev .r2 β x * g.dev q (some k) x := fun α β => by
      rcases hm : a.mom k with _ | m
      · simp only [Option.elim_none, zero_mul]
        refine (Finset.sum_eq_zero fun x hx => ?_).symm
        rw [ProdIn.dev_single g hx q k (by
          rw [hf.reg q a hq]; exact ((hw a ha).mom k).mp hm), mul_zero]
      · simp only [Option.elim_some]
        rw [hf.coefs, hex α β q (some k) hv (by simp), ProdIn.coefSpec, ProdIn.dispO]
        rw [hf.disp q a k m hq hm]
        have := a.var_ne (K := K) (hw a ha) hm
        field_simp
    rw [hsum, hid, Option.elim_some, weight_dof net hi k ha, hf.vol q a hq, r.fluxOf_eq, r.fluxOf_eq]
    have e1 : a.vol * (a.reg k).mid * (r.rate * (∑ α, ∑ β, r.coefs α β .r1 none * r.uA c α *
        r.uB c β) / a.vol) = r.rate * ∑ α, ∑ β, ((a.reg k).mid * r.coefs α β .r1 none) * r.uA c α *
        r.uB c β := by
      have e0 : ∀ S : K, a.vol * (a.reg k).mid * (r.rate * S / a.vol) =
          r.rate * ((a.reg k).mid * S) := fun S => by field_simp
      rw [e0, Finset.mul_sum]
      congr 1
      refine Finset.sum_congr rfl fun α _ => ?_
      rw [Finset.mul_sum]
      exact Finset.sum_congr rfl fun β _ => by ring
    have e2 : (a.mom k).elim 0 (fun _ => a.var k) * (r.rate * ∑ α, ∑ β,
        r.coefs α β q (some k) * r.uA c α * r.uB c β) = r.rate * ∑ α, ∑ β,
        ((a.mom k).elim 0 (fun _ => a.var k) * r.coefs α β q (some k)) * r.uA c α * r.uB c β := by
      rw [mul_left_comm, Finset.mul_sum]
      congr 1
      refine Finset.sum_congr rfl fun α _ => ?_
      rw [Finset.mul_sum]
      exact Finset.sum_congr rfl fun β _ => by ring
    rw [e1, e2, ← mul_add, ← Finset.sum_add_distrib]
    congr 1
    refine Finset.sum_congr rfl fun α _ => ?_
    rw [← Finset.sum_add_distrib]
    refine Finset.sum_congr rfl fun β _ => ?_
    rw [hk, h0, ← add_mul, ← add_mul, Finset.mul_sum, ← Finset.sum_add_distrib]
    congr 2
    refine Finset.sum_congr rfl fun x _ => ?_
    simp only [ProdIn.dev, hf.reg q a hq]
    ring

/-- **C04** (general form) When the coefficients are exact, a production reaction does not change the content of the
network along any axis, whatever the state, the groups and the coincidences between participants. -/
theorem production_conserves_of_exact (hf : Fits net g r cl) (hw : ∀ a ∈ net, a.WF)
    (hi : DofInj net) (hp : r.prod1 = none → r.prod2 = none)
    (hex : ∀ α β q γ, g.valid q = true → (γ = none → q = .r1) →
      g.coefs α β q γ = g.coefSpec α β q γ)
    (k : Fin d) (c : ℕ → K) : totalContent net k (netOf (r.computeFlux c)) = 0 := by
  rw [totalContent_netOf net hw, wsum_flux _ _ _ hp]
  simp only [hf.term_eq hw hi hex k c]
  rw [← mul_neg, ← mul_sub, ← mul_add, ← mul_add]
  rw [← Finset.sum_neg_distrib, ← Finset.sum_sub_distrib, ← Finset.sum_add_distrib,
    ← Finset.sum_add_distrib]
  rw [Finset.sum_eq_zero, mul_zero]
  intro α _
  rw [← Finset.sum_neg_distrib, ← Finset.sum_sub_distrib, ← Finset.sum_add_distrib,
    ← Finset.sum_add_distrib]
  refine Finset.sum_eq_zero fun β _ => ?_
  have : ∑ x ∈ g.allQuads, g.dev .r1 α x * g.dev .r2 β x *
      (-(Slot.r1.part (x k) : K) - (Slot.r2.part (x k) : K) + (Slot.p1.part (x k) : K) +
        (Slot.p2.part (x k) : K)) = 0 := by
    refine Finset.sum_eq_zero fun x hx => ?_
    have hm := (ProdIn.mem_allQuads g).mp hx k
    rw [ProdIn.axis, show x k = ((x k).1, (x k).2.1, (x k).2.2.1, (x k).2.2.2) from rfl,
      mem_quads] at hm
    have h5 : (((x k).1 + (x k).2.1 : ℤ) : K) = ((x k).2.2.1 + (x k).2.2.2 : ℤ) := by
      rw [hm.2.2.2.2]
    push_cast at h5
    simp only [Slot.part]
    rw [mul_eq_zero]; right
    linear_combination -h5
  have h2 : (∑ x ∈ g.allQuads, g.dev .r1 α x * g.dev .r2 β x *
      (-(Slot.r1.part (x k) : K) - (Slot.r2.part (x k) : K) + (Slot.p1.part (x k) : K) +
        (Slot.p2.part (x k) : K))) * r.uA c α * r.uB c β = 0 := by rw [this]; simp
  rw [← h2]
  simp only [mul_add, mul_sub, mul_neg, Finset.sum_add_distrib, Finset.sum_sub_distrib,
    Finset.sum_neg_distrib]
  ring

/-- **C04** (one moment axis) no assumption on the coefficients: a production reaction between any groups conserves
the content. -/
theorem production_conserves_one_axis {net : Finset (Cluster 1)} {g : ProdIn 1 K}
    {r : ProdRxn 1 K} {cl : Slot → Option (Cluster 1)} (hf : Fits net g r cl)
    (hw : ∀ a ∈ net, a.WF) (hi : DofInj net) (hp : r.prod1 = none → r.prod2 = none) (hg : g.WF)
    (k : Fin 1) (c : ℕ → K) : totalContent net k (netOf (r.computeFlux c)) = 0 :=
  hf.production_conserves_of_exact hw hi hp
    (fun α β q γ hv hq => g.coefs_eq_one_axis hg α β q γ hv hq) k c

/-- **C04** (any number of moment axes) a production reaction whose participants are grouped along at most one common axis conserves
the content along every axis. -/
theorem production_conserves_one_grouped_axis (hf : Fits net g r cl)
    (hw : ∀ a ∈ net, a.WF) (hi : DofInj net) (hp : r.prod1 = none → r.prod2 = none) (hg : g.WF)
    (i0 : Fin d) (h1 : ∀ i, i ≠ i0 → ∀ q, (g.reg q i).e = (g.reg q i).b + 1)
    (k : Fin d) (c : ℕ → K) : totalContent net k (netOf (r.computeFlux c)) = 0 :=
  hf.production_conserves_of_exact hw hi hp
    (fun α β q γ hv hq => g.coefs_eq_one_grouped_axis hg i0 h1 α β q γ hv hq) k c

/-! ### Concrete cases -/

/-- Groups `[1,4)`, `[2,4)` and `[4,7)` on one axis. -/
def exA : Cluster 1 := ⟨0, fun _ => some 3, fun _ => ⟨1, 4⟩⟩
@[inherit_doc exA] def exB : Cluster 1 := ⟨1, fun _ => some 4, fun _ => ⟨2, 4⟩⟩
@[inherit_doc exA] def exC : Cluster 1 := ⟨2, fun _ => some 5, fun _ => ⟨4, 7⟩⟩

/-- Input of the coefficients of `exA + exB → exC`. -/
def exIn : ProdIn 1 ℚ := { ProdIn.wit1 with prod1 := some 2 }

/-- The reaction `exA + exB → exC`. -/
def exRx : ProdRxn 1 ℚ where
  r1 := 0
  r2 := 1
  prod1 := some 2
  prod2 := none
  mom := fun q _ => match q with | .r1 => some 3 | .r2 => some 4 | .p1 => some 5 | .p2 => none
  vol := fun q => match q with | .r1 => 3 | .r2 => 2 | .p1 => 3 | .p2 => 1
  rate := 5
  coefs := exIn.coefs

/-- Participants. -/
def exCl : Slot → Option (Cluster 1)
  | .r1 => some exA
  | .r2 => some exB
  | .p1 => some exC
  | .p2 => none

theorem exFits : Fits {exA, exB, exC} exIn exRx exCl where
  mem := fun q a h => by cases q <;> simp [exCl] at h <;> simp [← h]
  id := fun q => by cases q <;> rfl
  mom := fun q k => by cases q <;> rfl
  vol := fun q a h => by
    cases q <;> simp [exCl] at h <;> subst h <;> decide +kernel
  reg := fun q a h => by cases q <;> simp [exCl] at h <;> subst h <;> rfl
  dummy := fun q h k => by cases q <;> simp [exCl] at h <;> rfl
  disp := fun q a k m h _ => by
    have hk : k = 0 := Subsingleton.elim _ _
    subst hk
    cases q <;> simp [exCl] at h <;> subst h <;> decide +kernel
  prod1 := rfl
  prod2 := rfl
  coefs := rfl

/-- Non-vacuity: the theorem applies, and the reaction does move content. -/
example (c : ℕ → ℚ) : totalContent {exA, exB, exC} 0 (netOf (exRx.computeFlux c)) = 0 := by
  refine exFits.production_conserves_one_axis ?_ ?_ (by simp [exRx]) ?_ 0 c
  · intro a ha
    simp only [Finset.mem_insert, Finset.mem_singleton] at ha
    rcases ha with rfl | rfl | rfl <;>
      exact ⟨fun k => by simp [exA, exB, exC], fun k => by simp [exA, exB, exC]⟩
  · constructor <;> decide
  · exact ⟨by decide, fun i => ⟨(2, 2, 4, 0), by fin_cases i; decide +kernel⟩, by decide⟩

example : netOf (exRx.computeFlux fun _ => 1) 2 = 10 := by decide +kernel

/-- Two-axis groups: `[1,3)×[1,3)` and the single `(1,1)`. -/
def ex2A : Cluster 2 := ⟨0, fun k => some (2 + k), fun _ => ⟨1, 3⟩⟩
@[inherit_doc ex2A] def ex2B : Cluster 2 := ⟨1, fun _ => none, fun _ => ⟨1, 2⟩⟩

/-- The reaction `ex2A + ex2B → ex2A` within the same group. -/
def ex2Rx : ProdRxn 2 ℚ where
  r1 := 0
  r2 := 1
  prod1 := some 0
  prod2 := none
  mom := fun q k => match q with | .r1 => some (2 + k) | .p1 => some (2 + k) | _ => none
  vol := fun q => match q with | .r1 => 4 | .p1 => 4 | _ => 1
  rate := 1
  coefs := ProdIn.wit2.coefs

/-- Participants. -/
def ex2Cl : Slot → Option (Cluster 2)
  | .r1 => some ex2A
  | .r2 => some ex2B
  | .p1 => some ex2A
  | .p2 => none

/-- **C04 fails with two grouped axes**: all the hypotheses of the conservation theorem hold except the exactness of the coefficients
(see `ProdIn.coefs_lost_two_axes`), and the content along the second axis changes. -/
theorem production_not_conserving_two_axes :
    Fits {ex2A, ex2B} ProdIn.wit2 ex2Rx ex2Cl ∧ DofInj {ex2A, ex2B} ∧
    (∀ a ∈ ({ex2A, ex2B} : Finset (Cluster 2)), a.WF) ∧ ProdIn.wit2.WF ∧
    totalContent {ex2A, ex2B} 1 (netOf (ex2Rx.computeFlux fun n => if n = 3 then 0 else 1)) ≠ 0 := by
  refine ⟨?_, by constructor <;> decide, ?_, ProdIn.wit2_wf, by decide +kernel⟩
  · exact {
      mem := fun q a h => by cases q <;> simp [ex2Cl] at h <;> simp [← h]
      id := fun q => by cases q <;> rfl
      mom := fun q k => by cases q <;> rfl
      vol := fun q a h => by
        cases q <;> simp [ex2Cl] at h <;> subst h <;> decide +kernel
      reg := fun q a h => by cases q <;> simp [ex2Cl] at h <;> subst h <;> rfl
      dummy := fun q h k => by cases q <;> simp [ex2Cl] at h <;> rfl
      disp := fun q a k m h _ => by
        cases q <;> simp [ex2Cl] at h <;> subst h <;> fin_cases k <;> simp_all [ex2B] <;>
          decide +kernel
      prod1 := rfl
      prod2 := rfl
      coefs := rfl }
  · intro a ha
    simp only [Finset.mem_insert, Finset.mem_singleton] at ha
    rcases ha with rfl | rfl <;>
      exact ⟨fun k => by simp [ex2A, ex2B], fun k => by simp [ex2A, ex2B]⟩

end Fits

end Xolotl.Network
