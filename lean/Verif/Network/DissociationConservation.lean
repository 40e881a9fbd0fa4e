import Verif.Network.DissociationProps

/-!
# C05: dissociation and re-solution conserve the content of the network
-/

set_option linter.unusedSectionVars false

namespace Xolotl.Network

variable {d : ℕ} {K : Type*} [Field K] [LinearOrder K] [IsStrictOrderedRing K]

/-- The reaction `r`, whose coefficients were computed from `g`, splits the cluster `cl .r` of the network into
`cl .p1` and `cl .p2`. -/
structure DFits (net : Finset (Cluster d)) (g : DissIn d K) (r : DissRxn d K)
    (cl : DSlot → Cluster d) : Prop where
  mem : ∀ q, cl q ∈ net
  id : ∀ q, r.id q = (cl q).dof
  mom : ∀ q k, r.mom q k = (cl q).mom k
  vol : ∀ q, r.vol q = (cl q).vol
  reg : g.c = (cl .r).reg ∧ g.p1 = (cl .p1).reg ∧ g.p2 = (cl .p2).reg
  disp : ∀ k, ((cl .r).mom k ≠ none → g.dc k = (cl .r).var k) ∧
    ((cl .p1).mom k ≠ none → g.dp1 k = (cl .p1).var k) ∧
    ((cl .p2).mom k ≠ none → g.dp2 k = (cl .p2).var k)
  coefs : r.coefs = g.coefs

namespace DFits

variable {net : Finset (Cluster d)} {g : DissIn d K} {r : DissRxn d K} {cl : DSlot → Cluster d}

/-- Weighted contribution of the equations of one participant. -/
def term (W : ℕ → K) (c : ℕ → K) (r : DissRxn d K) (q : DSlot) : K :=
  W (r.id q) * (r.fluxOf c .r none / r.vol q) +
  ∑ i, (r.mom q i).elim 0 W * (r.fluxOf c q (some i) / r.vol q)

theorem wsum_flux (W : ℕ → K) (c : ℕ → K) (r : DissRxn d K) :
    wsum W (r.computeFlux c) = -term W c r .r + term W c r .p1 + term W c r .p2 := by
  simp only [DissRxn.computeFlux, wsum_append, wsum_cons, wsum_nil, wsum_finRange, wsum_emit,
    term, Finset.sum_add_distrib, mul_neg, Finset.sum_neg_distrib]
  ring

theorem reg_eq (hf : DFits net g r cl) (q : DSlot) :
    g.toProd.reg (DissIn.slot q) = (cl q).reg := by
  obtain ⟨h1, h2, h3⟩ := hf.reg
  cases q <;> assumption

theorem disp_eq (hf : DFits net g r cl) (q : DSlot) (k : Fin d) (h : (cl q).mom k ≠ none) :
    g.toProd.disp (DissIn.slot q) k = (cl q).var k := by
  obtain ⟨h1, h2, h3⟩ := hf.disp k
  cases q
  · exact h1 h
  · exact h2 h
  · exact h3 h

theorem term_eq (hf : DFits net g r cl) (hs : g.Splits) (hw : ∀ a ∈ net, a.WF) (hi : DofInj net)
    (k : Fin d) (c : ℕ → K) (q : DSlot) :
    term (weight net k) c r q = r.rate * ∑ α,
      (∑ x ∈ g.toProd.allQuads, g.toProd.dev .r1 α x * ((DissIn.slot q).part (x k) : K)) *
        r.u c α := by
  unfold term
  set a := cl q with hq
  have ha : a ∈ net := hf.mem q
  have hvol := a.vol_ne (K := K) (hw a ha)
  have h0 : ∀ α, r.coefs α .r none = ∑ x ∈ g.toProd.allQuads, g.toProd.dev .r1 α x := fun α => by
    rw [hf.coefs, g.diss_coefs_eq hs α .r none (fun _ => rfl)]
    simp [ProdIn.coefSpec, ProdIn.dispO, ProdIn.dev]
  have hsum : ∑ i, (r.mom q i).elim 0 (weight net k) * (r.fluxOf c q (some i) / r.vol q) =
      (a.mom k).elim 0 (fun _ => a.var k) * r.fluxOf c q (some k) := by
    rw [Finset.sum_eq_single k]
    · rw [hf.mom, hf.vol, ← hq]
      rcases hm : a.mom k with _ | m
      · simp
      · simp only [Option.elim_some]
        rw [weight_mom net hi k k ha hm, if_pos rfl]
        field_simp
    · intro i _ hne
      rw [hf.mom, ← hq]
      rcases hm : a.mom i with _ | m
      · simp
      · simp only [Option.elim_some]
        rw [weight_mom net hi k i ha hm, if_neg hne, zero_mul]
    · simp
  have hk : ∀ α, (a.mom k).elim 0 (fun _ => a.var k) * r.coefs α q (some k) =
      ∑ x ∈ g.toProd.allQuads, g.toProd.dev .r1 α x *
        g.toProd.dev (DissIn.slot q) (some k) x := fun α => by
    rcases hm : a.mom k with _ | m
    · simp only [Option.elim_none, zero_mul]
      refine (Finset.sum_eq_zero fun x hx => ?_).symm
      rw [ProdIn.dev_single _ hx _ k (by
        rw [hf.reg_eq, ← hq]; exact ((hw a ha).mom k).mp hm), mul_zero]
    · simp only [Option.elim_some]
      rw [hf.coefs, g.diss_coefs_eq hs α q (some k) (by simp), ProdIn.coefSpec, ProdIn.dispO]
      rw [hf.disp_eq q k (by rw [← hq, hm]; simp), ← hq]
      have := a.var_ne (K := K) (hw a ha) hm
      rw [mul_div_cancel₀ _ this]
      exact Finset.sum_congr rfl fun x _ => by simp [ProdIn.dev]
  have e1 : ∀ S : K, a.vol * (a.reg k).mid * (r.rate * S / a.vol) =
      r.rate * ((a.reg k).mid * S) := fun S => by field_simp
  rw [hsum, hf.id, ← hq, weight_dof net hi k ha, hf.vol, ← hq, r.diss_fluxOf_eq, r.diss_fluxOf_eq, e1,
    mul_left_comm ((a.mom k).elim 0 fun _ => a.var k), ← mul_add]
  congr 1
  rw [Finset.mul_sum, Finset.mul_sum, ← Finset.sum_add_distrib]
  refine Finset.sum_congr rfl fun α _ => ?_
  rw [← mul_assoc, ← mul_assoc, ← add_mul, hk, h0, Finset.mul_sum, ← Finset.sum_add_distrib]
  congr 1
  refine Finset.sum_congr rfl fun x _ => ?_
  have hreg := hf.reg_eq q
  simp only [ProdIn.dev, hreg, ← hq]
  ring

/-- **C05** A dissociation (or re-solution) reaction never changes the content of the network along any axis:
for every state, every grouping, any number of axes and all coincidences between the participants. -/
theorem dissociation_conserves (hf : DFits net g r cl) (hs : g.Splits) (hw : ∀ a ∈ net, a.WF)
    (hi : DofInj net) (k : Fin d) (c : ℕ → K) :
    totalContent net k (netOf (r.computeFlux c)) = 0 := by
  rw [totalContent_netOf net hw, wsum_flux]
  simp only [hf.term_eq hs hw hi k c]
  rw [← mul_neg, ← mul_add, ← mul_add, ← Finset.sum_neg_distrib, ← Finset.sum_add_distrib,
    ← Finset.sum_add_distrib, Finset.sum_eq_zero, mul_zero]
  intro α _
  rw [← neg_mul, ← add_mul, ← add_mul, ← Finset.sum_neg_distrib, ← Finset.sum_add_distrib,
    ← Finset.sum_add_distrib, Finset.sum_eq_zero, zero_mul]
  intro x hx
  have hm := (ProdIn.mem_allQuads _).mp hx k
  rw [ProdIn.axis, show x k = ((x k).1, (x k).2.1, (x k).2.2.1, (x k).2.2.2) from rfl,
    mem_quads] at hm
  simp only [DissIn.toProd, dummyIval] at hm
  have h5 : (x k).1 = (x k).2.2.1 + (x k).2.2.2 := by omega
  simp only [DissIn.slot, Slot.part, h5]
  push_cast
  ring

/-! ### A concrete case: `X_[4,7) → X_[1,4) + X_[2,4)` -/

/-- Groups. -/
def dA : Cluster 1 := ⟨0, fun _ => some 3, fun _ => ⟨4, 7⟩⟩
@[inherit_doc dA] def dB : Cluster 1 := ⟨1, fun _ => some 4, fun _ => ⟨1, 4⟩⟩
@[inherit_doc dA] def dC : Cluster 1 := ⟨2, fun _ => some 5, fun _ => ⟨2, 4⟩⟩

/-- Participants. -/
def dCl : DSlot → Cluster 1
  | .r => dA
  | .p1 => dB
  | .p2 => dC

/-- Input of the coefficients. -/
def dIn : DissIn 1 ℚ :=
  ⟨fun _ => ⟨4, 7⟩, fun _ => ⟨1, 4⟩, fun _ => ⟨2, 4⟩, fun _ => 2 / 3, fun _ => 2 / 3, fun _ => 1 / 4⟩

/-- The reaction. -/
def dRx : DissRxn 1 ℚ where
  id := fun q => (dCl q).dof
  mom := fun q k => (dCl q).mom k
  vol := fun q => match q with | .p2 => 2 | _ => 3
  rate := 5
  coefs := dIn.coefs

theorem dFits : DFits {dA, dB, dC} dIn dRx dCl where
  mem := fun q => by cases q <;> simp [dCl]
  id := fun q => rfl
  mom := fun q k => rfl
  vol := fun q => by cases q <;> decide +kernel
  reg := ⟨rfl, rfl, rfl⟩
  disp := fun k => by
    have hk : k = 0 := Subsingleton.elim _ _
    subst hk
    exact ⟨fun _ => by decide +kernel, fun _ => by decide +kernel, fun _ => by decide +kernel⟩
  coefs := rfl

example (c : ℕ → ℚ) : totalContent {dA, dB, dC} 0 (netOf (dRx.computeFlux c)) = 0 := by
  refine dFits.dissociation_conserves ?_ ?_ ?_ 0 c
  · exact fun i => ⟨(4, 0, 2, 2), by fin_cases i; decide +kernel⟩
  · intro a ha
    simp only [Finset.mem_insert, Finset.mem_singleton] at ha
    rcases ha with rfl | rfl | rfl <;>
      exact ⟨fun k => by simp [dA, dB, dC], fun k => by simp [dA, dB, dC]⟩
  · constructor <;> decide

/-- The reaction does move content. -/
example : netOf (dRx.computeFlux fun _ => 1) 0 ≠ 0 := by decide +kernel

end DFits

end Xolotl.Network
