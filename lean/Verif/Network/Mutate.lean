import Verif.Network.Assemble
import Verif.Network.TrapMutationTables

/-!
# Modified trap mutation in the assembled tungsten network

The tungsten network of `Verif.Network.Assemble` together with the reactions of modified trap mutation that its generator adds
(`/repo/xolotl/core/include/xolotl/core/network/impl/PSIReactionNetwork.tpp:617-637`, the answers for one pair are `psiModified` of `Verif.Network.Dispatch`) with the data their constructor reads
(`impl/TrapMutationReaction.tpp:11-25`) and the tables of the surfaces (`detail/PSITrapMutation.h`, `Verif.Network.TrapMutationTables`; copied to the generator by `PSIReactionNetwork.tpp:398-415`).

A reaction that holds the invalid id in place of an interstitial cluster writes outside the arrays when it takes part: such networks have no value here. The rates are any numbers.
-/

namespace Xolotl.Network.Dispatch

open Xolotl.Network Xolotl.Network.Products Xolotl.Network.Reflect

variable {σ : Type} [DecidableEq σ] {sp : List σ} {K : Type*} [Field K] [LinearOrder K]

/-- `_tmVSizes[n - 1]` for `n` helium atoms.  PSIReactionNetwork.tpp:398-415. -/
def tmSizes (m : TmMaterial) (n : ℤ) : List ℤ := if h : 1 ≤ n ∧ n ≤ 7 then (m.allVSizes ⟨n.toNat - 1, by omega⟩).map (fun s : ℕ => (s : ℤ)) else []

/-- The sets of clusters `{i, j, iClusterId}` passed to `addTrapMutationReaction`; the generator is called for `i ≤ j`.  PSIReactionNetwork.tpp:617-637, detail/impl/ReactionGenerator.tpp:36-57. -/
def mutations (he : σ) (vs : ℤ → List ℤ) (N : Net σ sp) (mob : ℕ → Bool) : List (ℕ × ℕ × Option ℕ) :=
  (List.range N.n).flatMap fun i => ((List.range N.n).filter fun j => decide (i ≤ j)).flatMap fun j => (psiModified he vs N (mob i) (mob j) (N.cl i) (N.cl j)).map fun q => (i, j, q)

/-- The constructor: amounts of helium and vacancies of the second cluster.  TrapMutationReaction.tpp:11-25. The amount of helium is 1 to 7 (PSIReactionNetwork.tpp:620-621); only its place in the tables is kept. -/
def mkTm (he : σ) (N : Net σ sp) (rate : ℕ → ℕ → ℕ → K) (i j k : ℕ) : TmRxn K := ⟨i, j, k, Fin.ofNat 7 ((((N.cl j).g he).b).toNat - 1), ((N.cl j).v.b).toNat, rate i j k⟩

/-- One reaction; none with an invalid cluster. -/
def mkMut (he : σ) (N : Net σ sp) (rate : ℕ → ℕ → ℕ → K) (u : ℕ × ℕ × Option ℕ) : Option (Rxn (sp.length + 1) K) := u.2.2.map fun k => .tm (mkTm he N rate u.1 u.2.1 k)

/-- The reactions of modified trap mutation, if none of them holds an invalid cluster. -/
def mutRxns (he : σ) (vs : ℤ → List ℤ) (N : Net σ sp) (rate : ℕ → ℕ → ℕ → K) (mob : ℕ → Bool) : Option (List (Rxn (sp.length + 1) K)) := (mutations he vs N mob).mapM (mkMut he N rate)

/-- The tungsten network when modified trap mutation is enabled (PSIReactionNetwork.tpp:618). -/
def psiAll (he : σ) (vs : ℤ → List ℤ) (N : Net σ sp) (mom : ℕ → Fin (sp.length + 1) → Option ℕ) (R : Rates K) (rate : ℕ → ℕ → ℕ → K) (mob : ℕ → Bool) : Option (List (Rxn (sp.length + 1) K)) :=
  (mutRxns he vs N rate mob).map fun l => psiRxns he N mom R mob ++ l

end Xolotl.Network.Dispatch
