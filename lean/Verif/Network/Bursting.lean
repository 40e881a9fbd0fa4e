import Verif.Network.Totals
import Verif.Network.Species

/-!
# Bursting

Model of `PSIReactionNetwork::updateBurstingConcs`: the change of the concentrations at one grid point, and the account of the released gas, when a bubble opens to the surface.  The composition search of the network (`findCluster`) returns the cluster whose box contains the composition; using the invalid cluster it returns otherwise is undefined behaviour, `none` here.
-/

namespace Xolotl.Network.Bursting

open Totals

variable {d : ℕ} {K : Type*} [Field K] [LinearOrder K] [IsStrictOrderedRing K]

/-- The axes of a network: the gas species it has (He, then D, then T), the vacancy and the interstitial.  xolotl/core/include/xolotl/core/network/PSITraits.h:56-324. -/
structure Axes (d : ℕ) where
  gas : List (Fin d)
  v : Fin d
  i : Fin d

/-- What the function changes: the concentrations at the grid point and the released amounts. -/
structure State (d : ℕ) (K : Type*) where
  c : ℕ → K
  burst : Fin d → K

/-- `clReg.isSimplex()`: a single composition. -/
def isSimplex (a : Cluster d) : Prop := ∀ k, (a.reg k).e = (a.reg k).b + 1

instance (a : Cluster d) : Decidable (isSimplex a) := by unfold isSimplex; infer_instance

/-- `clReg.getOrigin()`. -/
def origin (a : Cluster d) : Fin d → ℤ := fun k => (a.reg k).b

/-- `comp.isOnAxis(axis)`: nothing but that species. -/
def onAxis (n : Fin d → ℤ) (k : Fin d) : Prop := n k ≠ 0 ∧ ∀ j, j ≠ k → n j = 0

instance (n : Fin d → ℤ) (k : Fin d) : Decidable (onAxis n k) := by unfold onAxis; infer_instance

/-- `makeIntervalRange`. -/
def interval (I : Ival) : List ℤ := (List.range (I.e - I.b).toNat).map fun (j : ℕ) => I.b + j

/-- `vComp`: that number of vacancies and nothing else. -/
def vComp (v : Fin d) (j : ℤ) : Fin d → ℤ := fun k => if k = v then j else 0

/-- `findCluster`. -/
def find (net : List (Cluster d)) (n : Fin d → ℤ) : Option (Cluster d) := net.find? fun b => decide (∀ k, (b.reg k).b ≤ n k ∧ n k < (b.reg k).e)

/-- `x[i] += y`. -/
def addAt {α : Type*} [DecidableEq α] (f : α → K) (i : α) (y : K) : α → K := fun k => if k = i then f i + y else f k

/-- The transfer to the vacancy clusters of the sizes listed.  PSIReactionNetwork.tpp:218-226, 256-269. -/
def transfer (net : List (Cluster d)) (v : Fin d) (src : ℕ) (concFactor : K) : List ℤ → (ℕ → K) → Option (ℕ → K)
  | [], c => some c
  | j :: l, c =>
    match find net (vComp v j) with
    | none => none
    | some b => transfer net v src concFactor l (addAt c b.dof (c src * concFactor / ((b.reg v).len : K)))

/-- The released gas of a group, one species.  PSIReactionNetwork.tpp:235-239, 241-245, 248-252. -/
def releaseGroup (a : Cluster d) (x factor : K) (burst : Fin d → K) (g : Fin d) : Fin d → K :=
  (interval (a.reg g)).foldl (fun (burst : Fin d → K) (j : ℤ) => addAt burst g (x * (j : K) * Totals.factor a g * factor)) burst

/-- A moment that is valid is set to zero. -/
def clearMoment (c : ℕ → K) : Option ℕ → ℕ → K
  | some m => fun x => if x = m then 0 else c x
  | none => c

/-- The moments that are valid are set to zero.  PSIReactionNetwork.tpp:273-278. -/
def clearMoments (a : Cluster d) (c : ℕ → K) : ℕ → K := (List.finRange d).foldl (fun c k => clearMoment c (a.mom k)) c

/-- `gridPointSolution[i] = 0.0`. -/
def clear (a : Cluster d) (c : ℕ → K) : ℕ → K := fun x => if x = a.dof then 0 else c x

/-- The body of the loop over the clusters.  xolotl/core/include/xolotl/core/network/impl/PSIReactionNetwork.tpp:169-279.  Simplification: the transfer of a single composition is written with the factor 1. -/
def step (net : List (Cluster d)) (ax : Axes d) (factor : K) (a : Cluster d) (s : State d K) : Option (State d K) :=
  if isSimplex a then
    match ax.gas.find? fun g => decide (onAxis (origin a) g) with
    | some g => some ⟨clear a s.c, addAt s.burst g (s.c a.dof * (origin a g : K) * factor)⟩
    | none =>
      if ¬ onAxis (origin a) ax.v ∧ ¬ onAxis (origin a) ax.i then
        match transfer net ax.v a.dof 1 [origin a ax.v] s.c with
        | none => none
        | some c => some ⟨clear a c, ax.gas.foldl (fun (burst : Fin d → K) g => addAt burst g (s.c a.dof * (origin a g : K) * factor)) s.burst⟩
      else some s
  else
    match transfer net ax.v a.dof (Totals.factor a ax.v) (interval (a.reg ax.v)) s.c with
    | none => none
    | some c => some ⟨clearMoments a (clear a c), ax.gas.foldl (releaseGroup a (s.c a.dof) factor) s.burst⟩

/-- The loop over the clusters listed. -/
def run (net : List (Cluster d)) (ax : Axes d) (factor : K) : List (Cluster d) → State d K → Option (State d K)
  | [], s => some s
  | a :: l, s =>
    match step net ax factor a s with
    | none => none
    | some s => run net ax factor l s

/-- `updateBurstingConcs`.  PSIReactionNetwork.tpp:161-281. -/
def updateBurstingConcs (net : List (Cluster d)) (ax : Axes d) (factor : K) (s : State d K) : Option (State d K) :=
  run net ax factor net s

/-- The entry of the account, of the three He, D and T, that the monitor takes the released amount of a species from or for: `nBurst[toIndex(species)]` for the writer, `globalBurst[0]`, `[1]`, `[2]` for the reader.  xolotl/solver/src/monitor/PetscMonitor1D.cpp:1878, 1908-1913. -/
def accountIndex (n : Species.Kind) (label : String) : ℕ := n.labels.findIdx (· == label)

end Xolotl.Network.Bursting
