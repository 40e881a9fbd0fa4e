import Verif.Network.Simple
import Verif.Network.Updates

/-!
# The whole network

Model of `computeAllFluxes` and `computeAllPartials`
(`/repo/xolotl/core/include/xolotl/core/network/impl/ReactionNetwork.tpp:545-586`), of `getLeftSideRate` (628-643) and of the PSI pre-processing
(`impl/PSIReactionNetwork.tpp:137-160, 319-335`). All reactions run concurrently (`Kokkos::parallel_for` in `forEach`,
`detail/MultiElementCollection.h`); each performs a sequence of atomic updates of the output array, so that one execution is an interleaving of the
update sequences of all reactions.
-/

namespace Xolotl.Network

/-- `l` is a possible interleaving of the threads `ts`: at every step some thread performs its next operation. -/
inductive Interleaves {α : Type*} : List (List α) → List α → Prop
  | done {ts : List (List α)} (h : ∀ t ∈ ts, t = []) : Interleaves ts []
  | step (pre post : List (List α)) (a : α) (t l : List α)
      (h : Interleaves (pre ++ t :: post) l) : Interleaves (pre ++ (a :: t) :: post) (a :: l)

/-- A reaction of any of the types of the networks. -/
inductive Rxn (d : ℕ) (K : Type*)
  | prod (r : ProdRxn d K)
  | diss (r : DissRxn d K)
  | resol (r : DissRxn d K)
  | tm (r : TmRxn K)
  | nuc (r : NucRxn K)
  | sink (r : SinkRxn K)

namespace Rxn

variable {d : ℕ} {K : Type*} [Field K] [LinearOrder K]

/-- `contributeFlux` -/
def flux (t : TmData K) (c : ℕ → K) : Rxn d K → List (ℕ × K)
  | prod r => r.computeFlux c
  | diss r => r.computeFlux c
  | resol r => r.computeFlux c
  | tm r => r.computeFlux t c
  | nuc r => r.computeFlux c
  | sink r => r.computeFlux c

/-- `contributePartialDerivatives` -/
def partials (t : TmData K) (c : ℕ → K) : Rxn d K → List ((ℕ × ℕ) × K)
  | prod r => r.computePartials c
  | diss r => r.computePartials
  | resol r => r.computePartials
  | tm r => r.computePartials t
  | nuc r => r.computePartials c
  | sink r => r.computePartials

/-- `contributeConnectivity` -/
def connectivity : Rxn d K → List (ℕ × ℕ)
  | prod r => r.computeConnectivity
  | diss r => r.computeConnectivity
  | resol r => r.computeConnectivity
  | tm r => r.computeConnectivity
  | nuc r => r.computeConnectivity
  | sink r => r.computeConnectivity

/-- `contributeLeftSideRate`; every type but production and dissociation returns 0 (`ReSolutionReaction.tpp:720-728`, `TrapMutationReaction.tpp:201-208`,
`NucleationReaction.h:115-121`, `SinkReaction.h:145-151`). -/
def leftSideRate (c : ℕ → K) (n : ℕ) : Rxn d K → K
  | prod r => r.leftSideRate c n
  | diss r => r.leftSideRate n
  | _ => 0

end Rxn

/-- A network: its reactions and the trap-mutation data. -/
structure Network (d : ℕ) (K : Type*) where
  rxns : List (Rxn d K)
  /-- `_enableTrapMutation` -/
  enableTm : Bool
  tmData : TmData K

namespace Network

variable {d : ℕ} {K : Type*} [Field K] [LinearOrder K] (N : Network d K)

/-- `getLeftSideRate`: a sum over all reactions; an invalid id matches no reaction. -/
def leftSideRate (c : ℕ → K) (n : Option ℕ) : K :=
  match n with
  | none => 0
  | some n => (N.rxns.map (Rxn.leftSideRate c n)).sum

/-- `computeFluxesPreProcess` / `computePartialsPreProcess`. -/
def preProcess (c : ℕ → K) (depth spacing : K) : TmData K :=
  if N.enableTm then
    { N.tmData with leftSide := N.leftSideRate c N.tmData.desorpId }.select depth spacing
  else N.tmData

/-- The concurrent threads of `computeAllFluxes`. -/
def fluxThreads (c : ℕ → K) (depth spacing : K) : List (List (ℕ × K)) :=
  N.rxns.map (Rxn.flux (N.preProcess c depth spacing) c)

/-- The concurrent threads of `computeAllPartials` (full Jacobian). -/
def partialThreads (c : ℕ → K) (depth spacing : K) : List (List ((ℕ × ℕ) × K)) :=
  N.rxns.map (Rxn.partials (N.preProcess c depth spacing) c)

end Network

end Xolotl.Network
