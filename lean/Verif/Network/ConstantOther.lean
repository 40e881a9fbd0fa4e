import Verif.Network.Constant
import Verif.Network.Whole

/-!
# Constant rates of the other reactions

`computeConstantRates`, `mapRateEntries` and `getConstantConnectivities` of trap-mutation, re-solution, nucleation and sink reactions
(`/repo/xolotl/core/include/xolotl/core/network/impl/TrapMutationReaction.tpp:169-196`, `TrapMutationReaction.h:136-179`, `impl/ReSolutionReaction.tpp:547-717, 777-920`,
`ReSolutionReaction.h:105-111`, `NucleationReaction.h:99-111, 127-134`, `SinkReaction.h:128-141, 159-166`), and the position lookup `getPosition` (`Reaction.h:241-252`).

`ReSolutionReaction::computeConstantRates` is the text of `DissociationReaction::computeConstantRates`, with the same entry for the moments of the first product, so it is
`DissRxn.computeConstantRates`; `getConstantConnectivities` is empty.
-/

namespace Xolotl.Network

variable {d : ℕ} {K : Type*} [Field K] [LinearOrder K]

/-- `TrapMutationReaction::computeConstantRates` (TrapMutationReaction.tpp:169-196). The second test of the helium cluster (190-191) comes after the return for that case;
`mapRateEntries` (TrapMutationReaction.h:158-179) makes the same tests. -/
def TmRxn.computeConstantRates (r : TmRxn K) (t : TmData K) (inS : ℕ → Bool) (c : ℕ → K) : List ((ℕ × Option ℕ) × K) :=
  if !r.enabled t then []
  else if inS r.he then []
  else if !inS r.heV && !inS r.i then []
  else
    let f := r.appliedRate t * c r.he
    emitIf (inS r.he) (some (r.he, none)) f ++ emitIf (inS r.i) (some (r.i, none)) f

namespace Rxn

/-- `contributeConstantRates` for every type of reaction. -/
def constantRates (t : TmData K) (inS : ℕ → Bool) (unset : ℕ × Option ℕ) (c : ℕ → K) : Rxn d K → List ((ℕ × Option ℕ) × K)
  | prod r => r.computeConstantRates inS c
  | diss r => r.computeConstantRates inS unset c
  | resol r => r.computeConstantRates inS unset c
  | tm r => r.computeConstantRates t inS c
  | nuc _ => []
  | sink _ => []

/-- `contributeConstantConnectivities`: only production and dissociation announce anything. -/
def constConnectivities (inS : ℕ → Bool) : Rxn d K → List (ℕ × Option ℕ)
  | prod r => r.constConnectivities inS
  | diss r => r.constConnectivities inS
  | resol _ => []
  | tm _ => []
  | nuc _ => []
  | sink _ => []

end Rxn

/-- `getPosition` (Reaction.h:241-252) for the entries of one row: the place of the column, `none` for `invalidIndex`. -/
def getPosition (row : List ℕ) (col : ℕ) : Option ℕ := row.findIdx? (· == col)

/-- A row of the stored connectivity of a sub-network with `dof` degrees of freedom: the announced columns of that row, `dof` being the constant column. -/
def announced (conns : List (ℕ × Option ℕ)) (dof row : ℕ) : List ℕ := (conns.filter fun p => p.1 == row).map fun p => p.2.getD dof

/-- Where a re-solution reaction looks for the constant column: `connectivityRow.extent(0) - 1` (ReSolutionReaction.tpp:886-897). -/
def resolConstPosition (conns : List (ℕ × Option ℕ)) (subDof row : ℕ) : Option ℕ := getPosition (announced conns subDof row) subDof

/-- Where a trap mutation looks for it: `isInSub.extent(0)` (TrapMutationReaction.h:171-178), the degrees of freedom of the *full* network (ReactionNetwork.tpp:409, 420). -/
def tmConstPosition (conns : List (ℕ × Option ℕ)) (subDof fullDof row : ℕ) : Option ℕ := getPosition (announced conns subDof row) fullDof

/-- `computeReducedConnectivity` of a constant reaction (ConstantReaction.h:179-197). -/
def ConstRxn.computeReducedConnectivity (r : ConstRxn d) : List (ℕ × ℕ) :=
  (r.r1, r.r1) :: (List.finRange d).flatMap fun i => ((r.mom1 i).map fun m => (m, m)).toList

end Xolotl.Network
