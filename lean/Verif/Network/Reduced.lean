import Verif.Network.Pattern
import Verif.Util.Tokenizer

/-!
# The matrix with `-snes_mf_operator`

Model of the path of the derivatives when the arguments for PETSc hold `-snes_mf_operator`: the decision in the constructor of the network
(`/repo/xolotl/core/include/xolotl/core/network/impl/ReactionNetwork.tpp:55-65`, kept by the generator, `detail/impl/ReactionGenerator.tpp:18`), the connectivity from `contributeReducedConnectivity`
(`detail/impl/ReactionGenerator.tpp:188-194, 232-238`), and the derivatives from `contributeReducedPartialDerivatives` (`impl/ReactionNetwork.tpp:568-575`). What the reactions do there is in
`Verif.Network.Production`, `Dissociation` and `Simple`; the counting, the filling, the positions and the matrix are those of `Verif.Network.Pattern`.

An element of `_connEntries` that `mapJacobianEntries` does not set (`impl/Reaction.tpp:3000-3043`) is indeterminate (`util::Array` and `Kokkos::Array` do not initialise, `/repo/xolotl/util/include/xolotl/util/Array.h:22-23`):
an update through it makes the evaluation undefined.
-/

namespace Xolotl.Network

variable {d : ℕ} {K : Type*} [Field K] [LinearOrder K]

/-- `contributeReducedPartialDerivatives`; `none` in place of the entry if it was never mapped.  Reaction.h:132-139. -/
def Rxn.reducedPartials (t : TmData K) (c : ℕ → K) : Rxn d K → List (Option (ℕ × ℕ) × K)
  | .prod r => (r.computeReducedPartials c).map fun u => (some u.1, u.2)
  | .diss r => r.computeReducedPartials
  | .resol r => r.computeReducedPartials
  | .tm r => (r.computeReducedPartials t).map fun u => (some u.1, u.2)
  | .nuc r => (r.computeReducedPartials c).map fun u => (some u.1, u.2)
  | .sink r => r.computePartials.map fun u => (some u.1, u.2)

/-- `contributeReducedConnectivity`.  Reaction.h:100-105. -/
def Rxn.reducedConnectivity : Rxn d K → List (ℕ × ℕ)
  | .prod r => r.computeReducedConnectivity
  | .diss r => r.computeReducedConnectivity
  | .resol r => r.computeReducedConnectivity
  | .tm r => r.computeReducedConnectivity
  | .nuc r => r.computeReducedConnectivity
  | .sink r => r.computeConnectivity

namespace Reduced

open Xolotl.Network.Conn

/-- The decision from the arguments for PETSc: some token is the option.  ReactionNetwork.tpp:56-65. -/
def chosen (args : List Char) : Bool := (Util.Tokenizer.tokens args).any fun t => decide (t = "-snes_mf_operator".toList)

/-- The calls of `add`.  detail/impl/ReactionGenerator.tpp:188-201, 232-244. -/
def requests (reduced : Bool) (rxns : List (Rxn d K)) : List (List (Option ℕ × Option ℕ)) :=
  if reduced then rxns.map fun r => r.reducedConnectivity.map fun u => (some u.1, some u.2) else Pattern.requests rxns

/-- The concurrent threads of `computeAllPartials`.  ReactionNetwork.tpp:561-583. -/
def threads (reduced : Bool) (M : Network d K) (c : ℕ → K) (depth spacing : K) : List (List (Option (ℕ × ℕ) × K)) :=
  if reduced then M.rxns.map (Rxn.reducedPartials (M.preProcess c depth spacing) c) else (M.partialThreads c depth spacing).map fun t => t.map fun u => (some u.1, u.2)

/-- The updates with the positions found at set up; `none` if an element was never set or there is no such position. -/
def place (C : Crs) (us : List (Option (ℕ × ℕ) × K)) : Option (List (ℕ × K)) := us.mapM fun u => u.1.bind fun e => (C.getPosition e.1 e.2).map fun p => (p, u.2)

end Reduced

end Xolotl.Network
