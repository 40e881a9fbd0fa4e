import Verif.Network.Constant
import Verif.Network.Pattern

/-!
# Networks with constant reactions

The networks of zirconium and of alloys may be parts of a larger network; they then hold, besides their own reactions, constant reactions whose rates the larger network delivers
(`/repo/xolotl/core/include/xolotl/core/network/ConstantReaction.h`, in the model of `Constant.lean`).  Here both are put together: the reaction collection
(`detail/ReactionCollection.h`) calls every reaction of every type.
-/

namespace Xolotl.Network.Pattern

open Xolotl.Network Xolotl.Network.Conn

variable {d : ℕ} {K : Type*} [Field K] [LinearOrder K]

/-- A network with constant reactions and the array of their rates (`ReactionNetwork::setConstantRates`, which keeps it in each reaction, `ConstantReaction::setRate`).
ConstantReaction.h:86-123, impl/ReactionNetwork.tpp:451-456. -/
structure Joined (d : ℕ) (K : Type*) where
  net : Network d K
  consts : List (ConstRxn d)
  rates : ℕ × Option ℕ → K

/-- The calls of `add` of the constant reactions.  ConstantReaction.h:133-177, detail/impl/ReactionGenerator.tpp:188-201, 232-244. -/
def constRequests (cs : List (ConstRxn d)) : List (List (Option ℕ × Option ℕ)) := cs.map fun r => r.computeConnectivity.map fun u => (some u.1, some u.2)

namespace Joined

/-- The calls of `add` of all reactions. -/
def requests (N : Joined d K) : List (List (Option ℕ × Option ℕ)) := Pattern.requests N.net.rxns ++ constRequests N.consts

/-- The updates of `computeAllFluxes`, one list for each reaction; the left side rate of a constant reaction is zero.  impl/ReactionNetwork.tpp:544-557, ConstantReaction.h:199-242, 317-323. -/
def fluxThreads (N : Joined d K) (c : ℕ → K) (depth spacing : K) : List (List (ℕ × K)) := N.net.fluxThreads c depth spacing ++ N.consts.map fun r => r.computeFlux N.rates c

/-- The updates of `computeAllPartials`.  impl/ReactionNetwork.tpp:559-586, ConstantReaction.h:244-273. -/
def partialThreads (N : Joined d K) (c : ℕ → K) (depth spacing : K) : List (List ((ℕ × ℕ) × K)) := N.net.partialThreads c depth spacing ++ N.consts.map fun r => r.computePartials N.rates

end Joined

end Xolotl.Network.Pattern
