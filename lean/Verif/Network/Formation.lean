import Verif.Network.NeFile
import Verif.Network.Fuel

/-!
# Formation energies of the fuel network

Model of the part of `NEReactionNetwork::readReactions` that finds the formation energies of the interstitial, of one and two vacancies and of the xenon atom:
`/repo/xolotl/core/include/xolotl/core/network/impl/NEReactionNetwork.tpp:48-150, 277-304`, with the setters of `/repo/xolotl/core/include/xolotl/core/network/detail/ClusterData.h:236-286`.

The lines are numbers already, and their first three numbers whole; the line itself is read by `NeFile.entry`. `findCluster` is an arbitrary function from compositions (xenon, vacancies, interstitials) to clusters, `none` when there is none, so that
a group may hold several compositions. Not modelled: the lines about reactions between the clusters and the lookups (they leave all of this as it is), `migrationEnergy` (always 0 after a line), the text of the file.
Trusted: a Kokkos view starts with zeros, `UnorderedMap::insert` leaves an existing key as it is, `find` of a missing key gives a position outside the map. `none` as a result stands for undefined behaviour.
-/

namespace Xolotl.Network.Formation

open Xolotl.Network.NeFile

/-- A composition: xenon, vacancies, interstitials. -/
abbrev Comp := ℕ × ℕ × ℕ

/-- A line about a cluster: the composition of its first three numbers, and all the numbers.  NEReactionNetwork.tpp:94-97. -/
structure Row where
  comp : Comp
  nums : List ℝ

/-- What the loop over the lines keeps: `fileClusterMap`, `g0Vector` as far as written, `diffusionFactor`. -/
structure Seen where
  pos : ℕ → Option ℕ
  g : List ℝ
  factor : ℕ → ℝ

/-- One line. A cluster outside the network is written at an invalid index.  NEReactionNetwork.tpp:93-142. -/
noncomputable def step (T : ℝ) (find : Comp → Option ℕ) (s : Seen) (r : Row) : Option Seen := do
  let e ← entry T r.nums
  let id ← find r.comp
  pure { pos := fun k => if k = id ∧ s.pos k = none then some s.g.length else s.pos k,
         g := s.g ++ [e.g],
         factor := fun k => if k = id then diffusivity T e else s.factor k }

/-- The loop over the lines about clusters; `f` are the diffusion factors before.  NEReactionNetwork.tpp:73-150. -/
noncomputable def readRows (T : ℝ) (find : Comp → Option ℕ) (f : ℕ → ℝ) (rows : List Row) : Option Seen := rows.foldlM (step T find) ⟨fun _ => none, [], f⟩

/-- The lookup of one composition.  NEReactionNetwork.tpp:280-283. -/
def energyOf (find : Comp → Option ℕ) (s : Seen) (c : Comp) : Option ℝ := do
  let id ← find c
  let m ← s.pos id
  s.g[m]?

/-- The formation energies after a file with these lines.  NEReactionNetwork.tpp:277-304. -/
noncomputable def formation (T : ℝ) (find : Comp → Option ℕ) (f : ℕ → ℝ) (rows : List Row) : Option (Fuel.Energies ℝ) := do
  let s ← readRows T find f rows
  let i ← energyOf find s (0, 0, 1)
  let v ← energyOf find s (0, 1, 0)
  let v2 ← energyOf find s (0, 2, 0)
  let xe ← energyOf find s (1, 0, 0)
  pure ⟨i, v, v2, xe⟩

/-- With or without a file that can be opened; the values of the cluster data start with zeros.  NEReactionNetwork.tpp:56-63, ClusterData.h:392. -/
noncomputable def energies (T : ℝ) (find : Comp → Option ℕ) (f : ℕ → ℝ) : Option (List Row) → Option (Fuel.Energies ℝ)
  | none => some ⟨0, 0, 0, 0⟩
  | some rows => formation T find f rows

end Xolotl.Network.Formation
