import Verif.Network.Rates

/-!
# Rates read from a file, fission gas network

Model of `NEReactionNetwork::readReactions` after the lines have been cut into numbers, and of the rates of the reactions of that network: `NEProductionReaction::computeRate`, `NEDissociationReaction::computeRate`, the thermal source of a recombination, `NESinkReaction::computeFlux`.

Doubles are real numbers.  A line about a reaction that names a cluster without a line of its own is outside the model, as is a line about a cluster outside the network.  `none` stands for undefined behaviour: a read outside the numbers of a line, or `value_at(find(id))` of a cluster that is not in the map.
-/

namespace Xolotl.Network.NeFile

open Real Xolotl.Network.Rates

/-! ## Reading the clusters -/

/-- A linked state of a cluster: its diffusivity and its free energy.  xolotl/core/include/xolotl/core/network/impl/NEReactionNetwork.tpp:80-81. -/
structure Link where
  /-- `first` -/
  diff : ℝ
  /-- `second` -/
  g : ℝ

/-- One state, from enthalpy, entropy, diffusion factor and migration energy.  xolotl/core/include/xolotl/core/network/impl/NEReactionNetwork.tpp:104-111, 118-123. -/
noncomputable def link (T h s d q : ℝ) : Link := ⟨d * exp (-q / (kB * T)), h - kB * T * s⟩

/-- The linked states after the seventh number, four numbers each; a rest of one to three numbers is read past the end.  xolotl/core/include/xolotl/core/network/impl/NEReactionNetwork.tpp:116-124. -/
noncomputable def links (T : ℝ) : List ℝ → Option (List Link)
  | [] => some []
  | h :: s :: d :: q :: rest => (links T rest).map (link T h s d q :: ·)
  | _ => none

/-- The loop for the smallest free energy: value, position, next position.  xolotl/core/include/xolotl/core/network/impl/NEReactionNetwork.tpp:113, 126-130. -/
noncomputable def smallest (first : Link) (rest : List Link) : ℝ × ℕ :=
  let r := rest.foldl (fun (acc : (ℝ × ℕ) × ℕ) l => (if l.g < acc.1.1 then (l.g, acc.2) else acc.1, acc.2 + 1)) ((first.g, 0), 1)
  r.1

/-- What is kept of a line about a cluster. -/
structure Entry where
  /-- `lVector[count]` -/
  states : List Link
  /-- `g0Vector[count]` -/
  g : ℝ
  /-- `smallestG0Id[count]` -/
  low : ℕ

/-- A line about a cluster; the first three numbers are the composition.  xolotl/core/include/xolotl/core/network/impl/NEReactionNetwork.tpp:92-131. -/
noncomputable def entry (T : ℝ) : List ℝ → Option Entry
  | _ :: _ :: _ :: h :: s :: d :: q :: rest => do
    let l ← links T rest
    let first := link T h s d q
    let m := smallest first l
    pure ⟨first :: l, m.1, m.2⟩
  | _ => none

/-- The diffusivity with all the states.  xolotl/core/include/xolotl/core/network/impl/NEReactionNetwork.tpp:135-139, 178-181. -/
noncomputable def diffusivity (T : ℝ) (e : Entry) : ℝ :=
  e.states.foldl (fun acc l => acc + l.diff * exp ((e.g - l.g) / (kB * T))) 0

/-! ## Reading the reactions -/

/-- `constantRates` and `_reactionEnergies`; clusters are positions in the file. -/
structure Tables where
  /-- `constantRates(a, b, 0)` and `constantRates(a, b, 1)` -/
  rate : ℕ → ℕ → Fin 2 → ℝ
  /-- `reactionEnergies(a, b)` -/
  energy : ℕ → ℕ → ℝ

/-- Both tables are created with zeros.  xolotl/core/include/xolotl/core/network/NETraits.h:142-146, impl/NEReactionNetwork.tpp:66-69. -/
def Tables.zero : Tables := ⟨fun _ _ _ => 0, fun _ _ => 0⟩

/-- Set the rate `s` of a pair in both orders.  xolotl/core/include/xolotl/core/network/impl/NEReactionNetwork.tpp:203-206, 238-239, 262-263. -/
def Tables.setRate (t : Tables) (a b : ℕ) (s : Fin 2) (x : ℝ) : Tables :=
  { t with rate := fun i j k => if k = s ∧ ((i = a ∧ j = b) ∨ (i = b ∧ j = a)) then x else t.rate i j k }

/-- Set the energy of a pair in both orders.  xolotl/core/include/xolotl/core/network/impl/NEReactionNetwork.tpp:207-208, 268-269. -/
def Tables.setEnergy (t : Tables) (a b : ℕ) (x : ℝ) : Tables :=
  { t with energy := fun i j => if (i = a ∧ j = b) ∨ (i = b ∧ j = a) then x else t.energy i j }

/-- The rate of the bare pair.  xolotl/core/include/xolotl/core/network/impl/NEReactionNetwork.tpp:221-236. -/
noncomputable def pairRate (T : ℝ) (a b : Entry) : ℝ :=
  a.states.foldl (fun acc i => b.states.foldl (fun acc j =>
    acc + (i.diff + j.diff) * exp ((a.g - i.g) / (kB * T)) * exp ((b.g - j.g) / (kB * T))) acc) 0

/-- The rate with the states of the product.  xolotl/core/include/xolotl/core/network/impl/NEReactionNetwork.tpp:247-261. -/
noncomputable def productRate (T : ℝ) (a b z : Entry) : ℝ :=
  a.states.foldl (fun acc i => b.states.foldl (fun acc j => z.states.foldl (fun acc k =>
    acc + (i.diff + j.diff) * exp ((z.g - k.g) / (kB * T))) acc) acc) 0

/-- A line about a reaction. -/
inductive Line
  /-- four numbers: position of the cluster and coefficient -/
  | sink (a : ℕ) (coef : ℝ)
  /-- ten numbers: positions of the reactants, position of the product when it is in the network, and whether the last number is different from 0 -/
  | pair (a b : ℕ) (prod : Option ℕ) (on : Bool)

/-- One line, in a file of `n` clusters.  xolotl/core/include/xolotl/core/network/impl/NEReactionNetwork.tpp:158-270. -/
noncomputable def readLine (T : ℝ) (n : ℕ) (es : ℕ → Entry) (t : Tables) : Line → Tables
  | .sink a coef =>
    { rate := fun i j k => if i = a ∧ j = n then
        (if k = 1 then coef * ((es a).states.getD (es a).low ⟨0, 0⟩).diff else coef * diffusivity T (es a)) else t.rate i j k,
      energy := fun i j => if i = a ∧ j = n then -(es a).g else t.energy i j }
  | .pair a b prod on =>
    if !on then (((t.setRate a b 0 0).setRate a b 1 0).setEnergy a b 0)
    else
      let t := t.setRate a b 0 (1 * pairRate T (es a) (es b))
      match prod with
      | none => t.setEnergy a b (-(es a).g - (es b).g)
      | some z => (t.setRate a b 1 (1 * productRate T (es a) (es b) (es z))).setEnergy a b (-(es a).g - (es b).g + (es z).g)

/-- All the lines. -/
noncomputable def readLines (T : ℝ) (n : ℕ) (es : ℕ → Entry) (ls : List Line) : Tables := ls.foldl (readLine T n es) .zero

/-! ## Rates of the reactions -/

/-- What the reactions look at. -/
structure Data where
  /-- `constantRates` and the reaction energies -/
  tables : Tables
  /-- `fileClusterMap` -/
  map : ℕ → Option ℕ
  /-- `getReactionRadius` -/
  radius : ℕ → ℝ
  /-- `getDiffusionFactor` -/
  factor : ℕ → ℝ
  /-- `migrationEnergy`; `none` is infinity -/
  migration : ℕ → Option ℝ
  /-- `atomicVolume` -/
  omega : ℝ
  /-- `temperature(gridIndex)` -/
  T : ℝ

/-- `NEClusterUpdater::updateDiffusionCoefficient`.  xolotl/core/include/xolotl/core/network/impl/NEReactionNetwork.tpp:527-572. -/
noncomputable def Data.coefficient (D : Data) (i : ℕ) : ℝ :=
  match D.migration i with
  | none => D.factor i * 0
  | some m => if m > 0 then D.factor i * exp (-m / (kB * D.T)) else D.factor i

/-- `ne::getRate`.  xolotl/core/include/xolotl/core/network/impl/NEReaction.tpp:19-27. -/
noncomputable def neRate (r0 r1 d0 d1 : ℝ) : ℝ := 4 * π * (r0 + r1) * (d0 + d1) * zFactor

/-- `_deltaG0`: zero without the map.  xolotl/core/include/xolotl/core/network/NEReaction.h:35-43, 103-110; impl/Reaction.tpp:26. -/
def Data.deltaG (D : Data) (i j : ℕ) : ℝ :=
  match D.map i, D.map j with
  | some a, some b => D.tables.energy a b
  | _, _ => 0

/-- The rate found in the file by a production, -1 without the map.  xolotl/core/include/xolotl/core/network/impl/NEReaction.tpp:63-79. -/
noncomputable def Data.fileForward (D : Data) (i j : ℕ) : ℝ :=
  match D.map i, D.map j with
  | some a, some b => if D.deltaG i j > 0 then D.tables.rate a b 1 * exp (-D.deltaG i j / (kB * D.T)) else D.tables.rate a b 0
  | _, _ => -1

/-- `NEProductionReaction::computeRate`; the other rate uses the diffusion factors.  xolotl/core/include/xolotl/core/network/impl/NEReaction.tpp:32-44, 48-87. -/
noncomputable def Data.forward (D : Data) (i j : ℕ) : ℝ :=
  if D.fileForward i j > 0 then D.fileForward i j * 4 * π * D.radius i * zFactor
  else neRate (D.radius i) (D.radius j) (D.factor i) (D.factor j)

/-- The rate found in the file by a dissociation with products `i`, `j`.  xolotl/core/include/xolotl/core/network/impl/NEReaction.tpp:800-813. -/
noncomputable def Data.fileBackward (D : Data) (i j : ℕ) : ℝ :=
  match D.map i, D.map j with
  | some a, some b => if D.deltaG i j > 0 then D.tables.rate a b 1 else D.tables.rate a b 0 * exp (D.deltaG i j / (kB * D.T))
  | _, _ => -1

/-- `NEDissociationReaction::computeRate` with products `i`, `j` and binding energy `eb`; the other rate uses the diffusion coefficients.  xolotl/core/include/xolotl/core/network/impl/NEReaction.tpp:764-776, 780-825. -/
noncomputable def Data.backward (D : Data) (eb : ℝ) (i j : ℕ) : ℝ :=
  if D.fileBackward i j > 0 then (1 / D.omega) * D.fileBackward i j * 4 * π * D.radius i * zFactor
  else (1 / D.omega) * neRate (D.radius i) (D.radius j) (D.coefficient i) (D.coefficient j) * exp (-eb / (kB * D.T))

/-- The thermal source of a recombination without product, times the volumes of the reactants.  The map is not tested, and the temperature multiplies the energy.  xolotl/core/include/xolotl/core/network/impl/NEReaction.tpp:101-124. -/
noncomputable def Data.source (D : Data) (i j : ℕ) : Option ℝ := do
  let a ← D.map i
  let b ← D.map j
  pure ((1 / (D.omega * D.omega)) * D.tables.rate a b 0 * exp (D.deltaG i j / kB * D.T) * 4 * π * D.radius i * zFactor)

/-- `getSinkBias`.  xolotl/core/include/xolotl/core/network/impl/NEReaction.tpp:1046-1064. -/
noncomputable def sinkBias (interstitial : Bool) : ℝ := if interstitial then 1.1 else 1

/-- The contribution of a sink to the flux, with `n` clusters in the file.  xolotl/core/include/xolotl/core/network/impl/NEReaction.tpp:1077-1096; the energy NEReaction.h:185-189. -/
noncomputable def Data.sink (D : Data) (n : ℕ) (interstitial : Bool) (i : ℕ) (c : ℝ) : Option ℝ := do
  let a ← D.map i
  pure (zFactor * sinkBias interstitial * D.tables.rate a n 0 * (exp (D.tables.energy a n / (kB * D.T)) / D.omega - c))

/-- The derivative written by a sink.  xolotl/core/include/xolotl/core/network/impl/NEReaction.tpp:1100-1125. -/
noncomputable def Data.sinkPartial (D : Data) (n : ℕ) (interstitial : Bool) (i : ℕ) : Option ℝ := do
  let a ← D.map i
  pure (-(D.tables.rate a n 0 * zFactor * sinkBias interstitial))

end Xolotl.Network.NeFile
