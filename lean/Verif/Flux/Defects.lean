import Mathlib.Analysis.SpecialFunctions.Trigonometric.DerivHyp
import Mathlib.Analysis.SpecialFunctions.Exp
import Verif.Flux.Implanted

/-!
# Sources of defects

Model of the flux handlers that create defects inside the material: `FuelFitFluxHandler`, `FeFitFluxHandler`, `AlloyFitFluxHandler`, the repeated initialisation of `AlphaZrFitFluxHandler`, the attenuation with the dose in the last two, and the use of the amplitude given as a function of time.

Simplifications: numbers are elements of a field (real where an exponential or a hyperbolic tangent is used).  `find` is `findCluster` of the network for a composition with one species, `none` if there is no such cluster.  A row of the reaction file is its composition and the energies and entropies of its states; how the file is split into rows is the subject of C59 and C62.  The kernels with one iteration are ordinary functions.
-/

namespace Xolotl.Flux.Defects

variable {K : Type*} [Field K]

/-! ### Attenuation -/

/-- The reduction of the production with the dose.  xolotl/core/include/xolotl/core/flux/AlphaZrFitFluxHandler.h:174-181, AlloyFitFluxHandler.h:343-350. -/
noncomputable def attenuation (dose eff amp t : ℝ) : ℝ := if dose > 0 then (1 - eff) / 2 * (1 - Real.tanh (47 * (t * amp - dose))) + eff else 1

/-! ### Amplitude -/

/-- The classes with their own `computeIncidentFlux` considered here, and the class they derive from. -/
inductive Source | base | fuel | iron | zirconium | alloy
  deriving DecidableEq

/-- The amplitude after construction: 0 if it is given as a function of time.  xolotl/core/src/flux/FluxHandler.cpp:15-37. -/
def amplitude0 (profile : Option (K → K)) (constant : K) : K := if profile.isSome then 0 else constant

/-- The amplitude used by `computeIncidentFlux`: only the base class asks for the value at the time.  xolotl/core/src/flux/FluxHandler.cpp:212-216; FuelFitFluxHandler.h:207-240, FeFitFluxHandler.h:143-169, AlphaZrFitFluxHandler.h:169-190, AlloyFitFluxHandler.h:336-360. -/
def amplitudeAt (s : Source) (profile : Option (K → K)) (amp t : K) : K :=
  match s, profile with
  | .base, some f => f t
  | _, _ => amp

/-- The amplitude after evaluations at the given times. -/
def amplitudeAfter (s : Source) (profile : Option (K → K)) (constant : K) (times : List K) : K := times.foldl (fun a t => amplitudeAt s profile a t) (amplitude0 profile constant)

/-! ### Fuel -/

/-- The four clusters looked for. -/
inductive FuelKind | v | v2 | i | xe
  deriving DecidableEq

/-- What the handler keeps: `fluxIndices`, `pureDefectIds`, `pureDefectFactors`.  xolotl/core/include/xolotl/core/flux/FuelFitFluxHandler.h:40-48. -/
structure Fuel (K : Type*) where
  ids : List ℕ := []
  defectIds : List ℕ := []
  factors : List K := []

/-- A row of the reaction file: composition, and energy and entropy of the states. -/
structure FuelRow where
  xe : ℕ
  v : ℕ
  i : ℕ
  states : List (ℝ × ℝ)

/-- The energy `g0` of a state at `kT`.  xolotl/core/include/xolotl/core/flux/FuelFitFluxHandler.h:163, 170. -/
noncomputable def gibbs (kT : ℝ) (s : ℝ × ℝ) : ℝ := s.1 - kT * s.2

/-- The smallest of them; `none` if there is no state, which is a read outside the tokens.  xolotl/core/include/xolotl/core/flux/FuelFitFluxHandler.h:160-166. -/
noncomputable def smallest (kT : ℝ) (l : List (ℝ × ℝ)) : Option ℝ := l.head?.map fun s => l.foldl (fun m x => if gibbs kT x < m then gibbs kT x else m) (gibbs kT s)

/-- One row added to the factors; `none` is an access outside a vector.  xolotl/core/include/xolotl/core/flux/FuelFitFluxHandler.h:145-174. -/
noncomputable def addRow (kT : ℝ) (f : List ℝ) (r : FuelRow) : Option (List ℝ) :=
  if r.xe > 0 ∨ r.i > 0 then some f
  else (smallest kT r.states).bind fun m =>
    if r.v = 0 ∨ f.length < r.v then none
    else some (f.modify (r.v - 1) fun x => r.states.foldl (fun a s => a + r.v * Real.exp ((m - gibbs kT s) / kT)) x)

/-- The factors of the two vacancy clusters.  xolotl/core/include/xolotl/core/flux/FuelFitFluxHandler.h:133, 144-181. -/
noncomputable def factorsOf (kT : ℝ) (rows : List FuelRow) : Option (List ℝ) := rows.foldlM (addRow kT) [0, 0]

/-- `initializeFluxHandler` of the fuel; `skip` if the amplitude is 0 and not given as a function of time; `none` if a cluster is missing.
xolotl/core/include/xolotl/core/flux/FuelFitFluxHandler.h:74-202. -/
def fuelInit (find : FuelKind → Option ℕ) (factors : List K) (skip : Bool) (st : Fuel K) : Option (Fuel K) :=
  if skip then some st
  else
    (find .v).bind fun v => (find .v2).bind fun v2 => (find .i).bind fun i => (find .xe).map fun xe =>
      ⟨st.ids ++ [v, i, xe], st.defectIds ++ [v, v2], factors⟩

/-- The fraction of sites available.  `none` is an access outside.  xolotl/core/include/xolotl/core/flux/FuelFitFluxHandler.h:227-232. -/
def available (uConc : K) (st : Fuel K) (c : ℕ → K) : Option K :=
  if st.defectIds.length < st.factors.length then none
  else some ((st.factors.zip st.defectIds).foldl (fun a p => a - c p.2 * p.1) uConc / uConc)

/-- `computeIncidentFlux` of the fuel.  xolotl/core/include/xolotl/core/flux/FuelFitFluxHandler.h:207-240. -/
def fuelFlux (uConc yield xeYield amp : K) (st : Fuel K) (c u : ℕ → K) : Option (ℕ → K) :=
  match st.ids with
  | [] => some u
  | v :: i :: xe :: _ => (available uConc st c).map fun a =>
    let u1 := Function.update u v (u v + yield * amp * a)
    let u2 := Function.update u1 i (u1 i + yield * amp * a)
    Function.update u2 xe (u2 xe + xeYield * amp)
  | _ => none

/-! ### Iron -/

/-- The constants: species (`true` for interstitials, `false` for vacancies, `none` for helium), size and rate.  xolotl/core/include/xolotl/core/flux/FeFitFluxHandler.h:160-167. -/
def ironRates : List (Option Bool × ℕ × ℚ) :=
  [(none, 1, 211 / 10 ^ 13), (some true, 1, 149 / 10 ^ 7), (some false, 1, 991 / 10 ^ 8), (some false, 2, 151 / 10 ^ 8), (some false, 3, 260 / 10 ^ 9), (some false, 4, 158 / 10 ^ 9),
    (some false, 5, 629 / 10 ^ 10), (some false, 9, 316 / 10 ^ 10)]

/-- Outcomes of the check for the number of dimensions. -/
inductive Check | passed | threw | undefined
  deriving DecidableEq, Repr

/-- The check after `n` initialisations with grids; `xGrid` and `incidentFluxVec` as the handler keeps them.  The grid given is not stored.
xolotl/core/include/xolotl/core/flux/FeFitFluxHandler.h:53-58, 148-152. -/
def ironCheck (grids : List (List K)) : Check :=
  let st := grids.foldl (fun (st : List K × List (List K)) _ => if st.1.length = 0 then (st.1, st.2 ++ [[]]) else st) ([], [])
  match st.2 with
  | [] => .undefined
  | v :: _ => if v.length ≠ 0 then .threw else .passed

/-! ### Alloy -/

/-- The kinds of clusters of an alloy. -/
inductive AlloyKind | i | frank | perfect | v | faulted
  deriving DecidableEq

/-- The sizes of the cascade, interstitials positive.  xolotl/core/include/xolotl/core/flux/AlloySRIMData.h:23-28. -/
def cascadeSizes : List ℤ := (List.range 45).map (fun k => 45 - (k : ℤ)) ++ (List.range 45).map fun k => -((k : ℤ) + 1)

/-- The fractions for sizes 45 to 1, in thousandths; for vacancies the same in the opposite order.  xolotl/core/include/xolotl/core/flux/AlloySRIMData.h:37-51, 56-70. -/
def fractionI : List ℕ := [0, 0, 19, 21, 1, 6, 3, 2, 3, 0, 3, 2, 10, 3, 13, 3, 3, 10, 1, 2, 2, 5, 3, 6, 3, 6, 2, 3, 13, 3, 5, 16, 8, 14, 11, 32, 16, 16, 19, 39, 35, 66, 120, 100, 350]

def fractionV : List ℕ := [350, 100, 120, 66, 35, 39, 19, 16, 16, 32, 11, 14, 8, 16, 5, 3, 13, 3, 2, 6, 3, 6, 3, 5, 2, 2, 1, 10, 3, 3, 13, 3, 10, 2, 3, 0, 3, 2, 3, 6, 1, 21, 19, 0, 0]

/-- `clusterFraction`, one column.  The same lines. -/
def fractions : List K := (fractionI ++ fractionV).map fun n : ℕ => (n : K) / 1000

/-- `AlloyDamageFunction` for one row of coefficients.  xolotl/core/include/xolotl/core/flux/AlloyFitFluxHandler.h:43-55. -/
def damage (coeffs : List K) (x : K) : K := (coeffs.tail.zipIdx 1).foldl (fun a p => a + p.1 * x ^ p.2) (coeffs.headD 0)

/-- The rate at a depth.  xolotl/core/include/xolotl/core/flux/AlloyFitFluxHandler.h:89-95, 110-117. -/
def alloyRate (coeffs : List K) (eff amp : K) (frac fraction : K) (size : ℕ) (x : K) : K := (0 + eff * damage coeffs x * frac) * fraction * amp / size

/-- `AlloySetGeneration`.  The grid has no or at least three faces; the surface is taken at 0.  xolotl/core/include/xolotl/core/flux/AlloyFitFluxHandler.h:83-123. -/
def generation (rate : K → K) (grid : List K) : List K :=
  if grid.length = 0 then [rate 0]
  else [0] ++ ((List.range' 1 (grid.length - 3 - 1)).map fun i => rate (grid.getD (i + 1) 0 - grid.getD 1 0)) ++ [0]

/-- One entry of the loop over the sizes: clusters and their rates along the grid.  `none` is the exception for size 0.  xolotl/core/include/xolotl/core/flux/AlloyFitFluxHandler.h:208-292. -/
def alloyBin (find : AlloyKind → ℕ → Option ℕ) (perfect : K) (gen : K → List K) (size : ℤ) : Option (List (ℕ × List K)) :=
  if size > 0 then
    match find .i size.toNat with
    | some c => some [(c, gen 1)]
    | none =>
      match find .frank size.toNat, find .perfect size.toNat with
      | some a, some b => some [(a, gen (1 - perfect)), (b, gen perfect)]
      | _, _ => some []
  else if size < 0 then
    match find .v (-size).toNat with
    | some c => some [(c, gen 1)]
    | none =>
      match find .faulted (-size).toNat with
      | some c => some [(c, gen 1)]
      | none => some []
  else none

/-- The loop over the sizes: for every size its clusters and rates.  xolotl/core/include/xolotl/core/flux/AlloyFitFluxHandler.h:207-292. -/
def alloyBins (find : AlloyKind → ℕ → Option ℕ) (coeffs : List K) (eff amp perfect : K) (grid : List K) : Option (List (ℤ × List (ℕ × List K))) :=
  (cascadeSizes.zip fractions).mapM fun p =>
    (alloyBin find perfect (fun f => generation (alloyRate coeffs eff amp p.2 f p.1.natAbs) grid) p.1).map fun b => (p.1, b)

/-- Whether the loops that write `alloyFlux.dat` stay inside a row of `m` rates, for a grid with `n` faces and the surface at `s`.  xolotl/core/include/xolotl/core/flux/AlloyFitFluxHandler.h:302-309. -/
def writesInside (n s m : ℕ) : Bool := (List.range' s (max n 1 - s)).all fun xi => decide (xi - s < m)

/-! ### Zirconium -/

/-- Another initialisation of `AlphaZrFitFluxHandler`: the entries are added to those there are.  xolotl/core/include/xolotl/core/flux/AlphaZrFitFluxHandler.h:103-164. -/
def zrAgain (t : Table K) (st : ZrState K) : ZrState K := ⟨st.host ++ t, st.host ++ t⟩

end Xolotl.Flux.Defects
