import Verif.Flux.Profile
import Verif.Flux.Implanted

/-!
# Custom and pulsed flux

Model of `CustomFitFluxHandler`: reading the parameter file, the rows of incident flux, their copy on the device, the contributions to each cluster, and `getInstantFlux`; and of `PulsedFitFluxHandler::computeIncidentFlux`.

The file is a list of lines, each a list of tokens; that the loop sees these lines is C62.  The conversions of tokens to numbers are parameters, `none` if they throw.  Numbers are elements of an ordered field.  `none` as the result of a function stands for reading outside a vector.  The file `incidentVectors.txt` that is printed is not modelled.
-/

namespace Xolotl.Flux.Custom

variable {K : Type*} [Field K] [LinearOrder K] [IsStrictOrderedRing K] {T : Type*}

/-- What the handler keeps for one pair of lines: `fluxIndices`, `reductionFactors`, `fitParams`, and the last number of the second line. -/
structure Row (K : Type*) where
  id : ℕ
  factor : K
  params : List K
  total : K

/-- Exceptions while reading. -/
inductive Err
  | clusterTokens | fitTokens | number | absent
  deriving DecidableEq

/-- The conversions and the search for a cluster. -/
structure Env (K T : Type*) where
  /-- `findClusterId` of the species and size, if both can be read -/
  find : T → T → Except Err ℕ
  /-- `std::stod` -/
  num : T → Option K

/-- The sixteen coefficients and the depth.  xolotl/core/include/xolotl/core/flux/CustomFitFluxHandler.h:173-200. -/
def readFit (e : Env K T) (id : ℕ) (factor : K) (l : List T) : Except Err (Row K) :=
  if l.length ≠ 17 then .error .fitTokens
  else
    match l.mapM e.num with
    | none => .error .number
    | some v => .ok ⟨id, factor, v.take 16, v.getD 16 0⟩

/-- The first line of a pair.  xolotl/core/include/xolotl/core/flux/CustomFitFluxHandler.h:138-161. -/
def readCluster (e : Env K T) (l : List T) : Except Err (ℕ × K) :=
  match l with
  | [a, b, c] =>
    match e.find a b with
    | .error x => .error x
    | .ok id =>
      match e.num c with
      | none => .error .number
      | some f => .ok (id, f)
  | _ => .error .clusterTokens

/-- The loop over the lines; it stops at an empty line, and past the end lines are empty.  xolotl/core/include/xolotl/core/flux/CustomFitFluxHandler.h:125-257. -/
def readRows (e : Env K T) : List (List T) → Except Err (List (Row K))
  | [] => .ok []
  | [] :: _ => .ok []
  | l :: [] =>
    match readCluster e l with
    | .error x => .error x
    | .ok (id, f) =>
      match readFit e id f [] with
      | .error x => .error x
      | .ok r => .ok [r]
  | l :: l2 :: rest =>
    match readCluster e l with
    | .error x => .error x
    | .ok (id, f) =>
      match readFit e id f l2 with
      | .error x => .error x
      | .ok r =>
        match readRows e rest with
        | .error x => .error x
        | .ok rs => .ok (r :: rs)

/-- The profile of a row; `totalDepths` has a tenth of a nanometre added.  xolotl/core/include/xolotl/core/flux/CustomFitFluxHandler.h:54-72, 200. -/
def fitOf (r : Row K) : K → K := customFit r.params (r.total + 1 / 10)

/-- The handler after initialisation: rows with their norms and values, and the copy on the device. -/
structure State (K : Type*) where
  rows : List (Row K × Handler K)
  /-- `incidentFlux` -/
  device : List (List K)

/-- `syncIncidentFluxVec`: the width of the view is the length of the first row, which must exist; no row may be longer.  xolotl/core/src/flux/FluxHandler.cpp:133-145. -/
def sync (v : List (List K)) : Option (List (List K)) :=
  match v with
  | [] => none
  | r :: _ => if v.all (fun x => x.length ≤ r.length) then some (v.map fun x => x ++ List.replicate (r.length - x.length) 0) else none

/-- The vectors `incidentFluxVec`: without a grid nothing is pushed.  xolotl/core/include/xolotl/core/flux/CustomFitFluxHandler.h:202-250. -/
def vectors (g : List K) (rows : List (Row K × Handler K)) : List (List K) := if g.length = 0 then [] else rows.map fun p => p.2.vec

/-- `initializeFluxHandler` once the file is read.  xolotl/core/include/xolotl/core/flux/CustomFitFluxHandler.h:95-291. -/
def setup (rs : List (Row K)) (amp : K) (s : ℕ) (g : List K) : Option (State K) := do
  let hs ← rs.mapM fun r => (init (fitOf r) amp r.factor s g).map fun h => (r, h)
  let d ← sync (vectors g hs)
  some ⟨hs, d⟩

/-- `recomputeFluxHandler`.  xolotl/core/include/xolotl/core/flux/CustomFitFluxHandler.h:332-381. -/
def recompute (amp : K) (s : ℕ) (st : State K) : Option (State K) := do
  let hs ← st.rows.mapM fun p => (Flux.recompute (fitOf p.1) amp p.1.factor s p.2).map fun h => (p.1, h)
  let d ← sync (hs.map fun p => p.2.vec)
  some ⟨hs, d⟩

/-- The contributions at grid point `xi`, one for each row.  xolotl/core/include/xolotl/core/flux/CustomFitFluxHandler.h:318-326. -/
def contributions (st : State K) (s xi : ℕ) : Table K := st.rows.zipIdx.map fun p => (p.1.1.id, (st.device.getD p.2 []).getD (xi - s) 0)

/-- `computeIncidentFlux` on a grid, the parallel loop run in the given order.  xolotl/core/include/xolotl/core/flux/CustomFitFluxHandler.h:307, 318-326. -/
def compute (order : Table K) (u : ℕ → K) : ℕ → K := kernel 1 order u

/-- `getInstantFlux` for an amplitude.  xolotl/core/include/xolotl/core/flux/CustomFitFluxHandler.h:383-396. -/
def instant (rs : List (Row K)) (amp : K) : List K := rs.map fun r => amp * r.factor

/-! ### Pulses -/

/-- The members of the pulsed handler. -/
structure Pulsed (K : Type*) where
  /-- `fluxIndices` -/
  ids : List ℕ
  /-- `incidentFluxVec[0]` -/
  vec : List K

/-- `PulsedFitFluxHandler::initializeFluxHandler` for a network with both single defects `v` and `i`; the amplitude is zero with a time profile.  xolotl/core/include/xolotl/core/flux/PulsedFitFluxHandler.h:71-112. -/
noncomputable def pulsedInit (eps : K) (fit : K → K) (amp : K) (profile : Bool) (v i s : ℕ) (g : List K) : Option (Pulsed K) :=
  open Classical in
  (init fit amp 1 s g).map fun h => ⟨if near eps amp 0 ∧ profile = false then [] else [v, i], h.vec⟩

/-- `PulsedFitFluxHandler::computeIncidentFlux`: what is added to which cluster; time profiles are not looked at.  xolotl/core/include/xolotl/core/flux/PulsedFitFluxHandler.h:118-141. -/
noncomputable def pulsedAdd [FloorRing K] (eps dT alpha t : K) (p : Pulsed K) (s xi : ℕ) : Option (Table K) :=
  match pulseOn eps dT alpha t with
  | none => none
  | some false => some []
  | some true =>
    match p.vec[xi - s]?, p.ids[0]?, p.ids[1]? with
    | some x, some a, some b => some [(a, x), (b, x)]
    | _, _, _ => none

end Xolotl.Flux.Custom
