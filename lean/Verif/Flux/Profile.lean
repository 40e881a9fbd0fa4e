import Mathlib.Algebra.Order.Field.Basic
import Mathlib.Algebra.BigOperators.Group.List.Basic
import Mathlib.Algebra.Order.Floor.Ring
import Mathlib.Data.Rat.Floor
import Mathlib.Data.List.Basic

/-!
# Implanted flux, fluence and pulses

Model of `FluxHandler::initializeFluxHandler`, `recomputeFluxHandler`, `incrementFluence`, `computeFluence`, of the per-species version in `CustomFitFluxHandler` and of the pulses of `PulsedFitFluxHandler`.

Numbers are elements of an ordered field instead of doubles.  `none` stands for undefined behaviour (reads or writes outside a vector, conversion of an out-of-range number to `int`).
-/

namespace Xolotl.Flux

variable {K : Type*} [Field K] [LinearOrder K] [IsStrictOrderedRing K]

/-- The loop indices `for (int i = surfacePos + 1; i < xGrid.size() - 3; i++)` of a grid of `n ≥ 3` points.  xolotl/core/src/flux/FluxHandler.cpp:60, 83, 110; CustomFitFluxHandler.h:210, 236, 346. -/
def loopIdx (n s : ℕ) : List ℕ := List.range' (s + 1) (n - 3 - (s + 1))

/-- Depth of the middle of cell `i` below the surface.  xolotl/core/src/flux/FluxHandler.cpp:62, 85, 112; CustomFitFluxHandler.h:212-213, 238-239, 348-349. -/
def depth (g : List K) (s i : ℕ) : K := (g.getD i 0 + g.getD (i + 1) 0) / 2 - g.getD (s + 1) 0

/-- Width of cell `i`.  xolotl/core/src/flux/FluxHandler.cpp:65; CustomFitFluxHandler.h:217. -/
def width (g : List K) (i : ℕ) : K := g.getD (i + 1) 0 - g.getD i 0

/-- The discrete integral of the depth profile.  xolotl/core/src/flux/FluxHandler.cpp:57-66; CustomFitFluxHandler.h:205-218. -/
def normOf (fit : K → K) (g : List K) (s : ℕ) : K :=
  (loopIdx g.length s).foldl (fun acc i => acc + fit (depth g s i) * width g i) 0

/-- The factor in front of the profile; `r` is the reduction factor of the species, 1 in the base class.  xolotl/core/src/flux/FluxHandler.cpp:70-72, 104-106; CustomFitFluxHandler.h:222-226, 338-342. -/
def scaleOf (amp r norm : K) : K := if norm > 0 then amp * r / norm else 0

/-- The members of the handler that matter here, for one species. -/
structure Handler (K : Type*) where
  /-- `xGrid` -/
  grid : List K
  /-- `normFactor`, or the entry of `normFactors` -/
  norm : K
  /-- `incidentFluxVec[0]`, or the row of the species -/
  vec : List K

/-- `initializeFluxHandler`.  Without a grid the vector is empty; with a grid of one or two points the unsigned `xGrid.size() - 3` wraps around and the loop leaves the vector.
xolotl/core/src/flux/FluxHandler.cpp:40-98; for one species CustomFitFluxHandler.h:202-250. -/
def init (fit : K → K) (amp r : K) (s : ℕ) (g : List K) : Option (Handler K) :=
  if g.length = 0 then some ⟨g, 0, []⟩
  else if g.length < 3 then none
  else
    let norm := normOf fit g s
    some ⟨g, norm, 0 :: (loopIdx g.length s).map (fun i => scaleOf amp r norm * fit (depth g s i)) ++ [0]⟩

/-- One write of `recomputeFluxHandler`.  xolotl/core/src/flux/FluxHandler.cpp:117; CustomFitFluxHandler.h:354. -/
def write (v : List K) (i : ℕ) (x : K) : Option (List K) := if i < v.length then some (v.set i x) else none

/-- `recomputeFluxHandler`: the norm computed at initialisation is used again.  There is no test for a missing grid here: with fewer than three points, none included, the unsigned `xGrid.size() - 3` wraps around and the loop leaves the vectors.  xolotl/core/src/flux/FluxHandler.cpp:100-119; CustomFitFluxHandler.h:335-356. -/
def recompute (fit : K → K) (amp r : K) (s : ℕ) (h : Handler K) : Option (Handler K) :=
  if h.grid.length < 3 then none
  else
    ((loopIdx h.grid.length s).foldlM (fun v i => write v (i - s) (scaleOf amp r h.norm * fit (depth h.grid s i))) h.vec).map
      fun v => { h with vec := v }

/-- The value added at grid point `xi`; without a grid the amplitude.  xolotl/core/src/flux/FluxHandler.cpp:218-224. -/
def pointValue (amp : K) (h : Handler K) (s xi : ℕ) : Option K :=
  if h.vec.length = 0 then some amp else h.vec[xi - s]?

/-- `CustomFitFluxHandler::FitFunction`: nothing below the total depth, and negative values of the polynomial are cut.  xolotl/core/include/xolotl/core/flux/CustomFitFluxHandler.h:54-72. -/
def customFit (params : List K) (total x : K) : K :=
  if x > total then 0 else max (params.zipIdx.foldl (fun acc p => acc + p.1 * x ^ p.2) 0) 0

/-- Depth profile of helium in (100) tungsten.  xolotl/core/include/xolotl/core/flux/W100FitFluxHandler.h:24-40. -/
def w100 (x : K) : K :=
  if x > 10 then 0
  else 700876507 / 10 ^ 8 + 6052078 / 10 ^ 7 * x - 301711048 / 10 ^ 8 * x ^ 2 + 136595786 / 10 ^ 8 * x ^ 3 -
    295595 / 10 ^ 6 * x ^ 4 + 3597462 / 10 ^ 8 * x ^ 5 - 25142 / 10 ^ 7 * x ^ 6 + 942235 / 10 ^ 10 * x ^ 7 - 14679 / 10 ^ 10 * x ^ 8

/-- Depth profile of helium in (110) tungsten.  xolotl/core/include/xolotl/core/flux/W110FitFluxHandler.h:24-40. -/
def w110 (x : K) : K :=
  if x > 10 then 0
  else 793260868 / 10 ^ 8 + 149429886 / 10 ^ 8 * x - 448320209 / 10 ^ 8 * x ^ 2 + 197014869 / 10 ^ 8 * x ^ 3 -
    407986353 / 10 ^ 9 * x ^ 4 + 454535058 / 10 ^ 10 * x ^ 5 - 26618556 / 10 ^ 10 * x ^ 6 + 678768532 / 10 ^ 13 * x ^ 7 -
    271171991 / 10 ^ 15 * x ^ 8

/-- Depth profile of helium in (111) tungsten.  xolotl/core/include/xolotl/core/flux/W111FitFluxHandler.h:24-40. -/
def w111 (x : K) : K :=
  if x > 10 then 0
  else 1563416 / 10 ^ 6 + 72071044 / 10 ^ 7 * x - 54632628 / 10 ^ 7 * x ^ 2 + 1727342 / 10 ^ 6 * x ^ 3 -
    3014105 / 10 ^ 7 * x ^ 4 + 311738 / 10 ^ 7 * x ^ 5 - 19016 / 10 ^ 7 * x ^ 6 + 6318 / 10 ^ 8 * x ^ 7 - 8813 / 10 ^ 10 * x ^ 8

/-- Depth profile of helium in (211) tungsten.  xolotl/core/include/xolotl/core/flux/W211FitFluxHandler.h:24-40. -/
def w211 (x : K) : K :=
  if x > 10 then 0
  else 407203818 / 10 ^ 8 + 534773722 / 10 ^ 8 * x - 498297871 / 10 ^ 8 * x ^ 2 + 155833787 / 10 ^ 8 * x ^ 3 -
    234772157 / 10 ^ 9 * x ^ 4 + 165912511 / 10 ^ 10 * x ^ 5 - 238031874 / 10 ^ 12 * x ^ 6 - 318871642 / 10 ^ 13 * x ^ 7 +
    127931311 / 10 ^ 14 * x ^ 8

/-! ## Fluence -/

/-- The members that matter for the fluence. -/
structure Flu (K : Type*) where
  /-- `fluence` -/
  fluence : List K
  /-- `fluxAmplitude` -/
  amp : K

/-- `fluence[i] += x`.  xolotl/core/src/flux/FluxHandler.cpp:236, 247. -/
def bump (l : List K) (i : ℕ) (x : K) : Option (List K) :=
  match l[i]? with
  | some y => some (l.set i (y + x))
  | none => none

/-- `incrementFluence`; `factors` are the `reductionFactors`.  xolotl/core/src/flux/FluxHandler.cpp:232-250. -/
def increment (factors : List K) (st : Flu K) (dt : K) : Option (Flu K) := do
  let f ← bump st.fluence 0 (st.amp * dt)
  if factors.length > 0 then
    let f := if f.length = 1 then f ++ List.replicate factors.length 0 else f
    let f ← factors.zipIdx.foldlM (fun f r => bump f (r.2 + 1) (st.amp * dt * r.1)) f
    pure { st with fluence := f }
  else pure { st with fluence := f }

/-- `fluence[i] = x`.  xolotl/core/src/flux/FluxHandler.cpp:256, 267. -/
def assign (l : List K) (i : ℕ) (x : K) : Option (List K) := if i < l.length then some (l.set i x) else none

/-- `computeFluence`.  xolotl/core/src/flux/FluxHandler.cpp:252-270. -/
def computeFluence (factors : List K) (st : Flu K) (time : K) : Option (Flu K) := do
  let f ← assign st.fluence 0 (st.amp * time)
  if factors.length > 0 then
    let f := if f.length = 1 then f ++ List.replicate factors.length 0 else f
    let f ← factors.zipIdx.foldlM (fun f r => assign f (r.2 + 1) (st.amp * time * r.1)) f
    pure { st with fluence := f }
  else pure { st with fluence := f }

/-- What happens to the fluence during a run. -/
inductive FluOp (K : Type*)
  /-- `setFluxAmplitude`, or a new amplitude read from the time profile.  xolotl/core/src/flux/FluxHandler.cpp:284-288, 214. -/
  | amp (a : K)
  /-- `incrementFluence` -/
  | inc (dt : K)

/-- One operation. -/
def fluStep (factors : List K) (st : Flu K) : FluOp K → Option (Flu K)
  | .amp a => some { st with amp := a }
  | .inc dt => increment factors st dt

/-- A sequence of operations. -/
def fluRun (factors : List K) (st : Flu K) (ops : List (FluOp K)) : Option (Flu K) := ops.foldlM (fluStep factors) st

/-! ## Pulses -/

/-- `util::equal`: the numbers differ by less than the machine epsilon, here a positive parameter.  xolotl/util/include/xolotl/util/MathUtils.h:78-83. -/
def near (eps a b : K) : Prop := |b - a| < eps

/-- `int cycle = x`: towards zero; outside the range of `int` the behaviour is undefined.  xolotl/core/include/xolotl/core/flux/PulsedFitFluxHandler.h:127. -/
def toInt [FloorRing K] (x : K) : Option ℤ :=
  let n := if 0 ≤ x then ⌊x⌋ else ⌈x⌉
  if -2 ^ 31 ≤ n ∧ n < 2 ^ 31 then some n else none

open Classical in
/-- Whether the pulsed source is on at time `t`; `dT` is the pulse time and `alpha` the proportion.  Division by a zero pulse time has no value that could be converted.
xolotl/core/include/xolotl/core/flux/PulsedFitFluxHandler.h:126-131. -/
noncomputable def pulseOn [FloorRing K] (eps dT alpha t : K) : Option Bool :=
  if dT = 0 then none
  else
    match toInt (t / dT) with
    | none => none
    | some cycle => some (!(decide (t - cycle * dT > alpha * dT) || decide (near eps dT 0) || decide (near eps alpha 0)))

end Xolotl.Flux
