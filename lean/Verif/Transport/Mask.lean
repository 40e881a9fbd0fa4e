import Mathlib.Algebra.Order.Field.Basic
import Mathlib.Data.List.Basic

/-!
# Masks that switch off transport on grain-boundary sinks

Model of `initializeDiffusionGrid` of the 1D, 2D and 3D diffusion handlers and of `SurfaceAdvectionHandler::initializeAdvectionGrid`.

A mask is a table of Booleans indexed by a row (one per grid point, ghosts included) and a column.  Rows have a type `ρ` that depends on the dimension.  Writing outside the nested vectors and throwing are different failures; reading `grid` outside its end is a third one that is modelled for the advection mask, where it can happen.
-/

namespace Xolotl.Transport.Mask

/-- How an initialisation can end prematurely. -/
inductive Fail where
  /-- the `std::runtime_error` for an unknown cluster -/
  | thrown
  /-- undefined behaviour: an index outside a vector -/
  | outOfBounds
deriving DecidableEq

/-- What the masks need from an advection handler: `isPointOnSink` and `getAdvectingClusters`.  xolotl/core/include/xolotl/core/advection/IAdvectionHandler.h; AdvectionHandler.h. -/
structure Handler (P : Type*) where
  sink : P → Bool
  adv : List ℕ

/-- A mask: row, then column. -/
abbrev Grid (ρ : Type*) := ρ → ℕ → Bool

variable {ρ P : Type*} [DecidableEq ρ]

/-- The body of the innermost loop: look the advecting cluster `a` up in the list `ids` of diffusing (advecting) clusters and clear the entry in the column *named by the identifier found*.  `inside` says whether the row exists; a row has `ids.length` columns.
xolotl/core/src/diffusion/Diffusion1DHandler.cpp:61-73; Diffusion2DHandler.cpp:69-81; Diffusion3DHandler.cpp:79-91; advection/SurfaceAdvectionHandler.cpp:85-99. -/
def clear (ids : List ℕ) (inside : ρ → Bool) (r : ρ) (m : Grid ρ) (a : ℕ) : Except Fail (Grid ρ) :=
  if a ∈ ids then
    if inside r ∧ a < ids.length then .ok (fun r' n => if r' = r ∧ n = a then false else m r' n) else .error .outOfBounds
  else .error .thrown

/-- One grid point.  xolotl/core/src/diffusion/Diffusion1DHandler.cpp:56-75; Diffusion2DHandler.cpp:64-83; Diffusion3DHandler.cpp:74-93; advection/SurfaceAdvectionHandler.cpp:80-101. -/
def visit (ids : List ℕ) (inside : ρ → Bool) (h : Handler P) (m : Grid ρ) (v : ρ × P) : Except Fail (Grid ρ) :=
  if h.sink v.2 then h.adv.foldlM (clear ids inside v.1) m else .ok m

/-- The whole initialisation: all entries true, then every handler visits every grid point.
xolotl/core/src/diffusion/Diffusion1DHandler.cpp:36-77; Diffusion2DHandler.cpp:35-86; Diffusion3DHandler.cpp:38-97; advection/SurfaceAdvectionHandler.cpp:38-105. -/
def build (ids : List ℕ) (inside : ρ → Bool) (visits : List (ρ × P)) (hs : List (Handler P)) : Except Fail (Grid ρ) :=
  hs.foldlM (fun m h => visits.foldlM (visit ids inside h) m) (fun _ _ => true)

section Positions

variable {K : Type*} [Field K] [LinearOrder K] [IsStrictOrderedRing K]

/-- The position given to `isPointOnSink`. -/
structure Pos (K : Type*) where
  x : K
  y : K
  z : K

/-- Depth of grid point `p` below the surface, the position used everywhere for the diffusion mask and for advection.  xolotl/core/src/diffusion/Diffusion1DHandler.cpp:54; xolotl/solver/src/handler/PetscSolver1DHandler.cpp:1005. -/
def depth (grid : ℕ → K) (p : ℕ) : K := (grid p + grid (p + 1)) / 2 - grid 1

/-- The points visited in 1D: local point `i < nx`, row `i`, with the position of grid point `xs + i`.  xolotl/core/src/diffusion/Diffusion1DHandler.cpp:52-54, 65. -/
def visits1 (grid : ℕ → K) (nx xs : ℕ) : List (ℕ × Pos K) := (List.range nx).map fun i => (i, ⟨depth grid (i + xs), 0, 0⟩)

/-- The rows of the 1D mask.  xolotl/core/src/diffusion/Diffusion1DHandler.cpp:38-40. -/
def inside1 (nx : ℕ) (r : ℕ) : Bool := decide (r < nx + 2)

/-- The points visited in 2D; the loop variable `j` of the code is `j - 1` here, so that the row is `(j, i)`.  xolotl/core/src/diffusion/Diffusion2DHandler.cpp:56-62, 73. -/
def visits2 (grid : ℕ → K) (nx xs ny ys : ℕ) (hy : K) : List ((ℕ × ℕ) × Pos K) :=
  (List.range (ny + 2)).flatMap fun j => (List.range nx).map fun i => ((j, i), ⟨depth grid (i + xs), hy * ((j : K) + ys - 1), 0⟩)

/-- The rows of the 2D mask.  xolotl/core/src/diffusion/Diffusion2DHandler.cpp:38-44. -/
def inside2 (nx ny : ℕ) (r : ℕ × ℕ) : Bool := decide (r.1 < ny + 2 ∧ r.2 < nx + 2)

/-- The points visited in 3D; `k` and `j` are shifted by one as in `visits2`.  xolotl/core/src/diffusion/Diffusion3DHandler.cpp:63-72, 83. -/
def visits3 (grid : ℕ → K) (nx xs ny ys nz zs : ℕ) (hy hz : K) : List ((ℕ × ℕ × ℕ) × Pos K) :=
  (List.range (nz + 2)).flatMap fun k => (List.range (ny + 2)).flatMap fun j => (List.range nx).map fun i =>
    ((k, j, i), ⟨depth grid (i + xs), hy * ((j : K) + ys - 1), hz * ((k : K) + zs - 1)⟩)

/-- The rows of the 3D mask and of the advection mask.  xolotl/core/src/diffusion/Diffusion3DHandler.cpp:41-51; advection/SurfaceAdvectionHandler.cpp:41-51. -/
def inside3 (nx ny nz : ℕ) (r : ℕ × ℕ × ℕ) : Bool := decide (r.1 < nz + 2 ∧ r.2.1 < ny + 2 ∧ r.2.2 < nx + 2)

/-- The depth used for the advection mask: not relative to `grid[1]`, and with a special case that compares the global index `i + xs` with the local size `nx`.  `size` is the length of `grid`; `none` is a read past its end.
xolotl/core/src/advection/SurfaceAdvectionHandler.cpp:71-78. -/
def advDepth (grid : ℕ → K) (size nx xs i : ℕ) : Option K :=
  if i + xs = nx + 1 then
    if i + xs < size then some (grid (i + xs) + (grid (i + xs) - grid (i + xs - 1)) / 2) else none
  else if i + xs + 1 < size then some ((grid (i + xs) + grid (i + xs + 1)) / 2) else none

/-- The points visited for the advection mask: local index `i < nx + 2`, row `i + 1`; `none` if one of the positions cannot be computed.  xolotl/core/src/advection/SurfaceAdvectionHandler.cpp:63-78, 89. -/
def visitsAdv (grid : ℕ → K) (size nx xs ny ys nz zs : ℕ) (hy hz : K) : Option (List ((ℕ × ℕ × ℕ) × Pos K)) :=
  if ∀ i < nx + 2, (advDepth grid size nx xs i).isSome then
    some ((List.range (nz + 2)).flatMap fun k => (List.range (ny + 2)).flatMap fun j => (List.range (nx + 2)).map fun i =>
      ((k, j, i + 1), ⟨(advDepth grid size nx xs i).getD 0, hy * ((j : K) + ys - 1), hz * ((k : K) + zs - 1)⟩))
  else none

/-- `SurfaceAdvectionHandler::initializeAdvectionGrid`.  With no handler at all no position is computed.  xolotl/core/src/advection/SurfaceAdvectionHandler.cpp:30-108. -/
def buildAdv (ids : List ℕ) (grid : ℕ → K) (size nx xs ny ys nz zs : ℕ) (hy hz : K) (hs : List (Handler (Pos K))) :
    Except Fail (Grid (ℕ × ℕ × ℕ)) :=
  if hs = [] then .ok (fun _ _ => true)
  else match visitsAdv grid size nx xs ny ys nz zs hy hz with
    | none => .error .outOfBounds
    | some v => build ids (inside3 nx ny nz) v hs

/-- The three rows of the 1D mask read by `computeDiffusion` and `computePartialsForDiffusion` at local point `ix`: middle, left, right.  xolotl/core/src/diffusion/Diffusion1DHandler.cpp:105-107, 151, 156, 161. -/
def rows1 (ix : ℕ) : ℕ × ℕ × ℕ := (ix + 1, ix, ix + 2)

/-- The rows read in 2D at local point `(iy, ix)`: middle, left, right, bottom, top.  xolotl/core/src/diffusion/Diffusion2DHandler.cpp:121-130. -/
def rows2 (iy ix : ℕ) : List (ℕ × ℕ) := [(iy + 1, ix + 1), (iy + 1, ix), (iy + 1, ix + 2), (iy, ix + 1), (iy + 2, ix + 1)]

/-- The rows read in 3D at local point `(iz, iy, ix)`: middle, left, right, bottom, top, front, back.  xolotl/core/src/diffusion/Diffusion3DHandler.cpp:133-146. -/
def rows3 (iz iy ix : ℕ) : List (ℕ × ℕ × ℕ) :=
  [(iz + 1, iy + 1, ix + 1), (iz + 1, iy + 1, ix), (iz + 1, iy + 1, ix + 2), (iz + 1, iy, ix + 1), (iz + 1, iy + 2, ix + 1), (iz, iy + 1, ix + 1),
    (iz + 2, iy + 1, ix + 1)]

end Positions

end Xolotl.Transport.Mask
