import Mathlib.Algebra.Order.Field.Basic
import Mathlib.Algebra.BigOperators.Group.Finset.Basic

/-!
# Diffusion stencils

Model of `computeDiffusion` and `computePartialsForDiffusion` of the 1D, 2D and 3D diffusion handlers, of the list of diffusing clusters, and of the grid spacings that the 1D solver handler gives to them.

Numbers are elements of an ordered field instead of doubles.  The entries of the mask `diffGrid` are multiplied with concentrations in the code, so they are numbers here as well.  Throwing on a concentration stencil of the wrong size is not modelled: the solver always gives 3, 5 or 7 views.
-/

namespace Xolotl.Transport

variable {K : Type*} [Field K] [LinearOrder K] [IsStrictOrderedRing K]

/-- One value per point of the 1D stencil, in the order used by the code: middle, left, right.  xolotl/core/src/diffusion/Diffusion1DHandler.cpp:93-94, 105-113. -/
structure S1 (K : Type*) where
  mid : K
  left : K
  right : K

/-- One value per point of the 2D stencil.  xolotl/core/src/diffusion/Diffusion2DHandler.cpp:109-110, 121-130. -/
structure S2 (K : Type*) extends S1 K where
  bottom : K
  top : K

/-- One value per point of the 3D stencil.  xolotl/core/src/diffusion/Diffusion3DHandler.cpp:120-122, 133-146. -/
structure S3 (K : Type*) extends S2 K where
  front : K
  back : K

/-- The rate added to one cluster by `Diffusion1DHandler::computeDiffusion`: `d` are the diffusion coefficients, `g` the mask, `c` the concentrations.  xolotl/core/src/diffusion/Diffusion1DHandler.cpp:104-121. -/
def conc1 (hL hR : K) (d g c : S1 K) : K :=
  let oldConc := c.mid * g.mid
  let oldLeft := c.left * g.left
  let oldRight := c.right * g.right
  d.mid * 2 * (oldLeft + hL / hR * oldRight - (1 + hL / hR) * oldConc) / (hL * (hL + hR))
    + (d.right - d.left) * (oldRight - oldLeft) / ((hL + hR) * (hL + hR))

/-- The three values written by `Diffusion1DHandler::computePartialsForDiffusion`.  xolotl/core/src/diffusion/Diffusion1DHandler.cpp:144-161. -/
def part1 (hL hR : K) (d g : S1 K) : S1 K where
  mid := -2 * d.mid / (hL * hR) * g.mid
  left := (d.mid * 2 / (hL * (hL + hR)) + (d.left - d.right) / ((hL + hR) * (hL + hR))) * g.left
  right := (d.mid * 2 / (hR * (hL + hR)) + (d.right - d.left) / ((hL + hR) * (hL + hR))) * g.right

/-- The rate added to one cluster by `Diffusion2DHandler::computeDiffusion`; the diffusion coefficients only depend on the depth.  xolotl/core/src/diffusion/Diffusion2DHandler.cpp:120-142. -/
def conc2 (hL hR sy : K) (d : S1 K) (g c : S2 K) : K :=
  let oldConc := c.mid * g.mid
  let oldLeft := c.left * g.left
  let oldRight := c.right * g.right
  let oldBottom := c.bottom * g.bottom
  let oldTop := c.top * g.top
  d.mid * (2 * (oldLeft + hL / hR * oldRight - (1 + hL / hR) * oldConc) / (hL * (hL + hR))
      + sy * (oldBottom + oldTop - 2 * oldConc))
    + (d.right - d.left) * (oldRight - oldLeft) / ((hL + hR) * (hL + hR))

/-- The five values written by `Diffusion2DHandler::computePartialsForDiffusion`.  xolotl/core/src/diffusion/Diffusion2DHandler.cpp:162-182. -/
def part2 (hL hR sy : K) (d : S1 K) (g : S2 K) : S2 K where
  mid := -2 * d.mid * (1 / (hL * hR) + sy) * g.mid
  left := (d.mid * 2 / (hL * (hL + hR)) + (d.left - d.right) / ((hL + hR) * (hL + hR))) * g.left
  right := (d.mid * 2 / (hR * (hL + hR)) + (d.right - d.left) / ((hL + hR) * (hL + hR))) * g.right
  bottom := d.mid * sy * g.bottom
  top := d.mid * sy * g.top

/-- The rate added to one cluster by `Diffusion3DHandler::computeDiffusion`.  xolotl/core/src/diffusion/Diffusion3DHandler.cpp:132-159. -/
def conc3 (hL hR sy sz : K) (d : S1 K) (g c : S3 K) : K :=
  let oldConc := c.mid * g.mid
  let oldLeft := c.left * g.left
  let oldRight := c.right * g.right
  let oldBottom := c.bottom * g.bottom
  let oldTop := c.top * g.top
  let oldFront := c.front * g.front
  let oldBack := c.back * g.back
  d.mid * (2 * (oldLeft + hL / hR * oldRight - (1 + hL / hR) * oldConc) / (hL * (hL + hR))
      + sy * (oldBottom + oldTop - 2 * oldConc) + sz * (oldFront + oldBack - 2 * oldConc))
    + (d.right - d.left) * (oldRight - oldLeft) / ((hL + hR) * (hL + hR))

/-- The seven values written by `Diffusion3DHandler::computePartialsForDiffusion`.  xolotl/core/src/diffusion/Diffusion3DHandler.cpp:180-207. -/
def part3 (hL hR sy sz : K) (d : S1 K) (g : S3 K) : S3 K where
  mid := -2 * d.mid * (1 / (hL * hR) + sy + sz) * g.mid
  left := (d.mid * 2 / (hL * (hL + hR)) + (d.left - d.right) / ((hL + hR) * (hL + hR))) * g.left
  right := (d.mid * 2 / (hR * (hL + hR)) + (d.right - d.left) / ((hL + hR) * (hL + hR))) * g.right
  bottom := d.mid * sy * g.bottom
  top := d.mid * sy * g.top
  front := d.mid * sz * g.front
  back := d.mid * sz * g.back

/-- `hxLeft` at grid point `xi` of `nX` points; `grid` is total here, the caller has to keep the indices inside.  xolotl/solver/src/handler/PetscSolver1DHandler.cpp:956-968, 1271-1283. -/
def hxLeft (grid : ℕ → K) (xi : ℕ) : K := if xi < 1 then grid (xi + 1) - grid xi else (grid (xi + 1) - grid (xi - 1)) / 2

/-- `hxRight` at grid point `xi` of `nX` points.  xolotl/solver/src/handler/PetscSolver1DHandler.cpp:956-968, 1271-1283. -/
def hxRight (nX : ℕ) (grid : ℕ → K) (xi : ℕ) : K :=
  if 1 ≤ xi ∧ xi < nX then (grid (xi + 2) - grid xi) / 2
  else if xi < 1 then (grid (xi + 2) - grid xi) / 2
  else grid (xi + 1) - grid xi

/-- `DiffusionHandler::initialize`: the clusters `i < n` with a non-zero diffusion factor and a migration energy not above the threshold, in increasing order.  `util::equal(x, 0)` is the test `|x| < eps`.
xolotl/core/src/diffusion/DiffusionHandler.cpp:31-58; xolotl/util/include/xolotl/util/MathUtils.h:78-83. -/
def diffusing (n : ℕ) (factor migration : ℕ → K) (eps threshold : K) : List ℕ :=
  (List.range n).foldl (fun acc i => if |factor i| < eps ∨ migration i > threshold then acc else acc ++ [i]) []

/-- The loop over the diffusing clusters in `computeDiffusion`: position `i` of the list adds its rate to the degree of freedom `ids[i]`.  The iterations of the `parallel_for` are executed in the order `order`.
xolotl/core/src/diffusion/Diffusion1DHandler.cpp:99-126; Diffusion2DHandler.cpp:115-146; Diffusion3DHandler.cpp:127-163. -/
def addAll (ids : ℕ → ℕ) (rate : ℕ → K) (order : List ℕ) (u : ℕ → K) : ℕ → K :=
  order.foldl (fun u i => Function.update u (ids i) (u (ids i) + rate i)) u

/-- The loop over the clusters in `computePartialsForDiffusion`: position `i` writes its `s` values at `s * i, …, s * i + s - 1`.
xolotl/core/src/diffusion/Diffusion1DHandler.cpp:140-162; Diffusion2DHandler.cpp:158-183; Diffusion3DHandler.cpp:176-208. -/
def writeAll (s : ℕ) (row : ℕ → ℕ → K) (order : List ℕ) (val : ℕ → K) : ℕ → K :=
  order.foldl (fun v i => (List.range s).foldl (fun v k => Function.update v (i * s + k) (row i k)) v) val

end Xolotl.Transport
