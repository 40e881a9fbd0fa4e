import Mathlib.Algebra.Order.Field.Basic

/-!
# Advection towards the surface and towards grain boundaries

Model of `computeAdvection`, `computePartialsForAdvection` and `getStencilForAdvection` of the surface handler and of the three grain-boundary handlers, for one advecting cluster.

Numbers are elements of an ordered field instead of doubles.  `A` is the sink strength, `D` the diffusion coefficient and `T` the temperature of the cluster at the point (`D2`, `T2` at the point to its right), `k` the Boltzmann constant.  The loops over the clusters are those of `Stencil.addAll` and `Stencil.writeAll` (stride 2).
-/

namespace Xolotl.Transport.Adv

variable {K : Type*} [Field K] [LinearOrder K] [IsStrictOrderedRing K]

/-- A comparison used as a number. -/
def ind (p : Prop) [Decidable p] : K := if p then 1 else 0

/-! ### Surface -/

/-- The rate added by `SurfaceAdvectionHandler::computeAdvection`; `gM`, `gR` are the mask entries, `c`, `cR` the concentrations in the middle and to the right.  xolotl/core/src/advection/SurfaceAdvectionHandler.cpp:136-155. -/
def surfConc (A k loc x hR D D2 T T2 gM gR c cR : K) : K :=
  let oldConc := c * gM
  let oldRight := cR * gR
  3 * A * D * (oldRight / (x - loc + hR) ^ 4 - oldConc / (x - loc) ^ 4) / (k * T * hR)
    + 3 * A * oldConc * (D2 / T2 - D / T) / (k * hR * (x - loc) ^ 4)

/-- The two values written by `SurfaceAdvectionHandler::computePartialsForAdvection`: middle and right.  xolotl/core/src/advection/SurfaceAdvectionHandler.cpp:181-201. -/
def surfPart (A k loc x hR D D2 T T2 gM gR : K) : K × K :=
  (-(3 * A * D) / (k * T * hR * (x - loc) ^ 4) * gM + 3 * A * (D2 / T2 - D / T) / (k * hR * (x - loc) ^ 4) * gM,
   3 * A * D / (k * T * hR * (x - loc + hR) ^ 4) * gR)

/-! ### Grain boundaries -/

/-- `isPointOnSink` of the grain-boundary handlers, `x` being the coordinate across the boundary.  xolotl/core/include/xolotl/core/advection/XGBAdvectionHandler.h:92-97; YGBAdvectionHandler.h:92-97; ZGBAdvectionHandler.h:92-97. -/
def onSink (loc x : K) : Prop := |loc - x| < 1 / 1000

instance (loc x : K) : Decidable (onSink loc x) := inferInstanceAs (Decidable (_ < _))

/-- The non-zero component of `getStencilForAdvection`.  xolotl/core/src/advection/XGBAdvectionHandler.cpp:234-244; YGBAdvectionHandler.cpp:217-227; ZGBAdvectionHandler.cpp:219-229. -/
def stencil (loc x : K) : ℤ :=
  if onSink loc x then 1 else (if x > loc then 1 else 0) - (if x < loc then 1 else 0)

/-- `XGBAdvectionHandler::computeAdvection` for one cluster; `n` is the number of views in the stencil, `c` the concentrations by stencil index (0 middle, 1 left, 2 right); `none` if it throws.  xolotl/core/src/advection/XGBAdvectionHandler.cpp:109-175. -/
def xConc (n : ℕ) (A k loc x hL hR D T : K) (c : ℕ → K) : Option K :=
  if n < 5 then none
  else if onSink loc x then
    some (3 * A * D * (c 1 / hL ^ 5 + c 2 / hR ^ 5) / (k * T))
  else
    let oldConc := c 0
    let oldRight := c (2 * (if x > loc then 1 else 0) + 1 * (if x < loc then 1 else 0))
    let a := |loc - x|
    let b := |loc - x| + hR * ind (x > loc) + hL * ind (x < loc)
    some (3 * A * D * (oldRight / (b * b * b * b) - oldConc / (a * a * a * a)) / (k * T * (hR * ind (x > loc) + hL * ind (x < loc))))

/-- `XGBAdvectionHandler::computePartialsForAdvection` for one cluster: the two values after the call, `old` being those before.  On the sink nothing is written unless the dimension is 1.  xolotl/core/src/advection/XGBAdvectionHandler.cpp:192-231. -/
def xPart (dim : ℕ) (A k loc x hL hR D T : K) (old : K × K) : K × K :=
  if onSink loc x then
    if dim = 1 then (3 * A * D / (k * T * hL ^ 5), 3 * A * D / (k * T * hR ^ 5)) else old
  else
    let a := |loc - x|
    let b := |loc - x| + hR * ind (x > loc) + hL * ind (x < loc)
    (-(3 * A * D) / (k * T * (a * a * a * a) * (hR * ind (x > loc) + hL * ind (x < loc))),
     3 * A * D / (k * T * (b * b * b * b) * (hR * ind (x > loc) + hL * ind (x < loc))))

/-- `YGBAdvectionHandler::computeAdvection` for one cluster (stencil index 3 bottom, 4 top).  xolotl/core/src/advection/YGBAdvectionHandler.cpp:109-167. -/
def yConc (n : ℕ) (A k loc y hy D T : K) (c : ℕ → K) : Option K :=
  if n < 5 then none
  else if onSink loc y then some (3 * A * D * (c 3 / hy ^ 5 + c 4 / hy ^ 5) / (k * T))
  else
    let oldConc := c 0
    let oldRight := c (4 * (if y > loc then 1 else 0) + 3 * (if y < loc then 1 else 0))
    let a := |loc - y|
    let b := |loc - y| + hy
    some (3 * A * D * (oldRight / b ^ 4 - oldConc / a ^ 4) / (k * T * hy))

/-- `YGBAdvectionHandler::computePartialsForAdvection`.  xolotl/core/src/advection/YGBAdvectionHandler.cpp:182-214. -/
def yPart (A k loc y hy D T : K) : K × K :=
  if onSink loc y then (3 * A * D / (k * T * hy ^ 5), 3 * A * D / (k * T * hy ^ 5))
  else
    let a := |loc - y|
    let b := |loc - y| + hy
    (-(3 * A * D) / (k * T * hy * (a * a * a * a)), 3 * A * D / (k * T * hy * (b * b * b * b)))

/-- `ZGBAdvectionHandler::computeAdvection` for one cluster (stencil index 5 front, 6 back).  xolotl/core/src/advection/ZGBAdvectionHandler.cpp:109-169. -/
def zConc (n : ℕ) (A k loc z hz D T : K) (c : ℕ → K) : Option K :=
  if n < 7 then none
  else if onSink loc z then some (3 * A * D * ((c 5 + c 6) / hz ^ 5) / (k * T))
  else
    let oldConc := c 0
    let oldRight := c (6 * (if z > loc then 1 else 0) + 5 * (if z < loc then 1 else 0))
    let a := |loc - z|
    let b := |loc - z| + hz
    some (3 * A * D * (oldRight / b ^ 4 - oldConc / a ^ 4) / (k * T * hz))

/-- `ZGBAdvectionHandler::computePartialsForAdvection`.  xolotl/core/src/advection/ZGBAdvectionHandler.cpp:184-216. -/
def zPart (A k loc z hz D T : K) : K × K :=
  if onSink loc z then (3 * A * D / (k * T * hz ^ 5), 3 * A * D / (k * T * hz ^ 5))
  else
    let a := |loc - z|
    let b := |loc - z| + hz
    (-(3 * A * D) / (k * T * hz * (a * a * a * a)), 3 * A * D / (k * T * hz * (b * b * b * b)))

end Xolotl.Transport.Adv
