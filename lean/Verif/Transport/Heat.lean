import Mathlib.Algebra.Order.Field.Basic
import Mathlib.Algebra.BigOperators.Intervals

/-!
# The heat equation

Model of `HeatEquationHandler::computeTemperature` and `computePartialsForTemperature`, with the material functions they use.  Numbers are elements of an ordered field instead of doubles.  The heat flux at the current time is a parameter (its interpolation is the same as that of C24; the pulse of an ELM contains an exponential and is in `Transport/Temperature.lean`).
-/

namespace Xolotl.Transport.Heat

variable {K : Type*} [Field K] [LinearOrder K] [IsStrictOrderedRing K]

/-- `getLocalHeatBeta`.  xolotl/core/src/temperature/HeatEquationHandler.cpp:175-184. -/
def beta (t : K) : K :=
  (-(24 / 10 ^ 13) * t * t * t * t - 367 / 10 ^ 12 * t * t * t + 465 / 10 ^ 7 * t * t - 131 / 1000 * t + 207) * (1 / 10 ^ 9)

/-- `getDBeta`.  xolotl/core/src/temperature/HeatEquationHandler.cpp:208-216. -/
def dBeta (t : K) : K :=
  (-(96 / 10 ^ 13) * t * t * t - 1101 / 10 ^ 12 * t * t + 93 / 10 ^ 6 * t - 131 / 1000) * (1 / 10 ^ 9)

/-- `getDDBeta`.  xolotl/core/src/temperature/HeatEquationHandler.cpp:218-224. -/
def ddBeta (t : K) : K := (-(288 / 10 ^ 13) * t * t - 2202 / 10 ^ 12 * t + 93 / 10 ^ 6) * (1 / 10 ^ 9)

/-- The heat capacity.  xolotl/core/src/temperature/HeatEquationHandler.cpp:198, 243. -/
def capacity (t : K) : K := -(401 / 10 ^ 8) * t * t + 361 / 10 ^ 4 * t + 119

/-- The density of tungsten.  xolotl/core/src/temperature/HeatEquationHandler.cpp:197, 242. -/
def density : K := 1925 / 10 ^ 26

/-- `getLocalHeatGamma`.  xolotl/core/src/temperature/HeatEquationHandler.cpp:193-200. -/
def gamma (t : K) : K := 1 / (density * capacity t)

/-- `getDGamma`.  xolotl/core/src/temperature/HeatEquationHandler.cpp:239-246. -/
def dGamma (t : K) : K := -(361 / 10 ^ 4 - 802 / 10 ^ 8 * t) / (density * capacity t * capacity t)

/-- `getBulkHeatFlux`.  xolotl/core/src/temperature/HeatEquationHandler.cpp:21-29. -/
def bulkFlux (t : K) : K := (-(87993 / 10 ^ 4) + 845 / 10 ^ 4 * (t - 273)) * (1 / 10 ^ 12)

/-- `getBulkHeatFluxDerivative`.  xolotl/core/src/temperature/HeatEquationHandler.cpp:31-36. -/
def dBulkFlux (_t : K) : K := 845 / 10 ^ 4 * (1 / 10 ^ 12)

/-- The members and arguments used. -/
structure Ctx (K : Type*) where
  /-- `dimension` -/
  dim : ℕ
  /-- `surfacePosition` -/
  surf : ℕ
  /-- `bulkPosition` -/
  bulk : ℕ
  /-- `xGrid` -/
  grid : ℕ → K
  /-- `interfaceLoc` -/
  loc : K
  /-- `portion` -/
  por : K
  /-- the heat flux at the current time -/
  flux : K
  hL : K
  hR : K
  /-- `s[d]`: 0, `sy`, `sz` -/
  s : ℕ → K

/-- `getLocalHeatAlpha`; the statements after the two returns are never reached.  xolotl/core/src/temperature/HeatEquationHandler.cpp:156-167. -/
def alpha (p : Ctx K) (xi : ℕ) : K := if p.grid (xi + 1) - p.grid (p.surf + 1) < p.loc then 1 / 5 else 1

/-- `getDAlpha`: returns zero.  xolotl/core/src/temperature/HeatEquationHandler.cpp:226-229. -/
def dAlpha (_p : Ctx K) (_xi : ℕ) : K := 0

/-- The sum over the additional dimensions.  xolotl/core/src/temperature/HeatEquationHandler.cpp:350-354. -/
def transverse (p : Ctx K) (xi : ℕ) (c : ℕ → K) : K :=
  ∑ d ∈ Finset.Ico 1 p.dim, alpha p xi * beta (c 0) * gamma (c 0) * p.s d * (c (2 * d + 1) + c (2 * d + 2) - 2 * c 0)

/-- What `computeTemperature` adds at grid point `xi`; `c` are the temperatures by stencil index (0 middle, `2 d + 1` and `2 d + 2` the neighbours along axis `d`).  The case `zeroFlux`, in which nothing is added and no derivative is reported, is left out.
xolotl/core/src/temperature/HeatEquationHandler.cpp:276-355. -/
def rhs (p : Ctx K) (xi : ℕ) (c : ℕ → K) : K :=
  let al := alpha p xi
  let dAl := dAlpha p xi
  let b := beta (c 0)
  let g := gamma (c 0)
  let db := dBeta (c 0)
  (if xi = p.surf then
    (2 * p.flux * g / p.hL + 2 * al * b * g * (c 2 - c 0) / (p.hL * p.hR))
      + (-p.flux * dAl * g / al + p.flux * p.flux * g * db / (al * b * b))
  else if xi = p.bulk then
    if p.por ≥ 0 then
      2 * al * b * g * (1 - p.por) * (c 1 - c 0) / (p.hL * (p.hL + p.hR))
        + (dAl * b * g * (1 + p.hR * p.por / p.hL) * (c 1 - c 0) / (p.hL + p.hR)
          + al * db * g * (1 + p.hR * p.por / p.hL) * (1 + p.hR * p.por / p.hL) * (c 1 - c 0) * (c 1 - c 0)
              / ((p.hL + p.hR) * (p.hL + p.hR)))
    else
      (-(2 * bulkFlux (c 0) * g / p.hR) + 2 * al * b * g * (c 1 - c 0) / (p.hL * p.hR))
        + (-bulkFlux (c 0) * dAl * g / al + bulkFlux (c 0) * bulkFlux (c 0) * g * db / (al * b * b))
  else
    2 * al * b * g * (c 1 + p.hL / p.hR * c 2 - (1 + p.hL / p.hR) * c 0) / (p.hL * (p.hL + p.hR))
      + (dAl * b * g * (c 2 - c 1) / (p.hL + p.hR) + al * db * g * (c 2 - c 1) * (c 2 - c 1) / ((p.hL + p.hR) * (p.hL + p.hR))))
  + transverse p xi c

/-- The test for the interface.  xolotl/core/src/temperature/HeatEquationHandler.cpp:421-425. -/
def atInterface (p : Ctx K) (xi : ℕ) : Prop :=
  p.loc > p.grid xi - p.grid (p.surf + 1) ∧ p.loc ≤ p.grid (xi + 1) - p.grid (p.surf + 1)

instance (p : Ctx K) (xi : ℕ) : Decidable (atInterface p xi) := inferInstanceAs (Decidable (_ ∧ _))

/-- The derivative reported for the middle point before the boundary conditions replace it.  xolotl/core/src/temperature/HeatEquationHandler.cpp:394-404, 414-416. -/
def midInner (p : Ctx K) (xi : ℕ) (c : ℕ → K) : K :=
  let al := alpha p xi
  let dAl := dAlpha p xi
  let b := beta (c 0)
  let g := gamma (c 0)
  let db := dBeta (c 0)
  let dg := dGamma (c 0)
  let ddb := ddBeta (c 0)
  (-2 * al * b * g / (p.hL * p.hR))
    + al * (ddb * g + dg * db) * (c 2 - c 1) * (c 2 - c 1) / ((p.hL + p.hR) * (p.hL + p.hR))
    + 2 * al * (db * g + b * dg) * (c 1 + p.hL / p.hR * c 2 - (1 + p.hL / p.hR) * c 0) / ((p.hL + p.hR) * p.hL)
    + dAl * (db * g + dg * b) * (c 2 - c 1) / (p.hL + p.hR)
    - (∑ d ∈ Finset.Ico 1 p.dim, 2 * al * b * g * p.s d)

/-- The values reported by `computePartialsForTemperature`: `val[0]`, `val[1]`, `val[2]`.  xolotl/core/src/temperature/HeatEquationHandler.cpp:394-412, 421-478. -/
def part (p : Ctx K) (xi : ℕ) (c : ℕ → K) : K × K × K :=
  let al := alpha p xi
  let dAl := dAlpha p xi
  let b := beta (c 0)
  let g := gamma (c 0)
  let db := dBeta (c 0)
  let dg := dGamma (c 0)
  let ddb := ddBeta (c 0)
  if xi = p.surf ∨ atInterface p xi then
    (2 * p.flux * dg / p.hL - 2 * al * b * g / (p.hL * p.hR) + 2 * al * (db * g + dg * b) * (c 2 - c 0) / (p.hL * p.hR)
        - p.flux * dg * dAl / al + p.flux * p.flux * (g * ddb + dg * db) / (al * b * b)
        - 2 * p.flux * p.flux * g * db * db * (al * b * b * b),
      0, 2 * al * b * g / (p.hL * p.hR))
  else if xi = p.bulk then
    if p.por ≥ 0 then
      let w := 1 + p.hR * p.por / p.hL
      (-2 * al * b * g * (1 - p.por) / (p.hL * (p.hL + p.hR)) + dAl * b * g * w / (p.hL + p.hR)
          + 2 * al * db * g * w * w * (c 0 - c 1) / ((p.hL + p.hR) * (p.hL + p.hR)),
        2 * al * b * g * (1 - p.por) / (p.hL * (p.hL + p.hR)) - dAl * b * g * w / (p.hL + p.hR)
          - 2 * al * db * g * w * w * (c 0 - c 1) / ((p.hL + p.hR) * (p.hL + p.hR)), 0)
    else
      let bf := bulkFlux (c 0)
      let dbf := dBulkFlux (c 0)
      (-2 * bf * dg / p.hR - 2 * al * b * g / (p.hL * p.hR) + 2 * al * (db * g + dg * b) * (c 1 - c 0) / (p.hL * p.hR)
          - bf * dAl * dg / al + bf * bf * (g * ddb + dg * db) / (al * b * b) - 2 * bf * bf * g * db * db * (al * b * b * b)
          - dbf * g * dAl / al - 2 * dbf * g / p.hR + 2 * bf * dbf * g * db / (al * b * b),
        2 * al * b * g / (p.hL * p.hR), 0)
  else
    (midInner p xi c,
      2 * al * b * g / (p.hL * (p.hL + p.hR)) - b * dAl * g / (p.hL + p.hR)
        + 2 * al * db * g * (c 1 - c 2) / ((p.hL + p.hR) * (p.hL + p.hR)),
      2 * al * b * g / (p.hR * (p.hL + p.hR)) + b * dAl * g / (p.hL + p.hR)
        + 2 * al * db * g * (c 2 - c 1) / ((p.hL + p.hR) * (p.hL + p.hR)))

/-- `val[2 d + 1]` and `val[2 d + 2]` for `1 ≤ d < dim`.  xolotl/core/src/temperature/HeatEquationHandler.cpp:414-419. -/
def partT (p : Ctx K) (xi : ℕ) (c : ℕ → K) (d : ℕ) : K := alpha p xi * beta (c 0) * gamma (c 0) * p.s d

end Xolotl.Transport.Heat
