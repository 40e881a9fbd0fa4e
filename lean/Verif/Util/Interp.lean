import Mathlib.Algebra.Order.Field.Basic
import Mathlib.Tactic.Linarith
import Mathlib.Tactic.Ring
import Mathlib.Tactic.FieldSimp
import Mathlib.Tactic.NormNum
import Mathlib.Data.List.Basic
import Mathlib.Data.Rat.Floor

/-!
# Tabulated time profiles

Model of the piecewise linear interpolation used three times, with the same text, by `FluxHandler::getProfileAmplitude`, `ProfileHandler::getTemperature` and `HeatEquationHandler::getHeatFlux` (without the ELM option).

Numbers are elements of an ordered field instead of doubles.  `none` stands for undefined behaviour: a read outside a vector, or a division by zero (whose result would not be a number).
-/

namespace Xolotl.Util.Interp

variable {K : Type*} [Field K] [LinearOrder K] [IsStrictOrderedRing K]

/-- The value on interval `k`.  xolotl/core/src/flux/FluxHandler.cpp:194-196, xolotl/core/src/temperature/ProfileHandler.cpp:87-89, xolotl/core/src/temperature/HeatEquationHandler.cpp:519-521. -/
def linear (t0 t1 v0 v1 t : K) : Option K :=
  if t1 - t0 = 0 then none else some (v0 + (v1 - v0) * (t - t0) / (t1 - t0))

/-- One turn of the loop, or the next one; `fuel` turns are left and `k` is the loop variable.  After the last turn the initial value `f = 0` is returned.
xolotl/core/src/flux/FluxHandler.cpp:186-200, ProfileHandler.cpp:79-93, HeatEquationHandler.cpp:511-525. -/
def search (time vals : List K) (t : K) : (fuel k : ℕ) → Option K
  | 0, _ => some 0
  | fuel + 1, k =>
    match time[k]?, time[k + 1]? with
    | some t0, some t1 =>
      if t < t0 then search time vals t fuel (k + 1)
      else if t > t1 then search time vals t fuel (k + 1)
      else
        match vals[k]?, vals[k + 1]? with
        | some v0, some v1 => linear t0 t1 v0 v1 t
        | _, _ => none
    | _, _ => none

/-- The interpolated value at time `t`.
xolotl/core/src/flux/FluxHandler.cpp:168-201, xolotl/core/src/temperature/ProfileHandler.cpp:62-94, xolotl/core/src/temperature/HeatEquationHandler.cpp:500-526 (the part without ELM). -/
def interp (time vals : List K) (t : K) : Option K :=
  match time[0]?, time[time.length - 1]? with
  | some first, some last =>
    if t ≤ first then vals[0]?
    else if t ≥ last then vals[time.length - 1]?
    else search time vals t (time.length - 1) 0
  | _, _ => none

end Xolotl.Util.Interp
