import Verif.Util.Interp
import Verif.Solver.Initial
import Mathlib.Algebra.Order.Floor.Ring

/-!
# The temperature handlers

Model of the five values of `tempHandler`: how a handler is made from the options, the temperature it gives at a place and a time, the temperature it takes from the solution, and its heat flux.  Numbers are elements of an ordered field instead of
doubles, `eps` is the machine epsilon of `util::equal`.  `none` of `make` is an exception, `none` of `temperature` and `heatFlux` is a read outside of a vector.

A file is the list of its lines as `getline` gives them; `num` is the conversion `%lf` of `sscanf`: the number at the start of the text (after blanks) and the text after it.  A file that cannot be opened has no lines.
Not modelled: the messages of the constructors, the material constants (`Transport.Heat`), the heat equation itself (`Transport.Heat`, C30), printing.
-/

namespace Xolotl.Transport.Temperature

open Xolotl.Util

variable {K : Type} [Field K] [LinearOrder K]

/-- The options used.  `param` is `tempParam`, (0, 0) if it is not given; `file` is `none` if `tempFile` is not given.
xolotl/options/src/Options.cpp:24-26, 259-278; xolotl/options/include/xolotl/options/Options.h:427-430; xolotl/options/src/ConfOptions.cpp:77-90, 258-265. -/
structure Opts (K : Type) where
  name : String
  param : K × K
  file : Option (List (List Char))
  material : String

/-- Two numbers of a line: those that cannot be converted keep the value 0.
xolotl/core/src/temperature/ProfileHandler.cpp:55-56; HeatEquationHandler.cpp:60-61. -/
def scan (num : List Char → Option (K × List Char)) (l : List Char) : K × K :=
  match num l with
  | none => (0, 0)
  | some (x, r) =>
    match num r with
    | none => (x, 0)
    | some (y, _) => (x, y)

/-- One line: nothing for an empty line and for a comment.  xolotl/core/src/temperature/ProfileHandler.cpp:52-59; HeatEquationHandler.cpp:57-64. -/
def readLine (num : List Char → Option (K × List Char)) (v : List K × List K) (l : List Char) : List K × List K :=
  if l.length = 0 ∨ l.head? = some '#' then v
  else (v.1 ++ [(scan num l).1], v.2 ++ [(scan num l).2])

/-- The loop over the lines.  xolotl/core/src/temperature/ProfileHandler.cpp:47-59; HeatEquationHandler.cpp:52-64. -/
def readFile (num : List Char → Option (K × List Char)) (v : List K × List K) (ls : List (List Char)) : List K × List K := ls.foldl (readLine num) v

/-- The members of `HeatEquationHandler` that are used here.  xolotl/core/include/xolotl/core/temperature/HeatEquationHandler.h:118-123, 153-179. -/
structure HeatState (K : Type) where
  /-- `bulkTemperature` -/
  bulk : K
  /-- `localTemperature` -/
  loc : K
  /-- `zeroFlux` -/
  zeroFlux : Bool
  /-- `elmFlux` -/
  elmFlux : Bool
  /-- `time`, `flux` -/
  table : List K × List K

/-- A handler. -/
inductive Handler (K : Type)
  | constant (temperature : K)
  | gradient (surface bulk : K)
  | profile (table : List K × List K)
  | heat (s : HeatState K)

/-- `util::equal`.  xolotl/util/include/xolotl/util/MathUtils.h:78-83. -/
def equal (eps a b : K) : Bool := decide (|b - a| < eps)

/-- The materials with heat parameters.  xolotl/core/src/temperature/HeatEquationHandler.cpp:80-100. -/
def heatMaterials : List String := ["W100", "W110", "W111", "W211", "TRIDYN", "Fuel", "Fe"]

/-- The first constructor of `HeatEquationHandler`.  xolotl/core/src/temperature/HeatEquationHandler.cpp:38-70. -/
def makeHeat (eps : K) (num : List Char → Option (K × List Char)) (flux bulk : K) (file : Option (List (List Char))) : HeatState K :=
  { bulk := bulk, loc := 0, zeroFlux := equal eps flux 0, elmFlux := false,
    table := match file with
      | some ls => readFile num ([], []) ls
      | none => ([-1], [flux]) }

/-- The ELM branch of the second constructor.  xolotl/core/src/temperature/HeatEquationHandler.cpp:104-108. -/
def elm (p : K) (s : HeatState K) : HeatState K := { s with elmFlux := true, zeroFlux := false, bulk := p }

/-- `TemperatureHandlerFactory::generate` and `initialize`, which reads the file of a profile.
xolotl/factory/include/xolotl/factory/impl/Factory.tpp:27-52; xolotl/factory/include/xolotl/factory/temperature/TemperatureHandlerFactory.h:30-34; xolotl/core/src/temperature/ConstantHandler.cpp:14-34; GradientHandler.cpp:14-38;
ProfileHandler.cpp:16-60; HeatEquationHandler.cpp:16-18, 72-129. -/
def make (eps : K) (num : List Char → Option (K × List Char)) (o : Opts K) : Option (Handler K) :=
  if o.name = "constant" then some (.constant o.param.1)
  else if o.name = "gradient" then some (.gradient o.param.1 o.param.2)
  else if o.name = "profile" then some (.profile (readFile num ([], []) (o.file.getD [])))
  else if o.name = "heat" ∨ o.name = "ELM" then
    if o.material ∈ heatMaterials then
      let s := makeHeat eps num o.param.1 o.param.2 o.file
      some (.heat (if o.name = "ELM" then elm o.param.1 s else s))
    else none
  else none

/-- `setTemperature`: keeps the temperature of the solution.  xolotl/core/src/temperature/HeatEquationHandler.cpp:146-154; xolotl/core/include/xolotl/core/temperature/TemperatureHandler.h:30-34. -/
def setTemperature (h : Handler K) (sol : K) : Handler K :=
  match h with
  | .heat s => .heat { s with loc := sol }
  | h => h

/-- A `bool` used as a number. -/
def num01 (b : Bool) : K := if b then 1 else 0

/-- `getTemperature`.  xolotl/core/include/xolotl/core/temperature/ConstantHandler.h:49-53; xolotl/core/src/temperature/GradientHandler.cpp:44-50; ProfileHandler.cpp:62-94; HeatEquationHandler.cpp:135-144. -/
def temperature (eps : K) (h : Handler K) (fraction : K × K × K) (time : K) : Option K :=
  match h with
  | .constant t => some t
  | .gradient s b => some (s + (b - s) * fraction.1)
  | .profile t => Interp.interp t.1 t.2 time
  | .heat s => if s.zeroFlux then some s.bulk else some (num01 (equal eps time 0) * s.bulk + num01 (!equal eps time 0) * s.loc)

/-- The temperature that an evaluation uses at a point with the temperature `sol` in the solution.
xolotl/solver/src/handler/PetscSolver0DHandler.cpp:274-275, 319-320; PetscSolver1DHandler.cpp:866-868, 1138-1139; PetscSolver2DHandler.cpp:880-883, 1225-1228; PetscSolver3DHandler.cpp:975-978, 1359-1362. -/
def used (eps : K) (h : Handler K) (fraction : K × K × K) (time sol : K) : Option K := temperature eps (setTemperature h sol) fraction time

/-- What is added to the time derivative of the temperature in the solution; `heat` is the sum of the heat equation, which the handler in zero dimensions never computes.
xolotl/core/src/temperature/HeatEquationHandler.cpp:254-257; xolotl/core/include/xolotl/core/temperature/TemperatureHandler.h:79-87; xolotl/solver/src/handler/PetscSolver0DHandler.cpp:262-300. -/
def rateT (zeroD : Bool) (h : Handler K) (heat : K) : K :=
  match h with
  | .heat s => if s.zeroFlux || zeroD then 0 else heat
  | _ => 0

/-- The ELM flux; `e` is `exp`.  xolotl/core/src/temperature/HeatEquationHandler.cpp:487-497. -/
def elmPulse [FloorRing K] (e : K → K) (t : K) : K :=
  let qInter : K := 6 / 10 ^ 12
  let q0 : K := 74 / 10 ^ 11
  let tau : K := 8 / 10 * (25 / 10 ^ 5)
  let freq : K := 50
  let cycle : K := t - (⌊t * freq⌋ : ℤ) * (1 / freq)
  let x : K := if cycle > 0 then tau / cycle else 0
  qInter + q0 * (1 + x * x) * x * x * e (-x * x)

/-- `getHeatFlux`.  xolotl/core/src/temperature/HeatEquationHandler.cpp:483-526. -/
def heatFlux [FloorRing K] (e : K → K) (s : HeatState K) (t : K) : Option K :=
  if s.elmFlux then some (elmPulse e t) else Interp.interp s.table.1 s.table.2 t

end Xolotl.Transport.Temperature
