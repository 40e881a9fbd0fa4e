import Mathlib.Data.Nat.Notation
import Mathlib.Data.Int.Notation

/-!
# The handlers made from the options

Model of the constructor of `MaterialHandler` (`/repo/xolotl/core/src/material/MaterialHandler.cpp:19-148`, `/repo/xolotl/core/include/xolotl/core/material/MaterialHandler.h:61-101`), of the materials
(`/repo/xolotl/core/include/xolotl/core/material/*MaterialHandler.h`), of the two factories that look for the material (`/repo/xolotl/factory/include/xolotl/factory/impl/Factory.tpp:27-60`), and of what the solvers
ask of the advection handlers: to be initialised for the network and to be evaluated on a stencil (`/repo/xolotl/core/src/advection/{X,Y,Z}GBAdvectionHandler.cpp`).

The conversion of a location (`strtod`) is a parameter.  The messages are not modelled, nor is the constructor of the flux handler (C57, C72).
-/

namespace Xolotl.Options.Material

/-- An outcome: a value, an exception, or undefined behaviour. -/
inductive Res (α : Type*)
  | ok (a : α)
  | throws
  | undefined
  deriving DecidableEq

/-- Go on with the value. -/
def Res.bind {α β : Type*} : Res α → (α → Res β) → Res β
  | .ok a, f => f a
  | .throws, _ => .throws
  | .undefined, _ => .undefined

/-- The direction of a grain boundary. -/
inductive Axis
  | x | y | z
  deriving DecidableEq

/-- The diffusion handlers: `DummyDiffusionHandler`, or that of one, two or three dimensions. -/
inductive Diff
  | dummy | d1 | d2 | d3
  deriving DecidableEq

/-- The flux handlers. -/
inductive Flux
  | custom | w100 | w110 | w111 | w211 | pulsed | fuel | fe | zr | alloy
  deriving DecidableEq

/-- The material handlers. -/
inductive Kind
  | w100 | w110 | w111 | w211 | pulsed | fuel | fe | zr | alloy
  deriving DecidableEq

/-- The advection handlers. -/
inductive Adv (L : Type*)
  | surface (k : Kind)
  | dummy
  | boundary (a : Axis) (location : L) (dim : ℤ)
  deriving DecidableEq

/-- The network handlers. -/
inductive Net
  | psi | ne | fe | zr | alloy
  deriving DecidableEq

/-- The first template argument of the generator.  W100MaterialHandler.h:20, W110MaterialHandler.h:19, W111MaterialHandler.h:19, W211MaterialHandler.h:19, {Pulsed,Fuel,Fe,AlphaZr,Alloy}MaterialHandler.h:18. -/
def Kind.flux : Kind → Flux
  | .w100 => .w100 | .w110 => .w110 | .w111 => .w111 | .w211 => .w211 | .pulsed => .pulsed | .fuel => .fuel | .fe => .fe | .zr => .zr | .alloy => .alloy

/-- Whether the second template argument is given: a surface advection handler.  W100MaterialHandler.h:21, W110MaterialHandler.h:20, W111MaterialHandler.h:20, W211MaterialHandler.h:20; the others take the dummy, MaterialHandler.h:62. -/
def Kind.surface : Kind → Bool
  | .w100 | .w110 | .w111 | .w211 => true
  | _ => false

/-- Whether the third template argument is given: the Soret handler.  W100MaterialHandler.h:22; the others take the dummy, MaterialHandler.h:63-64. -/
def Kind.soret : Kind → Bool
  | .w100 => true
  | _ => false

/-- The materials registered in `MaterialHandlerFactory`.  core/src/material/*MaterialHandler.cpp:11-13. -/
def materials : List (String × Kind) :=
  [("W100", .w100), ("W110", .w110), ("W111", .w111), ("W211", .w211), ("Pulsed", .pulsed), ("Fuel", .fuel), ("Fe", .fe), ("AlphaZr", .zr), ("800H", .alloy)]

/-- The materials registered in `NetworkHandlerFactory`.  PSINetworkHandler.cpp:188-190, NENetworkHandler.cpp:12-14, FeNetworkHandler.cpp:12-14, ZrNetworkHandler.cpp:12-14, AlloyNetworkHandler.cpp:12-14. -/
def networks : List (String × Net) :=
  [("W100", .psi), ("W110", .psi), ("W111", .psi), ("W211", .psi), ("Pulsed", .psi), ("Fuel", .ne), ("Fe", .fe), ("AlphaZr", .zr), ("800H", .alloy)]

/-- `Factory::generate`: the registered generator, or an exception.  Factory.tpp:27-38. -/
def generate {α : Type*} (reg : List (String × α)) (name : String) : Res α :=
  match reg.lookup name with
  | none => .throws
  | some a => .ok a

/-- `createDiffusionHandler`.  MaterialHandler.cpp:50-82. -/
def diffusion (diff : Bool) (dim : ℤ) : Res Diff :=
  if !diff then .ok .dummy
  else if dim = 0 then .ok .dummy
  else if dim = 1 then .ok .d1
  else if dim = 2 then .ok .d2
  else if dim = 3 then .ok .d3
  else .throws

variable {L : Type*}

/-- The loop over the tokens of the grain boundaries: a direction, then a location; the test for the dimension comes first, and the location is read without looking whether it is there.
MaterialHandler.cpp:107-147. -/
def boundaries (strtod : String → L) (dim : ℤ) : List String → Res (List (Adv L))
  | [] => .ok []
  | [t] =>
    if t = "X" then .undefined
    else if t = "Y" then (if dim < 2 then .throws else .undefined)
    else if t = "Z" then (if dim < 2 then .throws else .undefined)
    else .throws
  | t :: v :: r =>
    if t = "X" then (boundaries strtod dim r).bind fun l => .ok (.boundary .x (strtod v) dim :: l)
    else if t = "Y" then (if dim < 2 then .throws else (boundaries strtod dim r).bind fun l => .ok (.boundary .y (strtod v) dim :: l))
    else if t = "Z" then (if dim < 2 then .throws else (boundaries strtod dim r).bind fun l => .ok (.boundary .z (strtod v) dim :: l))
    else .throws

/-- The options looked at. -/
structure Opts where
  material : String
  diff : Bool
  advec : Bool
  soret : Bool
  /-- the path of the depth profile of the flux -/
  profile : String
  dim : ℤ
  /-- the tokens of the option `grain` -/
  grain : List String

/-- What a material handler holds. -/
structure Handlers (L : Type*) where
  diffusion : Diff
  advection : List (Adv L)
  flux : Flux
  soret : Bool
  deriving DecidableEq

/-- The constructor of the material handler: diffusion first, then the other handlers, Soret, advection.  MaterialHandler.cpp:19-27, 84-101; MaterialHandler.h:67-101. -/
def construct (strtod : String → L) (k : Kind) (o : Opts) : Res (Handlers L) :=
  (Material.diffusion o.diff o.dim).bind fun d =>
  (boundaries strtod o.dim o.grain).bind fun b =>
  .ok { diffusion := d, advection := (if o.advec && k.surface then .surface k else .dummy) :: b, flux := if o.profile.isEmpty then k.flux else .custom, soret := o.soret && k.soret }

/-- `MaterialHandlerFactory::generate`. -/
def make (strtod : String → L) (o : Opts) : Res (Handlers L) := (generate materials o.material).bind fun k => construct strtod k o

/-- `initialize` of an advection handler: those of grain boundaries and surfaces cast the network to a tungsten network and use the pointer without looking whether it is null.
Then they look for the helium clusters of sizes 1 to 7, and throw if one is missing.  {X,Y,Z}GBAdvectionHandler.cpp:22-40, TungstenAdvectionHandler.cpp:29-46; the dummy does nothing, DummyAdvectionHandler.h:37-47. -/
def Adv.init (n : Net) (helium : Bool) : Adv L → Res Unit
  | .dummy => .ok ()
  | _ => if n = .psi then (if helium then .ok () else .throws) else .undefined

/-- The number of points of the stencil that `computeAdvection` asks for, if any.  SurfaceAdvectionHandler.cpp:116-120, XGBAdvectionHandler.cpp:109-113, YGBAdvectionHandler.cpp:109-113, ZGBAdvectionHandler.cpp:109-113. -/
def Adv.asks : Adv L → ℕ
  | .dummy => 0
  | .surface _ => 3
  | .boundary .x _ _ => 5
  | .boundary .y _ _ => 5
  | .boundary .z _ _ => 7

/-- The number of points of the stencil that the solver gives: the point and two for each dimension.  PetscSolver1DHandler.cpp:1006-1010, PetscSolver2DHandler.cpp:1083-1088, PetscSolver3DHandler.cpp:1204-1210. -/
def given (dim : ℕ) : ℕ := 1 + 2 * dim

/-- One call of `computeAdvection` for each handler: an exception if the stencil is too small. -/
def evaluate (dim : ℕ) (l : List (Adv L)) : Res Unit := if l.all fun h => decide (h.asks ≤ given dim) then .ok () else .throws

/-- The initialisation of all handlers by the solvers in one, two and three dimensions; without dimension they are never initialised nor evaluated.
PetscSolver1DHandler.cpp:137-139, PetscSolver2DHandler.cpp:156-158, PetscSolver3DHandler.cpp:185-187. -/
def initAll (n : Net) (helium : Bool) : List (Adv L) → Res Unit
  | [] => .ok ()
  | h :: r => (h.init n helium).bind fun _ => initAll n helium r

/-- From the options to the first evaluation of the advection at a point of the grid; `helium` says whether the network has the helium clusters of sizes 1 to 7.  The network comes first, then the material, then the solver handler, which refuses other dimensions.
Solver.cpp:13-36, PetscSolver.cpp:116-139. -/
def run (strtod : String → L) (helium : Bool) (o : Opts) : Res (Handlers L) :=
  (generate networks o.material).bind fun n => (make strtod o).bind fun h =>
  if o.dim < 0 ∨ 3 < o.dim then .throws else
  if o.dim = 0 then .ok h else (initAll n helium h.advection).bind fun _ => (evaluate o.dim.toNat h.advection).bind fun _ => .ok h

/-- Whether the solver computes Soret diffusion: the solver of one dimension only uses the handler; the dummy adds nothing.  PetscSolver1DHandler.cpp:153, 990-992; the other solvers do not call it. -/
def soretUsed (dim : ℤ) (h : Handlers L) : Bool := decide (dim = 1) && h.soret

end Xolotl.Options.Material
