import Mathlib.Data.List.Count
import Mathlib.Algebra.Order.Field.Basic

/-!
# The loop over the solves

Model of `PetscSolver`: what `initialize` makes, the loop of `solve` that starts again after the surface moved, the status file, the answer about convergence and `finalize`; and of the bases of options that are pushed and popped around them.

`TSSolve` is a parameter: each call ends with a reason, a time, a time step and a number of steps.  An object of PETSc is the reference that the program holds, made by a `Create` function and given back by a `Destroy` function; the references that PETSc holds itself are left out.  PETSc reads the base of options on top of the stack when it is given `NULL`, and making a `TS` sets its limits from that base or from its defaults (trusted).  The monitors are in `Monitors`, the transfer of the concentrations to the new grid in `Move`.
-/

namespace Xolotl.Solver.Loop

variable {K : Type*} [Field K] [LinearOrder K] [IsStrictOrderedRing K]

/-- The reasons for which `TSSolve` ends.  The four that the code names: xolotl/solver/src/PetscSolver.cpp:343, 431, 433-434. -/
inductive Reason
  | user | event | nonlinear | rejected | other (n : ℤ)
  deriving DecidableEq

/-- What the program asks PETSc to make. -/
inductive Kind
  | options | grid | vec | mat | stepper
  deriving DecidableEq

/-- The text of the options, `-petscArgs`: the names given in it, and the limits on the time and the time step that a `TS` takes from it. -/
structure Opts (K : Type*) where
  names : List String
  maxTime : K
  maxDt : K

/-- What is common to all solvers of a program. -/
structure Petsc (K : Type*) where
  on : Bool
  next : ℕ
  live : List (Kind × ℕ)
  stack : List ℕ
  texts : List (ℕ × Opts K)

/-- Nothing has been done yet. -/
def off : Petsc K := ⟨false, 0, [], [], []⟩

/-- The values of a `TS`. -/
structure Stepper (K : Type*) where
  time : K
  dt : K
  step : ℕ
  maxTime : K
  maxDt : K

/-- Where the concentrations at the beginning of a loop come from. -/
inductive Source
  | given | file | carried
  deriving DecidableEq

/-- The members of a solver after `initialize`.  xolotl/solver/include/xolotl/solver/PetscSolver.h:21-39. -/
structure Members (K : Type*) where
  options : ℕ
  da : ℕ
  c : ℕ
  ts : ℕ
  stepper : Stepper K
  reason : Option Reason
  source : Source

/-- A solver; `members` is `none` while they have no value.  `restart` are the times in the restart file, if there is one with time steps. -/
structure Inst (K : Type*) where
  dim : ℕ
  text : Opts K
  restart : Option (K × K)
  here : Bool
  members : Option (Members K)

/-- A `Create` function. -/
def make (k : Kind) (p : Petsc K) : ℕ × Petsc K := (p.next, { p with next := p.next + 1, live := (k, p.next) :: p.live })

/-- A `Destroy` function. -/
def unmake (k : Kind) (i : ℕ) (p : Petsc K) : Petsc K := { p with live := p.live.erase (k, i) }

/-- `PetscOptionsPush`. -/
def push (i : ℕ) (p : Petsc K) : Petsc K := { p with stack := i :: p.stack }

/-- `PetscOptionsPop`. -/
def pop (p : Petsc K) : Petsc K := { p with stack := p.stack.tail }

/-- The base that is read when none is given; `none`: the stack is empty, the options of the command line are read, and there are none (PetscSolver.cpp:177). -/
def top (p : Petsc K) : Option (Opts K) := p.stack.head?.bind fun i => p.texts.lookup i

/-- Whether a name is in the base that is read. -/
def hasName (name : String) (p : Petsc K) : Bool :=
  match top p with
  | some o => o.names.contains name
  | none => false

/-- The first time step of a loop. -/
def firstDt : K := 1 / 10 ^ 12

/-- `PetscSolver::initialize`: `loop`, `time`, the vector and the grid of the loop before, and whether the surface offset is not 0.  `none`: a `TS` is made while no base of options is pushed, which does not happen.
xolotl/solver/src/PetscSolver.cpp:169-291; xolotl/solver/src/handler/PetscSolver1DHandler.cpp:288-305, 387-388, 578-581, PetscSolver2DHandler.cpp:611-612, PetscSolver3DHandler.cpp:681-682, PetscSolver0DHandler.cpp:122-157. -/
def initialize' (s : Inst K) (p : Petsc K) (loop : ℕ) (time : K) (old : Option (ℕ × ℕ)) (moved : Bool) : Option (Inst K × Petsc K) :=
  let here := s.here || !p.on
  let p := { p with on := true }
  let (db, p) := make .options p
  let p := { p with texts := (db, s.text) :: p.texts }
  let p := push db p
  let (da, p) := make .grid p
  let (c, p) := make .vec p
  let (_, p) := make .mat p
  let (ts, p) := make .stepper p
  let times := if loop = 0 then s.restart.getD (time, firstDt) else (time, firstDt)
  (top p).map fun o =>
    let carry := moved && decide (0 < s.dim)
    let p := match old with
      | some (oldDA, oldC) => if carry then unmake .grid oldDA (unmake .vec oldC p) else p
      | none => p
    let src := if carry then .carried else if s.restart.isSome then .file else .given
    ({ s with here := here, members := some ⟨db, da, c, ts, ⟨times.1, times.2, 0, o.maxTime, o.maxDt⟩, none, src⟩ }, pop p)

/-- `setTimes`.  PetscSolver.cpp:293-306. -/
def setTimes (s : Inst K) (finalTime dt : K) : Option (Inst K) :=
  s.members.map fun m => { s with members := some { m with stepper := { m.stepper with maxTime := finalTime, maxDt := dt } } }

/-- `setCurrentTimes`.  PetscSolver.cpp:331-337. -/
def setCurrentTimes (s : Inst K) (time dt : K) : Option (Inst K) :=
  s.members.map fun m => { s with members := some { m with stepper := { m.stepper with time := time, dt := dt } } }

/-- How one call of `TSSolve` ends, and whether a monitor set a surface offset other than 0. -/
structure Outcome (K : Type*) where
  reason : Reason
  time : K
  dt : K
  steps : ℕ
  moved : Bool

/-- What is known about one loop: its number, the values of the `TS` before and after `TSSolve`, the origin of the concentrations, and how it ended. -/
structure Segment (K : Type*) where
  loop : ℕ
  first : Stepper K
  last : Stepper K
  source : Source
  reason : Reason

/-- `TSSolve` and what is set before it.  PetscSolver.cpp:365-378. -/
def runTS (s : Inst K) (m : Members K) (o : Outcome K) (n : ℕ) : Inst K × Segment K :=
  let first := if s.here then m.stepper else { m.stepper with step := 0 }
  let last := { first with time := o.time, dt := o.dt, step := first.step + o.steps }
  ({ s with members := some { m with stepper := last, reason := some o.reason } }, ⟨n, first, last, m.source, o.reason⟩)

/-- The `while` loop of `solve`, `outs` being how the calls of `TSSolve` end.  The result is `none` if the members have no value, or if the loop goes on after all the outcomes that are given.  `old`: the grid and the vector saved in the turn before.  xolotl/solver/src/PetscSolver.cpp:352-411. -/
def loop (s : Inst K) (p : Petsc K) (n : ℕ) (time : K) (old : Option (ℕ × ℕ)) (moved : Bool) : List (Outcome K) → Option (Inst K × Petsc K × List (Segment K))
  | [] => none
  | o :: outs =>
    (if 0 < n then initialize' s p n time old moved else some (s, p)).bind fun (s, p) =>
      s.members.bind fun m =>
        let (s, seg) := runTS s m o n
        if o.reason = .user then
          let (oldDA, p) := make .grid p
          let (oldC, p) := make .vec p
          (loop s p (n + 1) o.time (some (oldDA, oldC)) o.moved outs).map fun (s, p, segs) => (s, p, seg :: segs)
        else some (s, p, [seg])

/-- What the status file can hold. -/
inductive Status
  | collapsed | diverged | good
  deriving DecidableEq

/-- The text of the status file.  PetscSolver.cpp:430-437. -/
def status (r : Reason) : Status :=
  if r = .event then .collapsed else if r = .nonlinear ∨ r = .rejected then .diverged else .good

/-- The result of `solve`: the loops and the status file, if it is written. -/
structure Result (K : Type*) where
  solver : Inst K
  petsc : Petsc K
  segments : List (Segment K)
  file : Option Status

/-- `PetscSolver::solve`.  xolotl/solver/src/PetscSolver.cpp:339-444. -/
def solve (s : Inst K) (p : Petsc K) (outs : List (Outcome K)) : Option (Result K) :=
  s.members.bind fun m =>
    (loop s (push m.options p) 0 0 none false outs).bind fun (s, p, segs) =>
      s.members.bind fun m =>
        m.reason.map fun r => ⟨s, pop p, segs, if hasName "-check_collapse" p then some (status r) else none⟩

/-- `getConvergenceStatus`, given the reasons on all processes.  PetscSolver.cpp:446-468. -/
def converged (reasons : List Reason) : Bool := !(reasons.any fun r => decide (r = .user))

/-- `finalize`; `none`: PETSc is not initialized any more.  PetscSolver.cpp:470-484. -/
def finalize (s : Inst K) (p : Petsc K) : Option (Petsc K) :=
  s.members.bind fun m =>
    if p.on then
      let p := unmake .options m.options p
      let p := unmake .vec m.c p
      let p := unmake .stepper m.ts p
      let p := unmake .grid m.da p
      some { p with on := p.on && !s.here }
    else none

/-- The solvers of a program are finalized one after the other. -/
def finalizeAll (p : Petsc K) (ss : List (Inst K)) : Option (Petsc K) := ss.foldlM (fun p s => finalize s p) p

/-- The solvers of a program are initialized one after the other. -/
def initializeAll (p : Petsc K) : List (Inst K) → Option (List (Inst K) × Petsc K)
  | [] => some ([], p)
  | s :: ss => (initialize' s p 0 0 none false).bind fun (s, p) => (initializeAll p ss).map fun (ss, p) => (s :: ss, p)

end Xolotl.Solver.Loop
