import Verif.Util.MathSums
import Mathlib.Data.Nat.Cast.Basic

/-!
# Step sequences, the time stepper and the coupling loop

Models of `/repo/xolotl/util/src/GrowthFactorStepSequence.cpp`, `LinearStepSequence.cpp`, `TimeStepper.cpp` and of the coupling loop and its restart data in
`/repo/xolotl/interface/src/MultiXolotl.cpp:73-139, 284-337`.

Times are elements of an ordered field; the rounding of printed times to 14 digits (`round`, `setprecision`, MultiXolotl.cpp:108-112) is not modelled.
-/

namespace Xolotl.Util

variable {K : Type*} [Field K] [LinearOrder K]

/-- `_currentStep`, `_currentValue` of `StepSequence` (StepSequence.h:35-37). -/
structure SeqSt (K : Type*) where
  step : ℕ
  value : K

/-- `GrowthFactorStepSequence` parameters. -/
structure Growth (K : Type*) where
  initial : K
  final : K
  gf : K
  initialStep : ℕ

namespace Growth

variable (g : Growth K)

/-- `start` (GrowthFactorStepSequence.cpp:25-30). -/
def start : SeqSt K := ⟨g.initialStep, g.initial⟩

/-- `step` (32-39). -/
def step (s : SeqSt K) : SeqSt K := ⟨s.step + 1, cmin (s.value * g.gf) g.final⟩

/-- `at` (41-45). -/
def valAt (step : ℕ) : K := cmin (g.initial * g.gf ^ step) g.final

/-- Body of the loop of `partialSumAt`: `n` iterations from `(sum, val)` (50-56). -/
def sumLoop : ℕ → K × K → K × K
  | 0, s => s
  | n + 1, s => sumLoop n (s.1 + s.2, cmin (s.2 * g.gf) g.final)

/-- `partialSumAt` (47-57): `i` from `_initialStep` to `step - 1`. -/
def partialSumAt (step : ℕ) : K := (g.sumLoop (step - g.initialStep) (0, g.initial)).1

end Growth

/-- `LinearStepSequence` parameters. The class does not implement `at` and `partialSumAt`, so that it cannot be
instantiated in the repository; its stepping is modelled nevertheless. -/
structure Ramp (K : Type*) where
  initial : K
  diff : K
  rampSteps : K

namespace Ramp

/-- Constructor (LinearStepSequence.cpp:9-15). -/
def make (initial final : K) (rampSteps : ℕ) : Ramp K := ⟨initial, final - initial, (rampSteps : K)⟩

variable (r : Ramp K)

/-- `start` (21-26). -/
def start : SeqSt K := ⟨0, r.initial⟩

/-- `step` (28-38). -/
def step (s : SeqSt K) : SeqSt K :=
  let n := s.step + 1
  if (n : K) > r.rampSteps then ⟨n, s.value⟩ else ⟨n, r.initial + r.diff * ((n : K) / r.rampSteps)⟩

end Ramp

/-- A step sequence as seen by the time stepper: `start()` and `step()`. -/
structure Sequence (K : Type*) where
  start : SeqSt K
  step : SeqSt K → SeqSt K

/-- State of the sequence after `start()` and `k` calls of `step()`. -/
def Sequence.stateAt (q : Sequence K) : ℕ → SeqSt K
  | 0 => q.start
  | k + 1 => q.step (q.stateAt k)

def Growth.seq (g : Growth K) : Sequence K := ⟨g.start, g.step⟩

def Ramp.seq (r : Ramp K) : Sequence K := ⟨r.start, r.step⟩

/-- `TimeStepper` parameters. -/
structure Stepper (K : Type*) where
  seq : Sequence K
  maxSteps : ℕ
  startTime : K
  endTime : K

/-- `_seq`, `_currentTime`, `_previousTime`. -/
structure StepperSt (K : Type*) where
  seq : SeqSt K
  cur : K
  prev : K

namespace Stepper

variable (t : Stepper K)

/-- `start` (TimeStepper.cpp:30-36). -/
def start : StepperSt K := ⟨t.seq.start, t.startTime, t.startTime⟩

/-- `step` (38-53). -/
def step (s : StepperSt K) : StepperSt K := ⟨t.seq.step s.seq, s.cur + s.seq.value, s.cur⟩

/-- `valid` (55-60). -/
def valid (s : StepperSt K) : Bool :=
  decide (s.cur < t.endTime) && (decide (t.maxSteps = 0) || decide (s.seq.step ≤ t.maxSteps))

/-- State after `start()` and `k` calls of `step()`. -/
def stateAt : ℕ → StepperSt K
  | 0 => t.start
  | k + 1 => t.step (stateAt k)

end Stepper

/-! ### The coupling loop with restarts -/

/-- Options of the coupled run that stay the same over restarts (MultiXolotl.cpp:118-123). -/
structure RunOpts (K : Type*) where
  maxDt : K
  gf : K
  endTime : K
  maxSteps : ℕ

/-- What the stop file holds: `lastStep`, `lastTime`, `lastDt` (111-112). -/
structure StopData (K : Type*) where
  step : ℕ
  time : K
  dt : K

/-- One execution of the program: fresh (initial time step, start time) or restarted from a stop file. -/
structure Leg (K : Type*) where
  growth : Growth K
  startTime : K
  restarting : Bool

/-- `makeTimeStepper` without restart (115-139). -/
def freshLeg (o : RunOpts K) (startTime initDt : K) : Leg K :=
  ⟨⟨initDt, o.maxDt, o.gf, 0⟩, startTime, false⟩

/-- `makeTimeStepper` with restart. -/
def restartLeg (o : RunOpts K) (d : StopData K) : Leg K := ⟨⟨d.dt, o.maxDt, o.gf, d.step⟩, d.time, true⟩

namespace Leg

variable (o : RunOpts K) (l : Leg K)

def stepper : Stepper K := ⟨l.growth.seq, o.maxSteps, l.startTime, o.endTime⟩

/-- State of the time stepper at iteration `k` of the loop: `startTimeStepper` makes one extra step when restarting (322-336). -/
def iter (k : ℕ) : StepperSt K := (l.stepper o).stateAt (k + if l.restarting then 1 else 0)

/-- What iteration `k` hands to the solvers and prints: step number, previous time, time, step size (358-385). -/
def schedule (k : ℕ) : ℕ × K × K × K :=
  ((l.iter o k).seq.step, (l.iter o k).prev, (l.iter o k).cur, (l.iter o k).seq.value)

/-- `writeStopData` (87-113) when the loop is left at iteration `k`: the last completed step is the one before. The variant that takes the last step from the checkpoint
file gives the same number when every step is checkpointed. -/
def stop (k : ℕ) : StopData K :=
  let lastStep := (l.iter o k).seq.step - 1
  ⟨lastStep, l.startTime + l.growth.partialSumAt lastStep, l.growth.valAt lastStep⟩

/-- The run left at iteration `k` and restarted. -/
def restartAt (k : ℕ) : Leg K := restartLeg o (l.stop o k)

end Leg

end Xolotl.Util
