import Mathlib.Algebra.Order.Field.Basic
import Mathlib.Data.Rat.Defs
import Mathlib.Algebra.Order.Ring.Rat
import Mathlib.Algebra.Field.Rat

/-!
# Timers and event counters

Model of `OSTimer`, of timers bound to scopes and of `EventCounter`.  Clock readings are whole ticks since the epoch of `std::chrono::system_clock`, with `hz` ticks per second; values are rationals in seconds (the rounding of `double` is left out).
-/

namespace Xolotl.Perf.Timers

/-- `invalidTimestamp`.  `std::numeric_limits` is not specialised for `std::chrono::time_point`, so that its `max()` is a value-initialised time point: the epoch.  xolotl/perf/src/os/OSTimer.cpp:11-12. -/
def invalid : ℤ := 0

/-- `val` and `startTime`.  xolotl/perf/include/xolotl/perf/os/OSTimer.h:35-39. -/
structure Timer where
  val : ℚ
  startTime : ℤ
  deriving DecidableEq

/-- The constructor.  OSTimer.h:42-44. -/
def new : Timer := ⟨0, invalid⟩

/-- `isRunning`.  OSTimer.h:73-77. -/
def Timer.running (t : Timer) : Bool := t.startTime != invalid

/-- `start` when the clock reads `now`; `none`: an exception, the timer is as before.  OSTimer.cpp:14-24. -/
def Timer.start (t : Timer) (now : ℤ) : Option Timer :=
  if t.running then none else some { t with startTime := now }

/-- `stop` when the clock reads `now`.  OSTimer.cpp:26-43. -/
def Timer.stop (hz : ℚ) (t : Timer) (now : ℤ) : Option Timer :=
  if t.running then some ⟨t.val + ((now - t.startTime : ℤ) : ℚ) / hz, invalid⟩ else none

/-- `reset`.  OSTimer.cpp:45-53. -/
def Timer.reset (t : Timer) : Option Timer :=
  if t.running then none else some { t with val := 0 }

/-- `operator+=`.  OSTimer.h:100-105. -/
def Timer.add (t : Timer) (v : ℚ) : Timer := { t with val := t.val + v }

/-- The calls a caller can make, with the reading of the clock at the call. -/
inductive Op
  | start (now : ℤ)
  | stop (now : ℤ)
  | reset
  | add (v : ℚ)

/-- One call; whether it was accepted is in the second component. -/
def call (hz : ℚ) (t : Timer) : Op → Timer × Bool
  | .start now => match t.start now with | some t' => (t', true) | none => (t, false)
  | .stop now => match t.stop hz now with | some t' => (t', true) | none => (t, false)
  | .reset => match t.reset with | some t' => (t', true) | none => (t, false)
  | .add v => (t.add v, true)

/-- The timer after a sequence of calls. -/
def run (hz : ℚ) (ops : List Op) : Timer := ops.foldl (fun t o => (call hz t o).1) new

/-- Code that uses timers by scope: `seq` of statements that each take the given readings when entering and leaving, a scope of the timer, or an exception.  xolotl/perf/include/xolotl/perf/ScopedTimer.h:20-41. -/
inductive Code
  | skip
  | seq (a b : Code)
  | scope (enter leave : ℤ) (body : Code)
  | throw

/-- How running the code ends. -/
inductive Outcome
  | normal
  | exception
  | terminate
  deriving DecidableEq

/-- Running the code.  The constructor of `ScopedTimer` starts the timer; if that throws there is no object to destroy.  The destructor stops it however the scope is left; a destructor that throws ends the program. -/
def exec (hz : ℚ) : Code → Timer → Timer × Outcome
  | .skip, t => (t, .normal)
  | .throw, t => (t, .exception)
  | .seq a b, t =>
    match exec hz a t with
    | (t', .normal) => exec hz b t'
    | r => r
  | .scope enter leave body, t =>
    match t.start enter with
    | none => (t, .exception)
    | some t1 =>
      match exec hz body t1 with
      | (t2, .terminate) => (t2, .terminate)
      | (t2, o) =>
        match t2.stop hz leave with
        | none => (t2, .terminate)
        | some t3 => (t3, o)

/-- `EventCounter` with its `unsigned long` value.  xolotl/perf/include/xolotl/perf/EventCounter.h:27-29, 51-55. -/
def count (increments : ℕ) : ℕ := increments.repeat (fun v => (v + 1) % 2 ^ 64) 0

end Xolotl.Perf.Timers
