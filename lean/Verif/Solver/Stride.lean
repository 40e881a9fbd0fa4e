import Mathlib.Algebra.Order.Floor.Ring
import Mathlib.Algebra.Order.Field.Basic
import Mathlib.Data.Rat.Floor

/-!
# When checkpoints are written

Model of the decision in `PetscMonitor::startStop`, of `monitorTime`, which follows it in every step, and of the values taken over by a restart.

Doubles are elements of an ordered field.  The conversion to `PetscInt` drops the decimals; its range is not modelled.  A stride of 0 divides by zero: there is no value that could be converted.
-/

namespace Xolotl.Solver.Stride

variable {K : Type*} [Field K] [LinearOrder K] [IsStrictOrderedRing K] [FloorRing K]

/-- What is kept between steps. -/
structure St (K : Type*) where
  /-- `previousTime` of the solver handler -/
  previous : K
  /-- `_hdf5Previous` -/
  count : ℤ
  deriving DecidableEq

/-- Conversion to `PetscInt`. -/
def trunc (x : K) : ℤ := if 0 ≤ x then ⌊x⌋ else ⌈x⌉

/-- `(PetscInt)((time + dt / 10.0) / _hdf5Stride)`.  xolotl/solver/src/monitor/PetscMonitor.cpp:229-233. -/
def reached (stride previous time : K) : ℤ := trunc ((time + (time - previous) / 10) / stride)

/-- One call of `startStop` and of `monitorTime`: the new state and whether a checkpoint is written.
xolotl/solver/src/monitor/PetscMonitor.cpp:222-241, 279-289; the order of the two xolotl/solver/src/monitor/PetscMonitor1D.cpp:689, 694. -/
def step (stride : K) (st : St K) (time : K) : Option (St K × Bool) :=
  if stride = 0 then none
  else if reached stride st.previous time ≤ st.count ∧ time > 0 then some (⟨time, st.count⟩, false)
  else
    let count := if reached stride st.previous time > st.count then st.count + 1 else st.count
    some (⟨time, count⟩, true)

/-- The steps of a run: the final state and, for every step, whether a checkpoint was written. -/
def run (stride : K) : St K → List K → Option (St K × List Bool)
  | st, [] => some (st, [])
  | st, t :: ts => do
    let (st', w) ← step stride st t
    let (st'', ws) ← run stride st' ts
    pure (st'', w :: ws)

/-- The values at the start of a run.  xolotl/solver/src/handler/SolverHandler.cpp:56; xolotl/solver/include/xolotl/solver/monitor/PetscMonitor.h:108. -/
def fresh : St K := ⟨0, 0⟩

/-- The values after a restart from a checkpoint whose step began at `previous`.  xolotl/solver/src/monitor/PetscMonitor1D.cpp:656-663, PetscMonitor0D.cpp:258-265, PetscMonitor2D.cpp:483-490, PetscMonitor3D.cpp:531-538. -/
def restart (stride previous : K) : St K := ⟨previous, trunc (previous / stride)⟩

/-- The values after the surface moved: a new monitor is made, whose count is not taken over; the previous time is.  xolotl/solver/src/PetscSolver.cpp:249-277, 352-356; xolotl/solver/include/xolotl/solver/monitor/PetscMonitor.h:108; xolotl/solver/src/monitor/PetscMonitor1D.cpp:656. -/
def moved (st : St K) : St K := ⟨st.previous, 0⟩

end Xolotl.Solver.Stride
