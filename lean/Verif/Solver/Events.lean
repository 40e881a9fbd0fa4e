import Verif.Solver.Retention
import Mathlib.Analysis.SpecialFunctions.Pow.Real
import Mathlib.Analysis.SpecialFunctions.Exp
import Mathlib.Analysis.Real.Sqrt

/-!
# Events of the one-dimensional monitor

Model of `eventFunction` (the account of interstitials at the surface, the tests for growth and erosion, the test for bursting), of the decision taken by `postEventFunction`, of how the account gets to the next loop, and of `checkNegative`.  What growth and erosion do to account and grid is in `Move`.

Numbers are elements of an ordered field instead of doubles, and real numbers where roots and exponentials occur.  PETSc is assumed to give `postEventFunction` the numbers of the events whose value is 0.  All processes hold the same account (`surface_agree`), so only one is modelled.
-/

namespace Xolotl.Solver.Events

variable {K : Type*} [Field K] [LinearOrder K] [IsStrictOrderedRing K]

/-! ### The surface -/

/-- The account of interstitials, the flux stored for the next step and the last step number; `none` is the initial −1.  xolotl/solver/include/xolotl/solver/monitor/PetscMonitor.h:98, PetscMonitor1D.h:107-109. -/
structure Ev (K : Type*) where
  n : K
  prev : K
  last : Option ℕ
  deriving DecidableEq

/-- The parameters: density, sputtering yield, amplitude of the flux. -/
structure Par (K : Type*) where
  density : K
  yield : K
  amp : K

/-- One call of `eventFunction`: step number, time since the previous call of the monitors, flux of interstitials; `xi` is the position of the surface.  The result is the account and whether the surface grows and is eroded.
xolotl/solver/src/monitor/PetscMonitor1D.cpp:1612-1622, 1679-1687, 1720-1745. -/
def event (p : Par K) (g : List K) (xi ts : ℕ) (dt flux : K) (st : Ev K) : Option (Ev K × Bool × Bool) :=
  if st.last = some ts then some (st, false, false)
  else do
    let n := if 0 < ts then st.n + st.prev * dt - p.yield * p.amp * dt else st.n
    let a ← g[xi - 1]?
    let b ← g[xi]?
    let c ← g[xi + 1]?
    pure (⟨n, flux, some ts⟩, decide (n > p.density * (b - a)), decide (n < -(p.density * (c - b)) * (9 / 10)))

/-- The numbers of the events with value 0. -/
def happened (up back burst : Bool) : List ℕ := (if up then [0] else []) ++ (if back then [1] else []) ++ if burst then [2] else []

/-- What `postEventFunction` does with the surface. -/
inductive Decision where
  | throws
  | stays
  | grows
  | erodes
  deriving DecidableEq

/-- The decision.  xolotl/solver/src/monitor/PetscMonitor1D.cpp:1842-1851, 1915-1931, 1941, 1960. -/
def decision (events : List ℕ) : Decision :=
  if events.length = 0 then .stays
  else if events.length = 3 then .throws
  else if events.any (fun e => decide (e < 2)) = false then .stays
  else if events.contains 0 then .grows else .erodes

/-- The calls of one loop. -/
structure Step (K : Type*) where
  time : K
  flux : K

/-- The account over the calls of a loop in which nothing moves, beginning with step number `k` and previous time `t`.  The monitors, the last of which sets the previous time, follow `eventFunction` in every step. -/
def quiet (p : Par K) (g : List K) (xi : ℕ) : ℕ → K → Ev K → List (Step K) → Option (Ev K)
  | _, _, st, [] => some st
  | k, t, st, c :: l => (event p g xi k (c.time - t) c.flux st).bind fun r => quiet p g xi (k + 1) c.time r.1 l

/-- The account at the start of a loop, the accounts at the ends of the loops before being given.  xolotl/solver/src/PetscSolver.cpp:272-277, 382-384; xolotl/solver/include/xolotl/solver/monitor/PetscMonitor1D.h:22-55. -/
def handed (ends : List (Retention.Acc K)) : Option (Retention.Acc K) := (ends.foldl Retention.keep []).head?

/-! ### Bursting -/

/-- The radius of a bubble of `nV` vacancies.  xolotl/solver/src/monitor/PetscMonitor1D.cpp:1789-1794. -/
noncomputable def radius (a nV : ℝ) : ℝ :=
  √3 / 4 * a + (3 * (a * a * a) * nV / (8 * Real.pi)) ^ (1 / 3 : ℝ) - (3 * (a * a * a) / (8 * Real.pi)) ^ (1 / 3 : ℝ)

/-- Whether the point bursts; `rnd` is the random number.  xolotl/solver/src/monitor/PetscMonitor1D.cpp:1796-1804. -/
noncomputable def bursts (prefactor depth distance r rnd : ℝ) : Prop :=
  prefactor * (1 - (distance - r) / distance) * min 1 (Real.exp (-(distance - depth) / (depth * 2))) > rnd ∨ r > distance

/-! ### Small concentrations -/

/-- `checkNegative` for one concentration.  xolotl/solver/src/monitor/PetscMonitor1D.cpp:2026-2033. -/
def clamp (thr c : K) : K := if c < thr ∧ c > 0 then thr else if c > -thr ∧ c < 0 then -thr else c

end Xolotl.Solver.Events
