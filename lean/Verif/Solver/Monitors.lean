import Verif.Flux.Profile
import Verif.Solver.Stride

/-!
# The monitors of a run

Model of the monitors that the setups of the four dimensions register, of the order in which they run at a step, of what they read from and write to the time of the previous step, the fluence and the checkpoints, and of what a restart takes over.

PETSc calls the monitors of a step in the order in which they were registered (trusted).  What the other monitors compute is in their own models (`Retention`, `Grain`, `Written`, `Columns`); here they only read the time of the previous step.  Doubles are elements of an ordered field.  Timers, plots and the headers of files are left out.
-/

namespace Xolotl.Solver.Monitors

variable {K : Type*} [Field K] [LinearOrder K] [IsStrictOrderedRing K] [FloorRing K]

/-- The options that decide about monitors.  xolotl/solver/src/monitor/PetscMonitor1D.cpp:91-137, PetscMonitor0D.cpp:42-70, PetscMonitor2D.cpp:45-72, PetscMonitor3D.cpp:52-85. -/
structure Flags where
  /-- `-check_negative` -/
  neg : Bool := false
  /-- `-plot_1d` -/
  scatter : Bool := false
  /-- `-plot_series` -/
  series : Bool := false
  /-- `-plot_perf` -/
  perf : Bool := false
  /-- `-bubble` -/
  bubble : Bool := false
  /-- `-alpha_zr` -/
  zr : Bool := false
  /-- `-helium_retention` -/
  he : Bool := false
  /-- `-xenon_retention` -/
  xe : Bool := false
  /-- `-tridyn` -/
  tridyn : Bool := false
  /-- `-alloy` -/
  alloy : Bool := false
  /-- `-temp_profile` -/
  temp : Bool := false
  /-- `-plot_2d` -/
  surface : Bool := false
  /-- `-plot_2d_xy` -/
  xy : Bool := false
  /-- `-plot_2d_xz` -/
  xz : Bool := false
  /-- `-largest_conc` -/
  largest : Bool := false
  /-- `-start_stop` -/
  status : Bool := false

/-- The monitors. -/
inductive Mon
  | negative | scatter | series | perf | bubble | zr | fluence | heRetention | xeRetention | tridyn | alloy | temp
  | surface | surfaceXY | surfaceXZ | largest | startStop | time
  deriving DecidableEq

/-- `if (flag) TSMonitorSet(...)`, once for every monitor of the branch. -/
def when' (b : Bool) (l : List Mon) : List Mon := if b then l else []

/-- The monitors in the order of their registration.  xolotl/solver/src/monitor/PetscMonitor0D.cpp:102-304; PetscMonitor1D.cpp:185-196, 295-694; PetscMonitor2D.cpp:226-521; PetscMonitor3D.cpp:242-570. -/
def registered (dim : Fin 4) (f : Flags) : List Mon :=
  match dim with
  | 0 => when' f.scatter [.scatter] ++ when' f.bubble [.bubble] ++ when' f.alloy [.alloy] ++ when' f.zr [.zr] ++
      when' f.xe [.xeRetention] ++ when' f.largest [.largest] ++ when' f.status [.startStop] ++ [.time]
  | 1 => when' f.neg [.negative] ++ when' f.scatter [.scatter] ++ when' f.series [.series] ++ when' f.perf [.perf] ++
      when' f.zr [.zr] ++ when' f.he [.fluence, .heRetention] ++ when' f.xe [.fluence, .xeRetention] ++
      when' f.tridyn [.tridyn] ++ when' f.alloy [.alloy] ++ when' f.temp [.temp] ++ when' f.largest [.largest] ++
      when' f.status [.startStop] ++ [.time]
  | 2 => when' f.perf [.perf] ++ when' f.he [.fluence, .heRetention] ++ when' f.xe [.fluence, .xeRetention] ++
      when' f.surface [.surface] ++ when' f.largest [.largest] ++ when' f.status [.startStop] ++ [.time]
  | 3 => when' f.perf [.perf] ++ when' f.he [.fluence, .heRetention] ++ when' f.xe [.fluence, .xeRetention] ++
      when' f.xy [.surfaceXY] ++ when' f.xz [.surfaceXZ] ++ when' f.largest [.largest] ++ when' f.status [.startStop] ++ [.time]

/-- Whether the monitor reads the time of the previous step.  xolotl/solver/src/monitor/PetscMonitor.cpp:229, 313; PetscMonitor1D.cpp:908, 1254; PetscMonitor2D.cpp:775, 1144; PetscMonitor3D.cpp:838, 1224.  The content of xenon in zero dimensions does not read it.  PetscMonitor0D.cpp:387-452. -/
def reads (dim : Fin 4) : Mon → Bool
  | .fluence | .heRetention | .startStop => true
  | .xeRetention => decide (dim ≠ 0)
  | _ => false

/-- What is written to the checkpoint of a step and read back by a restart.  xolotl/solver/src/monitor/PetscMonitor.cpp:254-263. -/
structure Checkpoint (K : Type*) where
  time : K
  previous : K
  fluence : List K
  deriving DecidableEq

/-- What is kept between steps. -/
structure St (K : Type*) where
  /-- `previousTime` of the solver handler -/
  previous : K
  /-- `_hdf5Previous` -/
  count : ℤ
  /-- `fluence` of the flux handler -/
  fluence : List K
  /-- the checkpoints written so far -/
  written : List (Checkpoint K)
  /-- for the statements only: the step each monitor saw, from the last to the first -/
  log : List (Mon × K)
  deriving DecidableEq

/-- A step: its time, the amplitude of the flux and the concentrations of the largest cluster at the points. -/
structure Step (K : Type*) where
  time : K
  amp : K
  largest : List K := []

/-- How a run can end early. -/
inductive Stop
  /-- an exception: the concentration of the largest cluster is too high -/
  | tooHigh
  /-- a write outside the vector of fluences, or a division by a stride of 0 -/
  | undefined
  deriving DecidableEq

/-- The options of a run; `stored` tells whether the restart file has time steps. -/
structure Run (K : Type*) where
  dim : Fin 4
  flags : Flags
  stride : K
  factors : List K
  threshold : K
  stored : Bool

/-- One monitor at step `k`.
`computeFluence` xolotl/solver/src/monitor/PetscMonitor.cpp:291-319; `startStop` 222-277; `monitorTime` 279-289; `monitorLargest` PetscMonitor0D.cpp:307-338, PetscMonitor1D.cpp:697-736, PetscMonitor2D.cpp:524-565. -/
def effect (r : Run K) (k : ℕ) (x : Step K) (m : Mon) (s : St K) : Except Stop (St K) :=
  match m with
  | .fluence =>
    if k = 0 ∧ r.stored = true then .ok s
    else
      match Flux.increment r.factors ⟨s.fluence, x.amp⟩ (x.time - s.previous) with
      | some f => .ok { s with fluence := f.fluence }
      | none => .error .undefined
  | .largest => if x.largest.any (fun c => decide (r.threshold < c)) then .error .tooHigh else .ok s
  | .startStop =>
    if r.stride = 0 then .error .undefined
    else
      let n := Stride.reached r.stride s.previous x.time
      if n ≤ s.count ∧ 0 < x.time then .ok s
      else .ok { s with count := if s.count < n then s.count + 1 else s.count,
                        written := s.written ++ [⟨x.time, s.previous, s.fluence⟩] }
  | .time => .ok { s with previous := x.time }
  | _ => .ok s

/-- One monitor, with the step it saw noted. -/
def call (r : Run K) (k : ℕ) (x : Step K) (s : St K) (m : Mon) : Except Stop (St K) :=
  (effect r k x m s).map fun s' => if reads r.dim m then { s' with log := (m, x.time - s.previous) :: s'.log } else s'

/-- The monitors of step `k`. -/
def step (r : Run K) (k : ℕ) (s : St K) (x : Step K) : Except Stop (St K) :=
  (registered r.dim r.flags).foldlM (call r k x) s

/-- The monitors of the steps `k`, `k + 1`, ... -/
def run (r : Run K) : ℕ → St K → List (Step K) → Except Stop (St K)
  | _, s, [] => .ok s
  | k, s, x :: xs => (step r k s x).bind fun s' => run r (k + 1) s' xs

/-- The values before a run.  xolotl/solver/src/handler/SolverHandler.cpp:56; xolotl/solver/include/xolotl/solver/monitor/PetscMonitor.h:108; xolotl/core/src/flux/FluxHandler.cpp:23-24. -/
def fresh : St K := ⟨0, 0, [0], [], []⟩

/-- Whether the setup takes over the time of the previous step from the last checkpoint; `move` tells whether the surface can move.
xolotl/solver/src/monitor/PetscMonitor0D.cpp:152-166, 248-265; PetscMonitor1D.cpp:201-260, 398-407, 531-550, 646-663; PetscMonitor2D.cpp:136-195, 254-263, 384-401, 475-490; PetscMonitor3D.cpp:152-211, 271-278, 400-417, 522-538. -/
def takesTime (dim : Fin 4) (f : Flags) (move : Bool) : Bool :=
  f.xe || f.status || (decide (dim ≠ 0) && (f.he || move))

/-- Whether the setup takes over the fluence.  xolotl/solver/src/monitor/PetscMonitor0D.cpp:162-165; PetscMonitor1D.cpp:409-410, 552-555; PetscMonitor2D.cpp:265-266, 403-406; PetscMonitor3D.cpp:280-281, 419-422. -/
def takesFluence (dim : Fin 4) (f : Flags) : Bool := f.xe || (decide (dim ≠ 0) && f.he)

/-- The values after the setup of a run that restarts from the checkpoint `c`. -/
def restart (r : Run K) (move : Bool) (c : Checkpoint K) : St K :=
  { (fresh : St K) with
    previous := if takesTime r.dim r.flags move then c.previous else 0
    fluence := if takesFluence r.dim r.flags then c.fluence else [0]
    count := if r.flags.status then Stride.trunc (c.previous / r.stride) else 0 }

end Xolotl.Solver.Monitors
