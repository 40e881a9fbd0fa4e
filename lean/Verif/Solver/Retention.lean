import Verif.Solver.Move
import Verif.Transport.Stencil

/-!
# The account of what left the material

Model of the part of `computeHeliumRetention` of the one-dimensional monitor that keeps account of the atoms that left through the surface (the account of the bottom is kept in the same way), of `updateOutgoingDiffFluxes`, and of how `PetscSolver::solve` carries the account over to the monitor of the next loop when the surface moved, for one to three dimensions.

Numbers are elements of an ordered field instead of doubles.  PETSc is assumed to call the monitors once per step, and once at the start of every loop with step number 0 and the time at which the last loop ended.  The advection part of the flux is a parameter (it is part of the fluxes given to `Call`).
-/

namespace Xolotl.Solver.Retention

variable {K : Type*} [Field K] [LinearOrder K] [IsStrictOrderedRing K]

/-! ### The account -/

/-- `_nSurf` and `_previousSurfFlux` (or `_nBulk` and `_previousBulkFlux`), by species. -/
@[ext] structure Acc (K : Type*) where
  n : ℕ → K
  prev : ℕ → K

/-- What the process that owns the surface does; `skip` are the species that the moving surface keeps account of.  xolotl/solver/src/monitor/PetscMonitor1D.cpp:920-928, 973-977. -/
def update (skip : ℕ → Bool) (timestep : ℕ) (dt : K) (flux : ℕ → K) (a : Acc K) : Acc K where
  n := fun s => if 0 < timestep ∧ skip s = false then a.n s + a.prev s * dt else a.n s
  prev := fun s => if skip s then a.prev s else flux s

/-- The processes: the owner of grid point `xi` updates, and then all receive what the process with the sum of the owners' numbers has.  Only the owner computes `flux`.  xolotl/solver/src/monitor/PetscMonitor1D.cpp:912-1006. -/
def surface (np : ℕ) (xs xm : ℕ → ℕ) (xi : ℕ) (skip : ℕ → Bool) (timestep : ℕ) (dt : K) (flux : ℕ → ℕ → K) (st : ℕ → Acc K) : ℕ → Acc K :=
  let mine := fun r => if xs r ≤ xi ∧ xi < xs r + xm r then update skip timestep dt (flux r) (st r) else st r
  fun _ => mine (Move.holder xs xm np xi)

/-! ### Loops -/

/-- One call of the monitors: the time, and the flux of every species in the present state. -/
structure Call (K : Type*) where
  time : K
  flux : ℕ → K

/-- One loop: the account and the previous time after all calls, starting with step number `k`.  `monitorTime` comes last in every call.
xolotl/solver/src/monitor/PetscMonitor1D.cpp:908-909, 469-471, 692-694; PetscMonitor.cpp:279-289. -/
def runLoop (skip : ℕ → Bool) : ℕ → Acc K → K → List (Call K) → Acc K × K
  | _, a, t, [] => (a, t)
  | k, a, t, c :: l => runLoop skip (k + 1) (update skip k (c.time - t) c.flux a) c.time l

/-- `keepFlux` in one and two dimensions; the vectors belong to the solver and are not cleared.  xolotl/solver/include/xolotl/solver/monitor/PetscMonitor1D.h:22-43, PetscMonitor2D.h:23-32; xolotl/solver/src/PetscSolver.cpp:382-384. -/
def keep (kept : List (Acc K)) (a : Acc K) : List (Acc K) := kept ++ [a]

/-- `keepFlux` in three dimensions.  xolotl/solver/include/xolotl/solver/monitor/PetscMonitor3D.h:23-32. -/
def keep3 (_ : List (Acc K)) (a : Acc K) : List (Acc K) := [a]

/-- The loops of `PetscSolver::solve`: every loop but the first begins with what `setFlux` takes from the kept vectors, their first entry.
xolotl/solver/src/PetscSolver.cpp:272-277, 352-389; xolotl/solver/include/xolotl/solver/monitor/PetscMonitor1D.h:45-55, PetscMonitor2D.h:34-44, PetscMonitor3D.h:34-44. -/
def solve (keep : List (Acc K) → Acc K → List (Acc K)) (skip : ℕ → Bool) : List (Acc K) → Acc K → K → List (List (Call K)) → Option (Acc K)
  | _, a, _, [] => some a
  | _, a, t, [l] => some (runLoop skip 0 a t l).1
  | kept, a, t, l :: l' :: ls =>
    let r := runLoop skip 0 a t l
    (keep kept r.1).head?.bind fun b => solve keep skip (keep kept r.1) b r.2 (l' :: ls)

/-- The number of atoms of a species released by bursting, after the loops whose single releases are given.  The monitor of every loop begins with 0; only that of the first reads it from a file.
xolotl/solver/include/xolotl/solver/monitor/PetscMonitor.h:103; xolotl/solver/src/PetscSolver.cpp:255-277; xolotl/solver/src/monitor/PetscMonitor1D.cpp:402, 457-462, 1911. -/
def burst : K → List (List K) → K
  | init, [] => init
  | init, [l] => l.foldl (· + ·) init
  | _, _ :: l' :: ls => burst 0 (l' :: ls)

/-! ### The flux -/

/-- A diffusing cluster: its composition (the origin of its region), its diffusion coefficient by index of the temperature array of the network, and its concentration by grid point. -/
structure Mover (K : Type*) where
  comp : List ℕ
  coef : ℕ → K
  conc : ℕ → K

/-- The first species of which the composition consists alone.  xolotl/core/include/xolotl/core/network/impl/ReactionNetwork.tpp:1496-1502. -/
def axisOf (comp : List ℕ) : Option ℕ := (List.range comp.length).find? fun s => (List.range comp.length).all fun q => decide (q = s ∨ comp.getD q 0 = 0)

/-- `updateOutgoingDiffFluxes` for grid point `xi` and index `ix` of the diffusion coefficients.  xolotl/core/include/xolotl/core/network/impl/ReactionNetwork.tpp:1472-1504. -/
def outgoing (factor : K) (ix xi : ℕ) (ms : List (Mover K)) (u : ℕ → K) : ℕ → K :=
  ms.foldl (fun u m =>
    match axisOf m.comp with
    | some s => Function.update u s (u s + (m.comp.sum : K) * factor * m.coef ix * m.conc xi)
    | none => u) u

/-- The factor.  xolotl/solver/src/monitor/PetscMonitor1D.cpp:936-949. -/
def factorAt (nX : ℕ) (grid : ℕ → K) (xi : ℕ) : K := 2 / (Transport.hxLeft grid xi + Transport.hxRight nX grid xi)

/-- The flux through the surface on a process that begins with grid point 0.  The index of the coefficients is `xi - xs`, whereas the diffusion of point `xi` uses the one at `xi - xs + 1`.
xolotl/solver/src/monitor/PetscMonitor1D.cpp:914, 951-955; xolotl/core/src/diffusion/Diffusion1DHandler.cpp:108-110. -/
def surfaceFlux (nX : ℕ) (grid : ℕ → K) (ms : List (Mover K)) : ℕ → K := outgoing (factorAt nX grid 1) 1 1 ms fun _ => 0

/-- The flux through the bottom on a single process.  xolotl/solver/src/monitor/PetscMonitor1D.cpp:1011, 1030-1054. -/
def bulkFlux (nX : ℕ) (grid : ℕ → K) (ms : List (Mover K)) : ℕ → K := outgoing (factorAt nX grid (nX - 2)) (nX - 2) (nX - 2) ms fun _ => 0

/-- The rate at which diffusion changes the concentration of a cluster at point `xi` of a single process.  xolotl/core/src/diffusion/Diffusion1DHandler.cpp:104-121. -/
def diffusionRate (nX : ℕ) (grid : ℕ → K) (m : Mover K) (xi : ℕ) : K :=
  Transport.conc1 (Transport.hxLeft grid xi) (Transport.hxRight nX grid xi) ⟨m.coef (xi + 1), m.coef xi, m.coef (xi + 2)⟩ ⟨1, 1, 1⟩ ⟨m.conc xi, m.conc (xi - 1), m.conc (xi + 1)⟩

/-- The content of a species, as the monitor sums it, for clusters of single compositions; `f` gives the value of a cluster at a point.  xolotl/solver/src/monitor/PetscMonitor1D.cpp:864-893. -/
def content (nX : ℕ) (grid : ℕ → K) (ms : List (Mover K)) (f : Mover K → ℕ → K) (s : ℕ) : K :=
  ∑ k ∈ Finset.range (nX - 2), (ms.map fun m => (m.comp.getD s 0 : K) * f m (k + 1)).sum * (grid (k + 2) - grid (k + 1))

end Xolotl.Solver.Retention
