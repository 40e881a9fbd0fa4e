import Mathlib.Algebra.Order.Field.Basic
import Mathlib.Algebra.Order.Group.Unbundled.Abs
import Mathlib.Data.List.Basic

/-!
# Sparse storage of the concentrations of a grid point

Model of the loops that collect the concentrations to be saved and of the loops that apply them again: the checkpoint (monitors and `initializeConcentration`) and the vectors exchanged through `getConcVector`/`setConcVector`.  A grid point holds `dof + 1` values, the last one is the temperature.  `eps` is the cut-off `1.0e-16`.
-/

namespace Xolotl.IO.Sparse

variable {K : Type*} [Field K] [LinearOrder K]

/-- The entries above the cut-off, numbered from `k`. -/
def saveFrom (eps : K) (k : ℕ) (c : List K) : List (ℕ × K) := (c.zipIdx k).filterMap fun x => if eps < |x.1| then some (x.2, x.1) else none

/-- The loop of the checkpoint and of `getConcVector` over one grid point.  xolotl/solver/src/monitor/PetscMonitor1D.cpp:793-797, xolotl/solver/src/monitor/PetscMonitor2D.cpp:645-653, xolotl/solver/src/handler/PetscSolver1DHandler.cpp:668-673. -/
def save (eps : K) (c : List K) : List (ℕ × K) := saveFrom eps 0 c

/-- `getConcVector` without space: every entry is kept.  xolotl/solver/src/handler/PetscSolver0DHandler.cpp:194-199. -/
def save0 (c : List K) : List (ℕ × K) := c.zipIdx.map fun x => (x.2, x.1)

/-- The stored entries are written over a vector; `none` outside of it.  xolotl/solver/src/handler/PetscSolver1DHandler.cpp:360-362, 703-706, xolotl/solver/src/handler/PetscSolver0DHandler.cpp:151-153, 231-234, xolotl/solver/src/handler/PetscSolver2DHandler.cpp:381-384. -/
def overlay (s : List (ℕ × K)) (c : List K) : Option (List K) :=
  s.foldlM (fun a p => if p.1 < a.length then some (a.set p.1 p.2) else none) c

/-- The vector before the stored entries are applied: zeros and the temperature given by the handler.  xolotl/solver/src/handler/PetscSolver1DHandler.cpp:329-335, xolotl/solver/src/handler/PetscSolver0DHandler.cpp:112-119. -/
def fresh (dof : ℕ) (temp : K) : List K := List.replicate dof 0 ++ [temp]

/-- A restart of one grid point: its concentrations and the temperature given to the network, the value of the last stored entry.  xolotl/solver/src/handler/PetscSolver1DHandler.cpp:357-366, xolotl/solver/src/handler/PetscSolver0DHandler.cpp:148-156, xolotl/solver/src/handler/PetscSolver2DHandler.cpp:379-388. -/
def restart (dof : ℕ) (temp : K) (s : List (ℕ × K)) : Option (List K × K) :=
  (overlay s (fresh dof temp)).bind fun c => (s.getLast?).map fun p => (c, p.2)

end Xolotl.IO.Sparse
