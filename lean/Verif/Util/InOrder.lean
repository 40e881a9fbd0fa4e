import Mathlib.Algebra.BigOperators.Group.Finset.Basic

/-!
# Ordered execution across ranks

Model of `util::doInOrder`: a transition system of `n` ranks with point-to-point messages.  A standard `MPI_Send` either copies its message into a buffer and returns, or waits for the matching receive; which of the two is up to the MPI library, so that it is a parameter here.  `MPI_Barrier` lets a rank leave once all have entered.  The message printed by rank 0 before its action is left out.
-/

namespace Xolotl.Util.InOrder

/-- The calls of a rank.  The barrier and the action take time, so that their beginning and their end are separate. -/
inductive Instr
  | enter
  | leave
  | start
  | finish
  | send (dst : ℕ)
  | recv (src : ℕ)
  deriving DecidableEq

/-- The calls of rank `r` of `n`, in order.  xolotl/util/include/xolotl/util/DoInOrder.h:34-47. -/
def prog (n r : ℕ) : List Instr :=
  if r = 0 then [.enter, .leave, .start, .finish, .send ((r + 1) % n), .recv (n - 1)]
  else [.enter, .leave, .recv (r - 1), .start, .finish, .send ((r + 1) % n)]

/-- What can be observed of the actions. -/
inductive Event
  | started (r : ℕ)
  | finished (r : ℕ)
  deriving DecidableEq

/-- Next call of each rank, messages in buffers by source and destination, and the events so far. -/
structure State where
  pc : ℕ → ℕ
  chan : ℕ → ℕ → ℕ
  trace : List Event

/-- Before the call. -/
def init : State := ⟨fun _ => 0, fun _ _ => 0, []⟩

/-- The next call of rank `r`. -/
def State.at (n : ℕ) (s : State) (r : ℕ) : Option Instr := (prog n r)[s.pc r]?

/-- Rank `r` goes on to its next call. -/
def State.advance (s : State) (r : ℕ) : State := { s with pc := fun q => if q = r then s.pc q + 1 else s.pc q }

/-- One step of one rank, or of a sender and its receiver.  `buf r`: the library buffers what rank `r` sends. -/
inductive Step (n : ℕ) (buf : ℕ → Bool) : State → State → Prop
  | enter {s r} : r < n → s.at n r = some .enter → Step n buf s (s.advance r)
  | leave {s r} : r < n → s.at n r = some .leave → (∀ q < n, 1 ≤ s.pc q) → Step n buf s (s.advance r)
  | start {s r} : r < n → s.at n r = some .start → Step n buf s { s.advance r with trace := s.trace ++ [.started r] }
  | finish {s r} : r < n → s.at n r = some .finish → Step n buf s { s.advance r with trace := s.trace ++ [.finished r] }
  | buffered {s r d} : r < n → s.at n r = some (.send d) → buf r = true →
      Step n buf s { s.advance r with chan := fun a b => if a = r ∧ b = d then s.chan a b + 1 else s.chan a b }
  | receive {s r q} : r < n → s.at n r = some (.recv q) → 0 < s.chan q r →
      Step n buf s { s.advance r with chan := fun a b => if a = q ∧ b = r then s.chan a b - 1 else s.chan a b }
  | rendezvous {s r d} : r < n → d < n → s.at n r = some (.send d) → buf r = false → s.at n d = some (.recv r) →
      Step n buf s ((s.advance r).advance d)

/-- Reached after `k` steps. -/
inductive Steps (n : ℕ) (buf : ℕ → Bool) : ℕ → State → Prop
  | zero : Steps n buf 0 init
  | succ {k s s'} : Steps n buf k s → Step n buf s s' → Steps n buf (k + 1) s'

end Xolotl.Util.InOrder
