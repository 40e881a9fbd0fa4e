import Mathlib.Logic.Function.Basic
import Mathlib.Logic.Relation
import Mathlib.Algebra.BigOperators.Group.Finset.Basic
import Mathlib.Data.Fintype.Basic

/-!
# Messages between the ranks

Model of the messages that the ranks exchange when the concentrations are carried over to a new grid, in the series of the monitor in one dimension and in the surface of the monitor in two: the programs of the ranks
as far as they communicate, and every way in which MPI may run them.

The semantics of MPI is trusted: messages from one rank to another with the same tag are received in the order in which they were sent, a receive from any source takes the first message of any of the ranks, a collective
operation (`MPI_Allreduce`, `MPI_Barrier`) waits for all ranks.  A standard `MPI_Send` may return before the message is received or wait for the receiver, so both are modelled: `Step` with messages in flight and `Sync`
without.  A message longer than the buffer of its receiver aborts the program.
-/

namespace Xolotl.Solver.Messages

open Function (update)

/-- What a rank still has to do. -/
inductive Prog (ι V R : Type) where
  /-- it is done -/
  | ret (r : R)
  /-- `MPI_Send` -/
  | send (dst : ι) (tag : ℕ) (v : V) (k : Prog ι V R)
  /-- `MPI_Recv`, from any source if `src` is `none` -/
  | recv (src : Option ι) (tag : ℕ) (k : V → Prog ι V R)
  /-- a collective operation: every rank gets what the ranks gave -/
  | coll (v : V) (k : (ι → V) → Prog ι V R)

/-- The ranks and the messages in flight, by sender, receiver and tag. -/
structure Conf (ι V R : Type) where
  procs : ι → Prog ι V R
  chan : ι × ι × ℕ → List V

variable {ι V R : Type} [DecidableEq ι]

/-- Nothing is in flight. -/
def quiet (p : ι → Prog ι V R) : Conf ι V R := ⟨p, fun _ => []⟩

/-- One step with messages in flight. -/
inductive Step : Conf ι V R → Conf ι V R → Prop where
  | send (c : Conf ι V R) (r dst : ι) (tag : ℕ) (v : V) (k : Prog ι V R) (h : c.procs r = .send dst tag v k) :
      Step c ⟨update c.procs r k, update c.chan (r, dst, tag) (c.chan (r, dst, tag) ++ [v])⟩
  | recv (c : Conf ι V R) (r s : ι) (src : Option ι) (tag : ℕ) (k : V → Prog ι V R) (v : V) (q : List V) (h : c.procs r = .recv src tag k) (hs : src = none ∨ src = some s)
      (hq : c.chan (s, r, tag) = v :: q) : Step c ⟨update c.procs r (k v), update c.chan (s, r, tag) q⟩
  | coll (c : Conf ι V R) (v : ι → V) (k : ι → (ι → V) → Prog ι V R) (h : ∀ r, c.procs r = .coll (v r) (k r)) : Step c ⟨fun r => k r v, c.chan⟩

/-- One step if every send waits for its receiver. -/
inductive Sync : (ι → Prog ι V R) → (ι → Prog ι V R) → Prop where
  | pass (p : ι → Prog ι V R) (s r : ι) (src : Option ι) (tag : ℕ) (v : V) (k : Prog ι V R) (k' : V → Prog ι V R) (hs : p s = .send r tag v k) (hr : p r = .recv src tag k')
      (hm : src = none ∨ src = some s) : Sync p (update (update p s k) r (k' v))
  | coll (p : ι → Prog ι V R) (v : ι → V) (k : ι → (ι → V) → Prog ι V R) (h : ∀ r, p r = .coll (v r) (k r)) : Sync p fun r => k r v

/-- An execution of `n` steps. -/
inductive Runs {α : Type} (S : α → α → Prop) : ℕ → α → α → Prop where
  | nil (a : α) : Runs S 0 a a
  | cons {a b c : α} {n : ℕ} (h : S a b) (t : Runs S n b c) : Runs S (n + 1) a c

/-- Every receive names its source. -/
def Prog.named : Prog ι V R → Prop
  | .ret _ => True
  | .send _ _ _ k => k.named
  | .recv src _ k => src.isSome = true ∧ ∀ v, (k v).named
  | .coll _ k => ∀ f, (k f).named

/-- The data of a message: a number, a 32 bit integer, eight bytes of something else, an array of numbers, three integers. -/
inductive Word (K : Type) where
  | dbl (x : K)
  | int (m : ℕ)
  | raw
  | vec (l : List K)
  | ids (a b c : ℕ)

variable {K : Type}

/-- What is done with an array that is received. -/
def Word.arrived {R : Type} (w : Word K) (k : List K → Prog ι (Word K) (Option R)) : Prog ι (Word K) (Option R) := match w with
  | .vec l => k l
  | _ => .ret none

/-- One of three integers. -/
def Word.pick (w : Word K) (sel : ℕ → ℕ → ℕ → ℕ) : ℕ := match w with
  | .ids a b c => sel a b c
  | _ => 0

/-! ### Carrying concentrations over to a new grid -/

section carry
variable {n : ℕ}

/-- One of the two transfers of a grid point: from the rank with number `src` to the one with number `dst`; `mine` is what this rank holds, if it does.  xolotl/solver/src/handler/PetscSolver1DHandler.cpp:437-460, 462-485, xolotl/solver/src/handler/PetscSolver2DHandler.cpp:467-492, 494-519, xolotl/solver/src/handler/PetscSolver3DHandler.cpp:534-559, 561-586. -/
def fetch {R : Type} (me : Fin n) (src dst tag : ℕ) (mine : Option (List K)) (k : Option (List K) → Prog (Fin n) (Word K) (Option R)) : Prog (Fin n) (Word K) (Option R) :=
  if src = dst then
    if me.val = dst then match mine with
      | some l => k (some l)
      | none => .ret none
    else k none
  else if me.val = src then
    if h : dst < n then match mine with
      | some l => .send ⟨dst, h⟩ tag (.vec l) (k none)
      | none => .ret none
    else .ret none
  else if me.val = dst then
    if h : src < n then .recv (some ⟨src, h⟩) tag fun w => w.arrived fun l => k (some l)
    else .ret none
  else k none

/-- The sum of one of the three numbers over the ranks. -/
def total (f : Fin n → Word K) (sel : ℕ → ℕ → ℕ → ℕ) : ℕ := ∑ r, (f r).pick sel

/-- The loop over the new grid: a new grid point with the index of the old one to its right, as found by the search; the result is the list of new grid points of this rank with the two arrays they are computed from.  `old` and `new` say what the rank owns of the two grids and `data` is the old vector.  xolotl/solver/src/handler/PetscSolver1DHandler.cpp:405-504, xolotl/solver/src/handler/PetscSolver2DHandler.cpp:430-538, xolotl/solver/src/handler/PetscSolver3DHandler.cpp:494-606. -/
def carry (old new : Fin n → ℕ → Bool) (data : ℕ → List K) (me : Fin n) : List (ℕ × ℕ) → List (ℕ × List K × List K) → Prog (Fin n) (Word K) (Option (List (ℕ × List K × List K)))
  | [], acc => .ret (some acc)
  | (xi, i) :: ps, acc =>
    .coll (.ids (if old me (i - 1) then me.val else 0) (if old me i then me.val else 0) (if new me xi then me.val else 0)) fun f =>
      let a := total f fun a _ _ => a
      let b := total f fun _ b _ => b
      let c := total f fun _ _ c => c
      fetch me a c 2 (if old me (i - 1) then some (data (i - 1)) else none) fun l =>
        fetch me b c 1 (if old me i then some (data i) else none) fun r =>
          if me.val = c then match l, r with
            | some l, some r => carry old new data me ps (acc ++ [(xi, l, r)])
            | _, _ => .ret none
          else carry old new data me ps acc

end carry

/-! ### The series in one dimension -/

section series

/-- The points of the series: cluster, position and concentration, in the order in which they are added to the vectors of the clusters. -/
abbrev Points (K : Type) := List (ℕ × K × K)

/-- What `MPI_Recv` of one `MPI_INT` makes of a message. -/
def asInt : Word K → Option ℕ
  | .int m => some m
  | _ => none

/-- What `MPI_Recv` of one `MPI_DOUBLE` makes of a message. -/
def asDbl : Word K → Option K
  | .dbl x => some x
  | _ => none

/-- The points of one grid point. -/
def ofGrid (p : K × List K) : Points K := p.2.zipIdx.map fun y => (y.2, p.1, y.1)

/-- Receiving the concentrations of a grid point.  xolotl/solver/src/monitor/PetscMonitor1D.cpp:2344-2357. -/
def recvConcs (i : ι) (x : K) : ℕ → ℕ → Points K → (Points K → Prog ι (Word K) (Option (Points K))) → Prog ι (Word K) (Option (Points K))
  | 0, _, acc, k => k acc
  | m + 1, j, acc, k => .recv (some i) 22 fun w => match asDbl w with
    | some c => recvConcs i x m (j + 1) (acc ++ [(j, x, c)]) k
    | none => .ret none

/-- Receiving the grid points of a rank.  xolotl/solver/src/monitor/PetscMonitor1D.cpp:2338-2358. -/
def recvGrid (loop : ℕ) (i : ι) : ℕ → Points K → (Points K → Prog ι (Word K) (Option (Points K))) → Prog ι (Word K) (Option (Points K))
  | 0, acc, k => k acc
  | m + 1, acc, k => .recv (some i) 21 fun w => match asDbl w with
    | some x => recvConcs i x loop 0 acc fun acc => recvGrid loop i m acc k
    | none => .ret none

/-- The loop over the other ranks.  xolotl/solver/src/monitor/PetscMonitor1D.cpp:2331-2359. -/
def recvRanks (loop : ℕ) : List ι → Points K → Prog ι (Word K) (Option (Points K))
  | [], acc => .ret (some acc)
  | i :: l, acc => .recv (some i) 20 fun w => match asInt w with
    | some m => recvGrid loop i m acc fun acc => recvRanks loop l acc
    | none => .ret none

/-- Sending a list of messages. -/
def sends {R : Type} (l : List (ι × ℕ × V)) (k : Prog ι V R) : Prog ι V R := l.foldr (fun m k => .send m.1 m.2.1 m.2.2 k) k

/-- The messages about a grid point.  xolotl/solver/src/monitor/PetscMonitor1D.cpp:2407-2414. -/
def gridMsgs (root : ι) (p : K × List K) : List (ι × ℕ × Word K) := (root, 21, .dbl p.1) :: p.2.map fun c => (root, 22, .dbl c)

/-- What another rank sends; `size` is what leaves of the number of its grid points.  xolotl/solver/src/monitor/PetscMonitor1D.cpp:2394-2416. -/
def sendRank (root : ι) (size : ℕ → Word K) (pts : List (K × List K)) : Prog ι (Word K) (Option (Points K)) :=
  sends ((root, 20, size pts.length) :: pts.flatMap (gridMsgs root)) (.ret (some []))

/-- The size is sent as an `MPI_DOUBLE` from a variable of an integer type: eight bytes.  xolotl/solver/src/monitor/PetscMonitor1D.cpp:2396. -/
def sizeSent (_ : ℕ) : Word K := .raw

/-- The programs of the ranks in `monitorSeries`; `pts` are the grid points of a rank with their position and the concentrations of the first clusters.  xolotl/solver/src/monitor/PetscMonitor1D.cpp:2308-2416. -/
def series (n loop : ℕ) (size : ℕ → Word K) (pts : Fin (n + 1) → List (K × List K)) (r : Fin (n + 1)) : Prog (Fin (n + 1)) (Word K) (Option (Points K)) :=
  if r = 0 then recvRanks loop (List.finRange n |>.map Fin.succ) ((pts 0).flatMap ofGrid) else sendRank 0 size (pts r)

end series

/-! ### The surface in two dimensions -/

section surface
variable {n : ℕ}

/-- The loop of `monitorSurface` over the grid: `own` is the rank that owns a grid point, with its two positions and the concentration.  xolotl/solver/src/monitor/PetscMonitor2D.cpp:1954-2017. -/
def surface (own : K × K × K → Fin (n + 1)) (me : Fin (n + 1)) : List (K × K × K) → List (Word K × Word K × Word K) → Prog (Fin (n + 1)) (Word K) (List (Word K × Word K × Word K))
  | [], acc => .ret acc
  | p :: ps, acc =>
    if own p = me then
      if me = 0 then .coll (.int 0) fun _ => surface own me ps (acc ++ [(.dbl p.1, .dbl p.2.1, .dbl p.2.2)])
      else .send 0 10 (.dbl p.1) (.send 0 11 (.dbl p.2.1) (.send 0 12 (.dbl p.2.2) (.coll (.int 0) fun _ => surface own me ps acc)))
    else if me = 0 then
      .recv none 10 fun x => .recv none 11 fun y => .recv none 12 fun c => .coll (.int 0) fun _ => surface own me ps (acc ++ [(x, y, c)])
    else .coll (.int 0) fun _ => surface own me ps acc

/-- The same without the barrier at each grid point. -/
def surfaceFree (own : K × K × K → Fin (n + 1)) (me : Fin (n + 1)) : List (K × K × K) → List (Word K × Word K × Word K) → Prog (Fin (n + 1)) (Word K) (List (Word K × Word K × Word K))
  | [], acc => .ret acc
  | p :: ps, acc =>
    if own p = me then
      if me = 0 then surfaceFree own me ps (acc ++ [(.dbl p.1, .dbl p.2.1, .dbl p.2.2)])
      else .send 0 10 (.dbl p.1) (.send 0 11 (.dbl p.2.1) (.send 0 12 (.dbl p.2.2) (surfaceFree own me ps acc)))
    else if me = 0 then .recv none 10 fun x => .recv none 11 fun y => .recv none 12 fun c => surfaceFree own me ps (acc ++ [(x, y, c)])
    else surfaceFree own me ps acc

end surface

end Xolotl.Solver.Messages
