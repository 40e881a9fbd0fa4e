import Mathlib.Data.Nat.Notation
import Mathlib.Data.List.Basic
import Mathlib.Algebra.Order.Ring.Rat
import Mathlib.Algebra.Field.Rat

/-!
# The monitor of the largest cluster

Model of `checkLargestClusterId` of the five families of networks
(`/repo/xolotl/core/include/xolotl/core/network/impl/PSIReactionNetwork.tpp:358-387`,
`core/src/network/FeReactionNetwork.cpp:57-79`, `NEReactionNetwork.cpp:57-79`,
`ZrReactionNetwork.cpp:58-83`, `AlloyReactionNetwork.cpp:58-81`) and of `monitorLargest`
(`solver/src/monitor/PetscMonitor0D.cpp:307-338`, `PetscMonitor1D.cpp:697-736`,
`PetscMonitor2D.cpp:524-564`, `PetscMonitor3D.cpp:573-614`).

A parallel reduction of Kokkos is any tree: its leaves run the body one after the other over some of the
indices, starting from the identity of the reducer, and the results of the leaves are joined.  Kokkos is not in
the repository: the only thing taken from it is that the identity of `MaxLoc` for an unsigned value is the value
zero with a place that is no cluster, and that a join keeps one of its two arguments, one with the larger value.
-/

namespace Xolotl.Network.Largest

/-- The species of all the networks (FeTraits.h:17-22, NETraits.h:28-33, ZrTraits.h:25-30, AlloyTraits.h:21-29,
PSITraits.h). -/
inductive Sp
  | he | d | t | xe | v | i | basal | void | faulted | perfect | frank
  deriving DecidableEq, Repr

/-- The families of networks; the two Booleans tell whether deuterium and tritium are in the network. -/
inductive Kind
  | psi (hasD hasT : Bool)
  | fe | ne | zr | alloy
  deriving DecidableEq, Repr

/-- The species of a network. -/
def species : Kind → List Sp
  | .psi a b => [.he] ++ (if a then [.d] else []) ++ (if b then [.t] else []) ++ [.v, .i]
  | .fe => [.he, .v, .i]
  | .ne => [.xe, .v, .i]
  | .zr => [.v, .basal, .i]
  | .alloy => [.v, .void, .faulted, .i, .perfect, .frank]

/-- The species whose amounts are added, in the order of the code: PSIReactionNetwork.tpp:372-378,
FeReactionNetwork.cpp:70, NEReactionNetwork.cpp:70, ZrReactionNetwork.cpp:73, AlloyReactionNetwork.cpp:71-72. -/
def counted : Kind → List Sp
  | .psi a b => [.he, .v] ++ (if a then [.d] else []) ++ (if b then [.t] else [])
  | .fe => [.he, .v]
  | .ne => [.xe, .v]
  | .zr => [.v, .i, .basal]
  | .alloy => [.void, .frank, .faulted]

/-- A cluster: the smallest and the largest amount of every species (`getOrigin`, `getUpperLimitPoint`). -/
structure Cluster where
  lo : Sp → ℕ
  hi : Sp → ℕ

/-- The sum of the amounts of the counted species of the upper limit point in `AmountType`, an unsigned number of
32 bits (the lines of `counted`). -/
def size (k : Kind) (c : Cluster) : ℕ := (counted k).foldl (fun s x => (s + c.hi x) % 4294967296) 0

/-- `Kokkos::MaxLoc<AmountType, IndexType>::value_type`; `none` is the place of the identity. -/
structure MaxLoc where
  val : ℕ
  loc : Option ℕ
  deriving DecidableEq, Repr

/-- The identity of the reducer. -/
def MaxLoc.identity : MaxLoc := ⟨0, none⟩

/-- The body of the loop, e.g. FeReactionNetwork.cpp:67-75. -/
def body (sz : ℕ → ℕ) (u : MaxLoc) (i : ℕ) : MaxLoc := if sz i > u.val then ⟨sz i, some i⟩ else u

/-- The schedule of a parallel reduction. -/
inductive Plan
  | leaf (ids : List ℕ)
  | join (l r : Plan)

/-- The indices that a schedule visits. -/
def Plan.ids : Plan → List ℕ
  | .leaf l => l
  | .join l r => l.ids ++ r.ids

/-- The joins that are allowed: one of the arguments, and one with the larger value. -/
def Join (j : MaxLoc → MaxLoc → MaxLoc) : Prop :=
  ∀ a b, (j a b = a ∧ b.val ≤ a.val) ∨ (j a b = b ∧ a.val ≤ b.val)

/-- The join that only moves for a larger value. -/
def keepLeft (a b : MaxLoc) : MaxLoc := if b.val > a.val then b else a

/-- The result of the reduction. -/
def Plan.run (j : MaxLoc → MaxLoc → MaxLoc) (sz : ℕ → ℕ) : Plan → MaxLoc
  | .leaf l => l.foldl (body sz) MaxLoc.identity
  | .join l r => j (l.run j sz) (r.run j sz)

/-- `checkLargestClusterId` for the list of clusters, with the schedule and the join of the library. -/
def checkLargest (j : MaxLoc → MaxLoc → MaxLoc) (k : Kind) (cs : List Cluster) (p : Plan) : Option ℕ :=
  (p.run j (fun i => ((cs[i]?).map (size k)).getD 0)).loc

/-- The outcome of a call of the monitor. -/
inductive Outcome
  | goes_on
  | stops
  | undefined
  deriving DecidableEq, Repr

/-- `monitorLargest` on the points of one rank in the order of the loops: the first point where the concentration
of the cluster is larger than the threshold throws (PetscMonitor1D.cpp:718-730).  Without a cluster
(`_largestClusterId` is then the place of the identity turned into an `int`) the memory outside of the point is
read.  `PetscMonitor.h:95-96`, PetscMonitor0D.cpp:232-245. -/
def scan {K : Type*} [LT K] [DecidableLT K] (id : Option ℕ) (thr : K) (c : ℕ × ℕ × ℕ → ℕ → K) : List (ℕ × ℕ × ℕ) → Outcome
  | [] => .goes_on
  | x :: l =>
    match id with
    | none => .undefined
    | some n => if c x n > thr then .stops else scan id thr c l

/-- The points of a rank: `k`, `j`, `i` from the outside to the inside (PetscMonitor3D.cpp:594-596; in two
dimensions, PetscMonitor2D.cpp:545-546, there is no `k`, in one, PetscMonitor1D.cpp:718, no `j`, and in no dimension
there is the only point zero, PetscMonitor0D.cpp:324: lengths one). -/
def points (xs xm ys ym zs zm : ℕ) : List (ℕ × ℕ × ℕ) :=
  (List.range' zs zm).flatMap fun k => (List.range' ys ym).flatMap fun j => (List.range' xs xm).map fun i => (i, j, k)

end Xolotl.Network.Largest
