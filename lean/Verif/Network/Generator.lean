import Verif.Network.Connectivity

/-!
# Two-pass generation of reactions

Model of `addProductionReaction`, `addDissociationReaction` (`/repo/xolotl/core/include/xolotl/core/network/detail/impl/ReactionGenerator.tpp:111-167`) and of
their copies `addSinkReaction`, `addReSolutionReaction`, `addTrapMutationReaction`, `addNucleationReaction`, `addConstantReaction`
(`SinkReactionGenerator.tpp:43-70` and the corresponding files): a counting pass, prefix sums (`getRowMapAndTotalReactionCount`, 73-88), and a pass that claims a slot by
compare-exchange and then writes the cluster set.

* `invalidIndex` is `none`. The row and the field used for the claim are the same field of the cluster set: field 0 except for
  dissociation and trap mutation, which use field 1.
* Every request is a task of its own; tasks interleave arbitrarily, one memory access at a time. The assignment
  `_prodCrsClusterSets(id) = clusterSet` is four separate writes, so that other tasks can look at the slot in between.
-/

namespace Xolotl.Network.Gen

open Conn (startOf)

/-- `ClusterSet` (`detail/ClusterSet.h:17-37`). -/
abbrev ClusterSet := Fin 4 → Option ℕ

inductive Pc
  /-- about to compare-exchange field `fld` of slot `p` -/
  | claim (p : ℕ)
  /-- about to write field `j` of slot `p` -/
  | write (p : ℕ) (j : ℕ)
  | done
  deriving DecidableEq

/-- The construction pass of one reaction type. -/
structure Pass (m : ℕ) where
  fld : Fin 4
  size : ℕ
  start : ℕ → ℕ
  /-- the requested cluster sets -/
  req : Fin m → ClusterSet
  /-- the value of field `fld`, assumed valid -/
  row : Fin m → ℕ

structure St (m : ℕ) where
  slot : ℕ → ClusterSet
  pc : Fin m → Pc

namespace Pass

variable {m : ℕ} (P : Pass m)

def init : St m := ⟨fun _ _ => none, fun i => .claim (P.start (P.row i))⟩

/-- One memory access of task `i`; `none` is an access out of bounds. -/
def step (s : St m) (i : Fin m) : Option (St m) :=
  match s.pc i with
  | .done => some s
  | .claim p =>
    if p < P.size then
      match s.slot p P.fld with
      | none => some
          ⟨Function.update s.slot p (Function.update (s.slot p) P.fld (some (P.row i))),
           Function.update s.pc i (.write p 0)⟩
      | some _ => some { s with pc := Function.update s.pc i (.claim (p + 1)) }
    else none
  | .write p j =>
    if p < P.size then
      if h : j < 4 then some
          ⟨Function.update s.slot p (Function.update (s.slot p) ⟨j, h⟩ (P.req i ⟨j, h⟩)),
           Function.update s.pc i (.write p (j + 1))⟩
      else some { s with pc := Function.update s.pc i .done }
    else none

def run (s : St m) : List (Fin m) → Option (St m)
  | [] => some s
  | i :: is => (P.step s i).bind fun s' => run s' is

end Pass

/-- The updates of the counting pass: one atomic increment of the count of the row. -/
def countUpdates (fld : Fin 4) (reqs : List ClusterSet) : List (ℕ × ℕ) :=
  reqs.filterMap fun cs => (cs fld).map fun r => (r, 1)

/-- The construction pass for the requests, with `n` clusters and the counts of the first pass. -/
def passOf (n : ℕ) (fld : Fin 4) (reqs : List ClusterSet) (counts : ℕ → ℕ) : Pass reqs.length where
  fld := fld
  size := startOf counts n
  start := startOf counts
  req := reqs.get
  row i := (reqs.get i fld).getD 0

end Xolotl.Network.Gen
