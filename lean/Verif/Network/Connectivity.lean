import Verif.Network.Whole

/-!
# Construction of the Jacobian connectivity

Model of `ClusterConnectivity::add`, `operator()` (`/repo/xolotl/core/include/xolotl/core/network/detail/ClusterConnectivity.h:42-94`)
and of `ReactionGeneratorBase::generateConnectivity` (`detail/impl/ReactionGenerator.tpp:169-280`).

* `invalidNetworkIndex` is modelled by `none`.
* Every call of `add` in the filling pass is a task of its own and the tasks interleave arbitrarily, one memory access at a time (the compare-exchange at line 54 and the
  plain read at line 57 are separate steps). The executions of the code, where one reaction issues its calls in order and where the diagonal
  is added first, are among these.
* Accessing `entries` out of bounds is undefined behaviour: the step function returns `none`.
-/

namespace Xolotl.Network.Conn

/-- `add` ignores calls with an invalid row or column (lines 46-48). -/
def validReq : Option ℕ × Option ℕ → Option (ℕ × ℕ)
  | (some r, some c) => some (r, c)
  | _ => none

/-- The calls of `add` that are not ignored (lines 46-48), with the diagonal of the `n` degrees of freedom
(ReactionGenerator.tpp:183-187 and 217-230) in front. -/
def tasksOf (n : ℕ) (reqs : List (Option ℕ × Option ℕ)) : List (ℕ × ℕ) :=
  (List.range n).map (fun i => (i, i)) ++
    reqs.filterMap validReq

/-- The updates of the counting pass: `atomic_increment(&row_map(rowId))` (line 50). -/
def countUpdates (reqs : List (Option ℕ × Option ℕ)) : List (ℕ × ℕ) :=
  (reqs.filterMap validReq).map fun t => (t.1, 1)

/-- The counts are initialised to 1 for each of the `n` rows, for the diagonal (ReactionGenerator.tpp:183-187). -/
def initCounts (n : ℕ) (r : ℕ) : ℕ := if r < n then 1 else 0

/-- `Kokkos::get_crs_row_map_from_counts`: exclusive prefix sums. -/
def startOf (counts : ℕ → ℕ) : ℕ → ℕ
  | 0 => 0
  | r + 1 => startOf counts r + counts r

/-- Where a task is in the loop of `add` (lines 53-60). -/
inductive Pc
  /-- about to compare-exchange `entries(p)` -/
  | cas (p : ℕ)
  /-- about to compare `entries(p)` with the column -/
  | read (p : ℕ)
  | done
  deriving DecidableEq

/-- The filling pass: number of slots, start of the rows and the tasks. -/
structure Fill (m : ℕ) where
  size : ℕ
  start : ℕ → ℕ
  row : Fin m → ℕ
  col : Fin m → ℕ

/-- The shared array and the positions of all tasks. -/
structure St (m : ℕ) where
  ent : ℕ → Option ℕ
  pc : Fin m → Pc

namespace Fill

variable {m : ℕ} (P : Fill m)

/-- All entries invalid (lines 209-216), every task at the beginning of its row. -/
def init : St m := ⟨fun _ => none, fun i => .cas (P.start (P.row i))⟩

/-- One memory access of task `i`; `none` is an access out of bounds. -/
def step (s : St m) (i : Fin m) : Option (St m) :=
  match s.pc i with
  | .done => some s
  | .cas p =>
    if p < P.size then
      match s.ent p with
      | none => some ⟨Function.update s.ent p (some (P.col i)), Function.update s.pc i .done⟩
      | some _ => some { s with pc := Function.update s.pc i (.read p) }
    else none
  | .read p =>
    if p < P.size then
      if s.ent p = some (P.col i) then some { s with pc := Function.update s.pc i .done }
      else some { s with pc := Function.update s.pc i (.cas (p + 1)) }
    else none

/-- An execution: the list says which task moves next. -/
def run (s : St m) : List (Fin m) → Option (St m)
  | [] => some s
  | i :: is => (P.step s i).bind fun s' => run s' is

end Fill

/-- The filling pass for a list of tasks, with the row map obtained from the counts. -/
def fillOf (n : ℕ) (tasks : List (ℕ × ℕ)) (counts : ℕ → ℕ) : Fill tasks.length where
  size := startOf counts n
  start := startOf counts
  row i := (tasks.get i).1
  col i := (tasks.get i).2

/-- "Shrink to fit" (ReactionGenerator.tpp:247-275): row `i` of the final connectivity, up to the first invalid entry. -/
def shrinkRow (start : ℕ → ℕ) (ent : ℕ → Option ℕ) (i : ℕ) : List ℕ :=
  let rec go (j len : ℕ) : List ℕ :=
    match len with
    | 0 => []
    | len + 1 => match ent j with
      | none => []
      | some c => c :: go (j + 1) len
  go (start i) (start (i + 1) - start i)

/-- The final compressed row storage built by `Kokkos::count_and_fill_crs`. -/
structure Crs where
  rowMap : ℕ → ℕ
  entries : ℕ → Option ℕ

def crsOf (rows : List (List ℕ)) : Crs where
  rowMap r := ((rows.take r).map List.length).sum
  entries p := rows.flatten[p]?

/-- `getPosition` (lines 82-94). -/
def Crs.getPosition (C : Crs) (r c : ℕ) : Option ℕ :=
  (List.range' (C.rowMap r) (C.rowMap (r + 1) - C.rowMap r)).find? fun p => C.entries p == some c

end Xolotl.Network.Conn
