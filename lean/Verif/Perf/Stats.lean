import Mathlib.Analysis.Real.Sqrt

/-!
# Statistics over all ranks

Model of the collection of performance data.  Strings are lists of characters; the NUL character ends a C string.  `MPI_Reduce` is a fold over the contributions of the ranks, `MPI_Gatherv` writes the block of each rank at its displacement, `MPI_Bcast` gives every rank what root has.  Values are real numbers.
-/

namespace Xolotl.Perf.Stats

abbrev Name := List Char

/-- The NUL character. -/
def nul : Char := '\x00'

/-- `nBytes`.  xolotl/perf/src/PerfHandler.cpp:104-109. -/
def nBytes (names : List Name) : ℕ := names.foldl (fun n name => n + (name.length + 1)) 0

/-- Copying `src` over `buf` at `d`. -/
def place (buf : List Char) (d : ℕ) (src : List Char) : List Char := buf.take d ++ src ++ buf.drop (d + src.length)

/-- One rank's names in a buffer that `make_unique` fills with NULs; `pName` is the second component.  PerfHandler.cpp:117-123. -/
def marshal (names : List Name) : List Char × ℕ :=
  names.foldl (fun (b : List Char × ℕ) name => (place b.1 b.2 name, b.2 + (name.length + 1))) (List.replicate (nBytes names) nul, 0)

/-- `allNameDispls`: the displacement of each rank.  PerfHandler.cpp:137-142. -/
def displs : List ℕ → List ℕ
  | [] => []
  | c :: cs => go 0 (c :: cs)
where
  /-- The loop from rank 1, given the displacement of the rank before. -/
  go (d : ℕ) : List ℕ → List ℕ
    | [] => []
    | c :: cs => d :: go (d + c) cs

/-- The names of all ranks at root: `allNames` starts as NULs.  PerfHandler.cpp:129-146. -/
def gather (ranks : List (List Name)) : List Char :=
  let counts := ranks.map nBytes
  ((displs counts).zip ranks).foldl (fun buf p => place buf p.1 (marshal p.2).1) (List.replicate counts.sum nul)

/-- Root's loop over the gathered characters: the C strings in it, `none` if the last one is not terminated.  PerfHandler.cpp:151-164. -/
def parse (buf : List Char) : Option (List Name) :=
  if h : buf = [] then some []
  else
    let name := buf.takeWhile (· != nul)
    if name.length < buf.length then (parse (buf.drop (name.length + 1))).map (name :: ·) else none
termination_by buf.length
decreasing_by
  have : buf.length ≠ 0 := fun e => h (List.eq_nil_of_length_eq_zero e)
  simp only [List.length_drop]
  omega

/-- The keys of `stats` after the names have been looked up and the new ones inserted (the order of `std::map` is left out).  PerfHandler.cpp:153-159. -/
def keys (old : List Name) (names : List Name) : List Name :=
  names.foldl (fun ks n => if n ∈ ks then ks else ks ++ [n]) old

/-- `collectAllObjectNames` at root, from the names of all ranks.  PerfHandler.cpp:91-168. -/
def allNames (ranks : List (List Name)) : Option (List Name) := (parse (gather ranks)).map (keys [])

/-- The objects of a rank: a map from names to values. -/
abbrev Objs := List (Name × ℝ)

/-- `collectMyObjectNames`.  PerfHandler.cpp:170-179. -/
def myNames (o : Objs) : List Name := o.map (·.1)

/-- `getObjValue`; `none`: not found.  PerfHandler.cpp:202-220. -/
def objValue (o : Objs) (name : Name) : Option ℝ := o.lookup name

/-- The hardware counters of a rank: by object name, the names and values of the counters of its specification. -/
abbrev HwObjs := List (Name × List (Name × ℝ))

/-- `collectMyObjectNames` for hardware counters.  PerfHandler.cpp:183-200. -/
def hwNames (o : HwObjs) : List Name := o.flatMap fun p => p.2.map fun c => p.1 ++ ':' :: c.1

/-- The part of a string before the last colon and the part behind it. -/
def splitLast (name : Name) : Name × Name :=
  ((name.reverse.dropWhile (· != ':')).drop 1 |>.reverse, (name.reverse.takeWhile (· != ':')).reverse)

/-- `getObjValue` for hardware counters: found means that the object is known; a counter that is not in its specification gives 0.  PerfHandler.cpp:222-259. -/
def hwValue (o : HwObjs) (name : Name) : Option ℝ :=
  match o.lookup (splitLast name).1 with
  | none => none
  | some spec => some ((spec.lookup (splitLast name).2).getD 0)

/-- `MPI_Reduce` over the contributions of the ranks. -/
def reduce {α : Type} (op : α → α → α) (dflt : α) : List α → α
  | [] => dflt
  | x :: xs => xs.foldl op x

/-- `PerfObjStatistics`.  xolotl/perf/include/xolotl/perf/PerfObjStatistics.h. -/
structure Statistics where
  processCount : ℕ
  min : ℝ
  max : ℝ
  average : ℝ
  stdev : ℝ

/-- The statistics of one object from what each rank has found, with `T::MaxValue` and `T::MinValue`.  PerfHandler.cpp:304-347. -/
noncomputable def statistics (maxValue minValue : ℝ) (found : List (Option ℝ)) : Statistics :=
  let count : ℕ := reduce (· + ·) 0 (found.map fun v => if v.isSome then 1 else 0)
  let forMax := found.map fun v => v.getD minValue
  let sum := reduce (· + ·) 0 forMax
  let squares := reduce (· + ·) 0 (forMax.map fun v => v * v)
  let average := sum / count
  { processCount := count
    min := reduce Min.min 0 (found.map fun v => v.getD maxValue)
    max := reduce Max.max 0 forMax
    average := average
    stdev := Real.sqrt (squares / count - average * average) }

/-- `aggregateStatistics` at root with an empty `stats`, for timers and event counters.  PerfHandler.cpp:261-354. -/
noncomputable def aggregate (maxValue minValue : ℝ) (ranks : List Objs) : Option (List (Name × Statistics)) :=
  (allNames (ranks.map myNames)).map fun ks => ks.map fun n => (n, statistics maxValue minValue (ranks.map (objValue · n)))

/-- `aggregateStatistics` for hardware counters. -/
noncomputable def hwAggregate (maxValue minValue : ℝ) (ranks : List HwObjs) : Option (List (Name × Statistics)) :=
  (allNames (ranks.map hwNames)).map fun ks => ks.map fun n => (n, statistics maxValue minValue (ranks.map (hwValue · n)))

end Xolotl.Perf.Stats
