import Verif.Util.Tokenizer

/-!
# Process list

Model of `Options::setProcesses` and `Options::addProcess`.  The map from process names to flags is an association list with one entry per key.  A call gives the map afterwards and whether it returned; when it throws, what it had done so far stays done.
-/

namespace Xolotl.Options.Processes

open Xolotl.Util

/-- `processMap`. -/
abbrev Map := List (List Char × Bool)

/-- The known processes.  xolotl/options/src/Options.cpp:445-457. -/
def names : List (List Char) :=
  ["reaction".toList, "diff".toList, "advec".toList, "modifiedTM".toList, "movingSurface".toList, "bursting".toList,
   "attenuation".toList, "resolution".toList, "heterogeneous".toList, "sink".toList, "soret".toList, "constant".toList,
   "noSolve".toList]

/-- `map.find(key) != map.end()`. -/
def has (m : Map) (k : List Char) : Bool := m.any fun e => e.1 == k

/-- `map.at(key)`; `none` when it throws. -/
def lookup (m : Map) (k : List Char) : Option Bool := (m.find? fun e => e.1 == k).map Prod.snd

/-- `map[key] = b`. -/
def assign (m : Map) (k : List Char) (b : Bool) : Map := if has m k then m.map fun e => if e.1 = k then (k, b) else e else m ++ [(k, b)]

/-- The thirteen assignments.  xolotl/options/src/Options.cpp:445-457. -/
def reset (m : Map) : Map := names.foldl (fun m k => assign m k false) m

/-- `addProcess`.  xolotl/options/src/Options.cpp:240-257. -/
def add (m : Map) (k : List Char) : Map × Bool :=
  let m := if m.isEmpty then reset m else m
  if has m k then (assign m k true, true) else (m, false)

/-- `setProcesses(const std::vector<std::string>&)`.  xolotl/options/src/Options.cpp:433-439. -/
def setList (m : Map) : List (List Char) → Map × Bool
  | [] => (m, true)
  | k :: l => if (add m k).2 then setList (add m k).1 l else ((add m k).1, false)

/-- `setProcesses(const std::string&)`.  xolotl/options/src/Options.cpp:441-462. -/
def setString (m : Map) (s : List Char) : Map × Bool := setList (reset m) (Tokenizer.tokens s)

/-- A call of either overload. -/
inductive Call
  | list (l : List (List Char))
  | string (s : List Char)

/-- One call. -/
def call (m : Map) : Call → Map × Bool
  | .list l => setList m l
  | .string s => setString m s

/-- A sequence of calls on new options; stops at the first one that throws. -/
def calls (m : Map) : List Call → Map × Bool
  | [] => (m, true)
  | c :: cs => if (call m c).2 then calls (call m c).1 cs else ((call m c).1, false)

end Xolotl.Options.Processes
