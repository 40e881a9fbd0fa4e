import Verif.Util.Tokenizer
import Mathlib.Algebra.Order.Floor.Ring
import Mathlib.Algebra.Order.Floor.Defs
import Mathlib.Algebra.Order.Ring.Defs

/-!
# Options that are lists of values

Model of the setters of `Options` that take several values at once, of how a JSON file reaches them, and of what `SolverHandler::initializeHandlers` makes of them.  Numbers of type `double` are elements of an ordered field; reading a number from a token is modelled for integers (`Tokenizer`) and is a parameter for `double`.
-/

namespace Xolotl.Options.Lists

open Xolotl.Util

/-- What a call comes to: it returns, it throws, or it reads past the end of a vector or converts out of range. -/
inductive Res (α : Type*)
  | ok (a : α)
  | threw
  | undefined

/-- Continue after a call that returned. -/
def Res.bind {α β : Type*} (r : Res α) (f : α → Res β) : Res β :=
  match r with
  | .ok a => f a
  | .threw => .threw
  | .undefined => .undefined

/-- `v[i]`. -/
def at? {α : Type*} (l : List α) (i : ℕ) : Res α :=
  match l[i]? with
  | some a => .ok a
  | none => .undefined

/-- A call that throws unless it gives a value. -/
def orThrow {α : Type*} : Option α → Res α
  | some a => .ok a
  | none => .threw

/-- `array[i] = params[i]`.  xolotl/options/src/Options.cpp:267, 332. -/
def assignAt {α : Type*} (p a : List α) (i : ℕ) : List α :=
  match p[i]? with
  | some x => a.set i x
  | none => a

/-- `for (i = 0; i < params.size(); ++i) array[i] = params[i];` on an array.  xolotl/options/src/Options.cpp:266-268, 331-333. -/
def fill {α : Type*} (a p : List α) : List α := (List.range p.length).foldl (assignAt p) a

/-- `setTempParam`, on `tempParam`.  xolotl/options/src/Options.cpp:259-269. -/
def setTemp {K : Type*} (a p : List K) : Res (List K) := if p.length > 2 then .threw else .ok (fill a p)

/-- `setGridParam`, on `gridParam`.  xolotl/options/src/Options.cpp:324-334. -/
def setGrid {K : Type*} (a p : List K) : Res (List K) := if p.length > 6 then .threw else .ok (fill a p)

/-- The six boundary conditions.  xolotl/options/include/xolotl/options/Options.h:234-235. -/
structure Sides where
  left : ℤ
  right : ℤ
  bottom : ℤ
  top : ℤ
  front : ℤ
  back : ℤ
  deriving DecidableEq

/-- `setBoundaries`.  xolotl/options/src/Options.cpp:371-395. -/
def setBoundaries (o : Sides) (p : List ℤ) : Sides :=
  if p.length < 2 then o
  else
    let o := { o with left := p.getD 0 0 }
    let o := { o with right := p.getD 1 0 }
    let o := if p.length > 2 then { o with bottom := p.getD 2 0 } else o
    let o := if p.length > 3 then { o with top := p.getD 3 0 } else o
    let o := if p.length > 4 then { o with front := p.getD 4 0 } else o
    if p.length > 5 then { o with back := p.getD 5 0 } else o

/-- The time stepping of coupled instances.  Options.h: `initialTimeStep` to `numTimeSteps`. -/
structure Coupling (K : Type*) where
  initial : K
  max : K
  growth : K
  start : K
  stop : K
  steps : ℕ

/-- Number of values of `IdType`.  xolotl/config.h.in:18-24 (the narrower of the two). -/
def ids : ℕ := 2 ^ 32

/-- `setCouplingTimeStepParams`; the last value is cut to an `IdType`, which is undefined where it does not fit.  xolotl/options/src/Options.cpp:464-483. -/
def setCoupling {K : Type*} [Field K] [LinearOrder K] [FloorRing K] (p : List K) : Res (Coupling K) :=
  if p.length ≠ 6 then .threw
  else if p.getD 5 0 ≤ 0 then .threw
  else if ⌊p.getD 5 0⌋ < ids then .ok ⟨p.getD 0 0, p.getD 1 0, p.getD 2 0, p.getD 3 0, p.getD 4 0, ⌊p.getD 5 0⌋.toNat⟩
  else .undefined

/-- `setPulseParams`, after reading the tokens: length and proportion.  xolotl/options/src/Options.cpp:493-501. -/
def setPulse {K : Type*} (p : List K) : Res (K × K) := (at? p 0).bind fun a => (at? p 1).bind fun b => .ok (a, b)

/-- `groupingMin`, `groupingWidthA`, `groupingWidthB`. -/
structure Grouping where
  min : ℤ
  a : ℤ
  b : ℤ
  deriving DecidableEq

/-- `setGroupingParams`.  xolotl/options/src/Options.cpp:503-514. -/
def setGrouping (o : Grouping) (p : List ℤ) : Res Grouping :=
  (at? p 0).bind fun m => (at? p 1).bind fun a => if p.length > 2 then (at? p 2).bind fun b => .ok ⟨m, a, b⟩ else .ok { o with min := m, a := a }

/-- `int` to `std::size_t`. -/
def toSize (z : ℤ) : ℕ := (z % (2 ^ 64 : ℤ)).toNat

/-- `setRadiusMinSizes`: values are appended.  xolotl/options/src/Options.cpp:355-361. -/
def setRadius (o : List ℕ) (p : List ℤ) : List ℕ := p.foldl (fun o z => o ++ [toSize z]) o

/-- The minimum sizes used, one per species: from `1`, the first ones overwritten.  `cut` is the conversion to the element type.  xolotl/solver/src/handler/SolverHandler.cpp:443-449, xolotl/core/include/xolotl/core/network/impl/ReactionNetwork.tpp:1594-1600. -/
def minSizes (cut : ℕ → ℕ) (species : ℕ) (o : List ℕ) : List ℕ :=
  (List.range (min o.length species)).foldl (fun a i => a.set i (cut (o.getD i 0))) (List.replicate species 1)

/-- `strtoul(str, &ep, 10)`: value and what `ep` points to.  Without digits nothing is read; too large a value gives the largest one; a minus sign negates modulo the word. -/
def strtoul (l : List Char) : ℕ × List Char :=
  let p := Tokenizer.sign (l.dropWhile Tokenizer.space)
  let ds := p.2.takeWhile Tokenizer.isDigit
  if ds = [] then (0, l)
  else
    let n := Tokenizer.value ds
    let m := if 2 ^ 64 ≤ n then 2 ^ 64 - 1 else if p.1 then (2 ^ 64 - n) % 2 ^ 64 else n
    (m, p.2.dropWhile Tokenizer.isDigit)

/-- `rngPrintSeed`, and `rngSeed` where one is given. -/
structure Rng where
  print : Bool
  seed : Option ℕ
  deriving DecidableEq

/-- `processRNGParam`; `setRNGSeed` takes an `unsigned int`.  xolotl/options/src/Options.cpp:405-431, xolotl/options/include/xolotl/options/Options.h:857-861. -/
def setRng (o : Rng) (s : List Char) : Res Rng :=
  let ts := Tokenizer.tokens s
  (at? ts 0).bind fun t =>
    let k := if t = "print".toList then 1 else 0
    let o := { o with print := decide (t = "print".toList) }
    match ts[k]? with
    | none => .ok o
    | some u => if (strtoul u).2 ≠ [] then .threw else .ok { o with seed := some ((strtoul u).1 % 2 ^ 32) }

/-- The seed of a process: what the user gave, otherwise the time, plus the rank, in `unsigned int`.  xolotl/solver/src/handler/SolverHandler.cpp:409-424. -/
def rankSeed (o : Rng) (time rank : ℕ) : ℕ := ((match o.seed with | some s => s | none => time % 2 ^ 32) + rank) % 2 ^ 32

/-- `appendPetscArg`.  xolotl/options/src/Options.cpp:524-531. -/
def appendArg (a b : List Char) : List Char := (if a ≠ [] then a ++ [' '] else a) ++ b

/-- A node of a property tree as far as it is looked at: its own text and the texts of its children. -/
structure Node where
  data : List Char
  children : List (List Char)

/-- `get_value<int>` of a property tree: the whole text must be an `int`, up to white space behind it; `none` where it throws. -/
def strict (l : List Char) : Option ℤ :=
  let p := Tokenizer.sign (l.dropWhile Tokenizer.space)
  let ds := p.2.takeWhile Tokenizer.isDigit
  let n : ℤ := Tokenizer.value ds
  let z := if p.1 then -n else n
  if ds = [] ∨ Tokenizer.intMax < z ∨ z < Tokenizer.intMin then none
  else if (p.2.dropWhile Tokenizer.isDigit).dropWhile Tokenizer.space = [] then some z else none

/-- `asVector<int>`: all children, or a throw.  xolotl/options/src/JSONOptions.cpp:65-74. -/
def asVector : List (List Char) → Res (List ℤ)
  | [] => .ok []
  | t :: r => (orThrow (strict t)).bind fun z => (asVector r).bind fun l => .ok (z :: l)

/-- The list handed to a setter for integers: the text of a node without children is split into tokens, otherwise the children are taken.  xolotl/options/src/JSONOptions.cpp:204-212, 228-246. -/
def intsOf (n : Node) : Res (List ℤ) := if n.children = [] then .ok (Tokenizer.ints n.data) else asVector n.children

/-- `checkSetParam`: `get_optional` is empty both for a missing and for an unreadable value.  xolotl/options/src/JSONOptions.cpp:52-63. -/
def checkSet {α : Type*} (parse : List Char → Option α) (n : Option Node) (old : α) : α :=
  match n.bind fun n => parse n.data with
  | some a => a
  | none => old

/-- `petscArgs` from a JSON file: every child is appended.  xolotl/options/src/JSONOptions.cpp:294-298. -/
def petscArgs (a : List Char) (n : Node) : List Char := n.children.foldl appendArg a

/-- What the initial concentrations are read with: species labels, `std::stoi`, `std::stod` and the lookup of a composition; `none` where they throw, or where there is no such cluster. -/
structure Reader (K : Type*) where
  species : List Char → Option ℕ
  stoi : List Char → Option ℤ
  stod : List Char → Option K
  find : List ℕ → Option ℕ
  count : ℕ

/-- A composition with one species, in `AmountType`.  SolverHandler.cpp:456-461. -/
def comp (n s : ℕ) (z : ℤ) : List ℕ := (List.replicate n 0).set s (z % (2 ^ 32 : ℤ)).toNat

/-- One round of the loop up to the lookup: the cluster.  xolotl/solver/src/handler/SolverHandler.cpp:456-472. -/
def cluster {K : Type*} (e : Reader K) (s a : List Char) : Res ℕ :=
  (orThrow (e.species s)).bind fun k => (orThrow (e.stoi a)).bind fun z => orThrow (e.find (comp e.count k z))

/-- The loop over the tokens of the initial concentrations.  xolotl/solver/src/handler/SolverHandler.cpp:451-478. -/
def initial {K : Type*} (e : Reader K) : List (List Char) → Res (List (ℕ × K))
  | [] => .ok []
  | [s] => (orThrow (e.species s)).bind fun _ => .undefined
  | [s, a] => (cluster e s a).bind fun _ => .undefined
  | s :: a :: v :: r => (cluster e s a).bind fun c => (orThrow (e.stod v)).bind fun x => (initial e r).bind fun l => .ok ((c, x) :: l)

/-- A new point: zero, then the requested concentrations.  xolotl/solver/src/handler/PetscSolver1DHandler.cpp:332-343, PetscSolver0DHandler.cpp:132-137. -/
def place {K : Type*} [Zero K] (dof : ℕ) (l : List (ℕ × K)) : List K := l.foldl (fun c p => c.set p.1 p.2) (List.replicate dof 0)

/-- The point `i` of a grid of `n` points in one dimension, with the offsets at both ends.  PetscSolver1DHandler.cpp:332-343. -/
def point {K : Type*} [Zero K] (dof n left right i : ℕ) (restart : Bool) (l : List (ℕ × K)) : List K :=
  if left ≤ i ∧ restart = false ∧ i < n - right then place dof l else List.replicate dof 0

/-- The processes that the safeguards look at. -/
structure Used where
  reaction : Bool
  advec : Bool
  modifiedTM : Bool
  movingSurface : Bool
  bursting : Bool
  attenuation : Bool
  deriving DecidableEq

/-- Whether initialisation goes on.  xolotl/solver/src/handler/SolverHandler.cpp:541-563. -/
def admitted (left : ℤ) (u : Used) : Bool :=
  if left == 0 && (u.advec || u.modifiedTM || u.movingSurface || u.bursting) then false
  else if u.attenuation && !u.modifiedTM then false
  else if u.modifiedTM && !u.reaction then false
  else true

end Xolotl.Options.Lists
