import Verif.Options.Lists
import Verif.Options.Processes
import Verif.Options.NetParams

/-!
# The two readers of parameter files

Model of `JSONOptions::readParams`, `ConfOptions::readParams` and `createOptions`: which entry of a file an option takes, what is done when it is missing, unknown, repeated or unreadable, and in which order the setters are called.
The setters themselves are those of `Lists`, `Processes` and `NetParams`.

Trusted: `read_json` gives the entries in the order of the file and keeps repeated ones; an `iptree` compares keys without regard to case and finds the first of several equal ones; `parse_config_file` gives names and texts;
`store` throws for unknown and repeated names and for texts that cannot be converted, and does not replace what the command line has set.  The conversion of a text to a `double`, an `IdType` or a `bool` is a parameter.
-/

namespace Xolotl.Options.Readers

open Xolotl.Util Xolotl.Options.Lists

/-- What an option holds. -/
inductive Kind
  | text
  | path
  | real
  | int
  | flag
  | list
  deriving DecidableEq

/-- The options and their kinds.  xolotl/options/src/ConfOptions.cpp:72-232, xolotl/options/src/JSONOptions.cpp:113-298. -/
def table : List (List Char × Kind) :=
  [("logLevel".toList, .text), ("restartFile".toList, .text), ("tempHandler".toList, .text), ("tempParam".toList, .list), ("tempFile".toList, .text), ("tempGridPower".toList, .real), ("flux".toList, .real),
   ("fluxFile".toList, .text), ("perfHandler".toList, .text), ("perfOutputYAML".toList, .flag), ("vizHandler".toList, .text), ("dimensions".toList, .int), ("material".toList, .text), ("initialConc".toList, .text),
   ("zeta".toList, .real), ("interfaceLoc".toList, .real), ("gridType".toList, .text), ("gridParam".toList, .list), ("gridFile".toList, .text), ("petscArgs".toList, .list), ("process".toList, .list), ("grain".toList, .text),
   ("useSubnetworks".toList, .flag), ("couplingTimeStepParams".toList, .list), ("grouping".toList, .list), ("sputtering".toList, .real), ("netParam".toList, .list), ("radiusSize".toList, .list), ("boundary".toList, .list),
   ("xBCType".toList, .text), ("heatLossPortion".toList, .real), ("burstingDepth".toList, .real), ("burstingFactor".toList, .real), ("rng".toList, .list), ("density".toList, .real), ("pulse".toList, .list),
   ("lattice".toList, .real), ("impurityRadius".toList, .real), ("biasFactor".toList, .real), ("hydrogenFactor".toList, .real), ("xenonDiffusivity".toList, .real), ("fissionYield".toList, .real), ("heVRatio".toList, .real),
   ("migrationThreshold".toList, .real), ("fluxDepthProfileFilePath".toList, .path), ("reactionFilePath".toList, .path), ("basalPortion".toList, .real), ("transitionSize".toList, .int), ("cascadeDose".toList, .real),
   ("cascadeEfficiency".toList, .real)]

/-- The kind of an option. -/
def kind (k : List Char) : Option Kind := (table.find? fun e => e.1 == k).map Prod.snd

/-- What the readers put in place of an option that is missing; all others keep what the constructor gave them.  xolotl/options/src/JSONOptions.cpp:113, 117, 146, 151, 164, xolotl/options/src/ConfOptions.cpp:73, 78, 102, 107, 122. -/
def fallback (k : List Char) : Option (List Char) :=
  if k = "logLevel".toList then some "info".toList
  else if k = "tempHandler".toList then some "constant".toList
  else if k = "perfHandler".toList then some "os".toList
  else if k = "vizHandler".toList then some "dummy".toList
  else if k = "gridType".toList then some "uniform".toList
  else none

/-- The world outside: conversions of texts, and which files can be opened. -/
structure Env (K : Type) where
  token : List Char → K
  nat : List Char → ℕ
  jsonReal : List Char → Option K
  jsonNat : List Char → Option ℕ
  jsonFlag : List Char → Option Bool
  confReal : List Char → Option K
  confInt : List Char → Option ℤ
  confFlag : List Char → Option Bool
  opens : List Char → Bool

/-- The options as far as the readers set them; single values by the name of the option. -/
structure Opts (K : Type) where
  text : List Char → List Char
  real : List Char → K
  int : List Char → ℤ
  flag : List Char → Bool
  temp : List K
  grid : List K
  fluxFlag : Bool
  fluxProfile : Bool
  procs : Processes.Map
  coupling : Option (Coupling K)
  grouping : Grouping
  hdf5 : Bool
  net : NetParams.Opts
  radius : List ℕ
  sides : Sides
  rng : Rng
  pulse : K × K
  petsc : List Char

variable {K : Type} [Field K] [LinearOrder K] [FloorRing K]

/-- Reading a path from a stream: one word, with blanks only around it; a path that begins with a quotation mark is left out.  xolotl/options/src/JSONOptions.cpp:282, 284, xolotl/options/src/ConfOptions.cpp:212, 215. -/
def readPath (t : List Char) : Option (List Char) :=
  let l := t.dropWhile Tokenizer.space
  let w := l.takeWhile fun c => !Tokenizer.space c
  if w = [] ∨ w.head? = some '"' ∨ (l.dropWhile fun c => !Tokenizer.space c).dropWhile Tokenizer.space ≠ [] then none else some w

/-- What is done with an option if it is there. -/
def given {α : Type} (n : Option Node) (f : Node → α → Res α) (o : α) : Res α := match n with
  | some n => f n o
  | none => .ok o

/-- `asVector`: all children, or a throw.  xolotl/options/src/JSONOptions.cpp:65-74. -/
def vector {α : Type} (parse : List Char → Option α) : List (List Char) → Res (List α)
  | [] => .ok []
  | t :: r => (orThrow (parse t)).bind fun a => (vector parse r).bind fun l => .ok (a :: l)

/-- A list of values: the words of a text or the children.  xolotl/options/src/JSONOptions.cpp:120-126, 167-173, 195-201, 205-211, 219-225, 229-235, 239-245. -/
def values {α : Type} (word : List Char → α) (parse : List Char → Option α) (n : Node) : Res (List α) :=
  if n.children = [] then .ok ((Tokenizer.tokens n.data).map word) else vector parse n.children

/-- The handlers of `checkPerfHandlerName` and `checkVizHandlerName`.  xolotl/options/src/Options.cpp:300-322. -/
def handlers (o : Opts K) : Res (Opts K) :=
  if o.text "perfHandler".toList ∈ ["dummy".toList, "os".toList, "papi".toList] ∧ (o.text "vizHandler".toList = "std".toList ∨ o.text "vizHandler".toList = "dummy".toList) then .ok o else .threw

/-- A file that must be there.  xolotl/options/src/Options.cpp:278-298, 344-353. -/
def file (e : Env K) (k : List Char) (o : Opts K) : Res (Opts K) := if e.opens (o.text k) then .ok o else .threw

/-- `setProcesses`, from a text or a list.  xolotl/options/src/JSONOptions.cpp:180-188. -/
def processes (n : Node) (o : Opts K) : Res (Opts K) :=
  let r := if n.children = [] then Processes.setString o.procs n.data else Processes.setList o.procs n.children
  if r.2 then .ok { o with procs := r.1 } else .threw

/-- `tempParam`.  xolotl/options/src/JSONOptions.cpp:119-127. -/
def temperature (e : Env K) (n : Node) (o : Opts K) : Res (Opts K) := (values e.token e.jsonReal n).bind fun p => (setTemp o.temp p).bind fun a => .ok { o with temp := a }

/-- `flux`; `read` reads the number.  xolotl/options/src/JSONOptions.cpp:136-139, xolotl/options/src/ConfOptions.cpp:94, 268-270. -/
def flux (read : List Char → Option K) (n : Node) (o : Opts K) : Res (Opts K) :=
  (orThrow (read n.data)).bind fun x => .ok { o with fluxFlag := true, real := fun k => if k = "flux".toList then x else o.real k }

/-- `fluxFile`.  xolotl/options/src/JSONOptions.cpp:140-144. -/
def fluxFile (e : Env K) (o : Opts K) : Res (Opts K) := (file e "fluxFile".toList o).bind fun o => .ok { o with fluxProfile := true }

/-- `gridParam`.  xolotl/options/src/JSONOptions.cpp:166-174. -/
def gridValues (e : Env K) (n : Node) (o : Opts K) : Res (Opts K) := (values e.token e.jsonReal n).bind fun p => (setGrid o.grid p).bind fun a => .ok { o with grid := a }

/-- `couplingTimeStepParams`.  xolotl/options/src/JSONOptions.cpp:194-202. -/
def couplingSteps (e : Env K) (n : Node) (o : Opts K) : Res (Opts K) := (values e.token e.jsonReal n).bind fun p => (setCoupling p).bind fun c => .ok { o with coupling := some c }

/-- `grouping`.  xolotl/options/src/JSONOptions.cpp:204-212. -/
def groups (n : Node) (o : Opts K) : Res (Opts K) := (intsOf n).bind fun p => (setGrouping o.grouping p).bind fun g => .ok { o with grouping := g }

/-- `netParam`.  xolotl/options/src/JSONOptions.cpp:216-226, xolotl/options/src/ConfOptions.cpp:313-318. -/
def network (e : Env K) (n : Node) (o : Opts K) : Res (Opts K) :=
  (values e.nat e.jsonNat n).bind fun p => match NetParams.set o.net p with
    | some w => .ok { o with hdf5 := false, net := w }
    | none => .undefined

/-- `radiusSize`.  xolotl/options/src/JSONOptions.cpp:228-236. -/
def radii (n : Node) (o : Opts K) : Res (Opts K) := (intsOf n).bind fun p => .ok { o with radius := setRadius o.radius p }

/-- `boundary`.  xolotl/options/src/JSONOptions.cpp:238-246. -/
def boundary (n : Node) (o : Opts K) : Res (Opts K) := (intsOf n).bind fun p => .ok { o with sides := setBoundaries o.sides p }

/-- `rng`: the text of the node, also of a list.  xolotl/options/src/JSONOptions.cpp:256-258. -/
def random (n : Node) (o : Opts K) : Res (Opts K) := (setRng o.rng n.data).bind fun r => .ok { o with rng := r }

/-- `pulse`: the text of the node, also of a list.  xolotl/options/src/JSONOptions.cpp:262-264, xolotl/options/src/Options.cpp:493-501. -/
def pulses (e : Env K) (n : Node) (o : Opts K) : Res (Opts K) := (setPulse ((Tokenizer.tokens n.data).map e.token)).bind fun p => .ok { o with pulse := p }

/-- The calls of the setters, in their order; the single values have been read.  xolotl/options/src/JSONOptions.cpp:119-264, xolotl/options/src/ConfOptions.cpp:258-338. -/
def setters (e : Env K) (read : List Char → Option K) (get : List Char → Option Node) (o : Opts K) : Res (Opts K) :=
  (given (get "tempParam".toList) (temperature e) o).bind fun o =>
  (given (get "tempFile".toList) (fun _ => file e "tempFile".toList) o).bind fun o =>
  (given (get "flux".toList) (flux read) o).bind fun o =>
  (given (get "fluxFile".toList) (fun _ => fluxFile e) o).bind fun o =>
  (handlers o).bind fun o =>
  (given (get "gridParam".toList) (gridValues e) o).bind fun o =>
  (given (get "gridFile".toList) (fun _ => file e "gridFile".toList) o).bind fun o =>
  (given (get "process".toList) processes o).bind fun o =>
  (given (get "couplingTimeStepParams".toList) (couplingSteps e) o).bind fun o =>
  (given (get "grouping".toList) groups o).bind fun o =>
  (given (get "netParam".toList) (network e) o).bind fun o =>
  (given (get "radiusSize".toList) radii o).bind fun o =>
  (given (get "boundary".toList) boundary o).bind fun o =>
  (given (get "rng".toList) random o).bind fun o =>
  given (get "pulse".toList) (pulses e) o

/-- The single values; the flux is read with the setters.  xolotl/options/src/JSONOptions.cpp:113-118, 129-134, 140-164, 176, 190-192, 214, 248-254, 260, 266-292. -/
def singles (real : List Char → Option K) (int : List Char → Option ℤ) (flag : List Char → Option Bool) (get : List Char → Option Node) (o : Opts K) : Opts K :=
  { o with
    text := fun k => match kind k with
      | some .text => match get k with
        | some n => n.data
        | none => (fallback k).getD (o.text k)
      | some .path => checkSet readPath (get k) (o.text k)
      | _ => o.text k
    real := fun k => if kind k = some .real ∧ k ≠ "flux".toList then checkSet real (get k) (o.real k) else o.real k
    int := fun k => if kind k = some .int then checkSet int (get k) (o.int k) else o.int k
    flag := fun k => if kind k = some .flag then checkSet flag (get k) (o.flag k) else o.flag k }

/-! ### JSON -/

/-- A file in JSON: the entries of the outermost object. -/
abbrev Tree := List (List Char × Node)

/-- Keys of an `iptree` are compared without regard to case. -/
def same (a b : List Char) : Bool := a.map Char.toLower == b.map Char.toLower

/-- The entry found for a name. -/
def look (t : Tree) (k : List Char) : Option Node := (t.find? fun e => same e.1 k).map Prod.snd

/-- `JSONOptions::readParams` after the file has been read.  xolotl/options/src/JSONOptions.cpp:113-298. -/
def readJson (e : Env K) (t : Tree) (o : Opts K) : Res (Opts K) :=
  (setters e e.jsonReal (look t) (singles e.jsonReal strict e.jsonFlag (look t) o)).bind fun o => .ok { o with petsc := match look t "petscArgs".toList with
    | some n => petscArgs o.petsc n
    | none => o.petsc }

/-! ### The other format -/

/-- A file of names and texts. -/
abbrev Conf := List (List Char × List Char)

/-- The text stored for a name. -/
def stored (t : Conf) (k : List Char) : Option Node := (t.find? fun e => e.1 == k).map fun e => ⟨e.2, []⟩

/-- Whether `store` can convert a text.  xolotl/options/src/ConfOptions.cpp:72-232. -/
def converts (e : Env K) (k v : List Char) : Bool := match kind k with
  | some .real => (e.confReal v).isSome
  | some .int => (e.confInt v).isSome
  | some .flag => (e.confFlag v).isSome
  | some .path => (readPath v).isSome
  | some _ => true
  | none => false

/-- Whether the entries can be stored: known, different and readable.  xolotl/options/src/ConfOptions.cpp:253-254. -/
def storable (e : Env K) (t : Conf) : Bool := t.all (fun x => converts e x.1 x.2) && decide (t.map Prod.fst).Nodup

/-- `ConfOptions::readParams` after the file has been parsed; `cmd` is the restart file of the command line.  xolotl/options/src/ConfOptions.cpp:64-67, 253-338. -/
def readConf (e : Env K) (cmd : Option (List Char)) (t : Conf) (o : Opts K) : Res (Opts K) :=
  if storable e t then
    let get := fun k => if k = "restartFile".toList then (cmd.map fun f => ⟨f, []⟩).or (stored t k) else stored t k
    (setters e e.confReal get (singles e.confReal e.confInt e.confFlag get o)).bind fun o => .ok { o with petsc := match stored t "petscArgs".toList with
      | some n => n.data
      | none => o.petsc }
  else .threw

/-- `fs::path::extension`: the part of the last component from its last point on, unless that is all of it.  (For the component `..` the result is empty and not a point.) -/
def extension (p : List Char) : List Char :=
  let name := p.reverse.takeWhile (· != '/')
  if 2 ≤ (name.dropWhile (· != '.')).length then '.' :: (name.takeWhile (· != '.')).reverse else []

/-- Whether the reader made for a file is the one for JSON.  xolotl/options/src/Options.cpp:533-549. -/
def isJson (p : List Char) : Bool := extension p == ".json".toList

end Xolotl.Options.Readers
