import Mathlib.Data.Nat.Notation
import Mathlib.Data.Int.Notation

/-!
# Time-step groups of the checkpoint file

Model of `XFile::ConcentrationGroup` and of the times kept in `XFile::TimestepGroup`.  The HDF5 group is a list of named sub-groups; opening a missing one throws an exception.  A group handle is the name of the group it refers to.
-/

namespace Xolotl.IO.Steps

/-- A decimal digit. -/
def digit (d : ℕ) : Char := Char.ofNat (48 + d)

/-- `operator<<` for a natural number. -/
def renderNat (n : ℕ) : List Char := if n < 10 then [digit n] else renderNat (n / 10) ++ [digit (n % 10)]
termination_by n

/-- `operator<<` for an `int`. -/
def render : ℤ → List Char
  | .ofNat n => renderNat n
  | .negSucc n => '-' :: renderNat (n + 1)

/-- `makeGroupName`, after the fixed prefix.  xolotl/io/src/XFile.cpp:386-394. -/
def name (ctrl loop ts : ℤ) : List Char := render ctrl ++ '_' :: (render loop ++ '_' :: render ts)

/-- The attributes `absoluteTime`, `previousTime` and `deltaTime`. -/
structure Times (K : Type*) where
  time : K
  prev : K
  delta : K
  deriving DecidableEq

/-- The concentration group: its sub-groups and its three attributes. -/
structure Conc (K : Type*) where
  groups : List (List Char × Times K)
  lastTs : ℤ
  lastLoop : ℤ
  lastCtrl : ℤ

variable {K : Type*}

/-- A new concentration group.  xolotl/io/src/XFile.cpp:236-262. -/
def create : Conc K := ⟨[], -1, -1, -1⟩

/-- Opening a sub-group: its times. -/
def times (c : Conc K) (n : List Char) : Option (Times K) := (c.groups.find? fun g => g.1 == n).map Prod.snd

/-- `getTimestepGroup`: always looks for control step 0.  xolotl/io/src/XFile.cpp:319-336. -/
def getTimestep (c : Conc K) (loop ts : ℤ) : Option (List Char) := if (times c (name 0 loop ts)).isSome then some (name 0 loop ts) else none

/-- `updateTimestepGroup`.  xolotl/io/src/XFile.cpp:428-443. -/
def update (c : Conc K) (n : List Char) (t : Times K) : Conc K := { c with groups := c.groups.map fun g => if g.1 = n then (n, t) else g }

/-- `addTimestepGroup`: the new group and the handle returned; `none` for the use of a null pointer.  xolotl/io/src/XFile.cpp:266-296. -/
def add (c : Conc K) (ctrl loop ts : ℤ) (t : Times K) : Option (Conc K × List Char) :=
  (if (times c (name ctrl loop ts)).isSome then (getTimestep c loop ts).map fun h => (update c h t, h)
   else some ({ c with groups := c.groups ++ [(name ctrl loop ts, t)] }, name ctrl loop ts)).map fun r =>
    ({ r.1 with lastTs := ts, lastLoop := loop, lastCtrl := ctrl }, r.2)

/-- `getLastTimestepGroup`.  xolotl/io/src/XFile.cpp:338-361. -/
def getLast (c : Conc K) : Option (List Char) :=
  if 0 ≤ c.lastTs ∧ 0 ≤ c.lastLoop ∧ 0 ≤ c.lastCtrl then
    if (times c (name c.lastCtrl c.lastLoop c.lastTs)).isSome then some (name c.lastCtrl c.lastLoop c.lastTs) else none
  else none

/-- A request to add a time step. -/
structure Req (K : Type*) where
  ctrl : ℤ
  loop : ℤ
  ts : ℤ
  t : Times K

/-- A history of additions. -/
def run (h : List (Req K)) : Option (Conc K) := h.foldlM (fun c r => (add c r.ctrl r.loop r.ts r.t).map Prod.fst) create

end Xolotl.IO.Steps
