import Mathlib.Data.Nat.Notation

/-!
# Network parameters

Model of `Options::setNetworkParameters` and of the options of the sub-instances.  Reading past the end of a vector is `none`.
-/

namespace Xolotl.Options.NetParams

/-- The members of `Options` that the network parameters set. -/
structure Opts where
  params : List ℕ
  imp : ℕ
  d : ℕ
  t : ℕ
  v : ℕ
  i : ℕ
  pureV : ℕ
  deriving DecidableEq

/-- `Options::setNetworkParameters(const std::vector<IdType>&)` on options `o`.  xolotl/options/src/Options.cpp:201-232. -/
def set (o : Opts) (p : List ℕ) : Option Opts := do
  let o := { o with params := p, d := 0, t := 0, v := 20, i := 6, pureV := 20 }
  let imp ← p[0]?
  let o := { o with imp := imp }
  if p.length > 1 then
    let d ← p[1]?
    let t ← p[2]?
    let v ← p[3]?
    let i ← p[4]?
    let o := { o with d := d, t := t, v := v, i := i }
    if p.length > 5 then
      let w ← p[5]?
      return { o with pureV := w }
    else
      return { o with pureV := o.v }
  else
    return o

/-- `AlloySubOptions::getSubOptions`: the parameters of the vacancy and of the interstitial instance, from a copy of the options each.  xolotl/interface/src/AlloySubOptions.cpp:17-46. -/
def alloySub (o : Opts) : Option (List Opts) := do
  let p := o.params
  let p0 ← p[0]?
  let p1 ← p[1]?
  let p3 ← p[3]?
  let p4 ← p[4]?
  let vac ← if p3 ≠ 0 then (set o (((((p.set 0 p0).set 1 p1).set 2 0).set 3 p3).set 4 0)).map ([·]) else some []
  let int ← if p4 ≠ 0 then (set o (((((p.set 0 p0).set 1 0).set 2 0).set 3 0).set 4 p4)).map ([·]) else some []
  return vac ++ int

/-- The parameters with all entries but one set to zero. -/
def only (p : List ℕ) (k : ℕ) : List ℕ := (List.replicate p.length 0).set k (p.getD k 0)

/-- `AlphaZrSubOptions::getSubOptions`.  xolotl/interface/src/AlphaZrSubOptions.cpp:17-36. -/
def zrSub (o : Opts) : Option (List Opts) :=
  ((List.range o.params.length).filter fun k => o.params.getD k 0 != 0).mapM fun k => set o (only o.params k)

end Xolotl.Options.NetParams
