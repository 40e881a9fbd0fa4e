import Verif.Network.Totals
import Verif.Network.SubInstance
import Verif.Util.Stepping
import Mathlib.Algebra.Order.Floor.Ring

/-!
# The coupled run and its output file

Model of a run with several sub-networks (`MultiXolotl`): how the temperatures and the concentrations of the sub-instances become rates at every grid point, what is printed at each step, the list of restart files; and of the lines of the monitor file of zirconium and alloy networks.

The solver of a sub-instance and the computation of the rates by the primary network are parameters.
-/

namespace Xolotl.Solver.Coupled

open Xolotl.Network Xolotl.Network.Totals

variable {d : ℕ} {K : Type*} [Field K] [LinearOrder K] [IsStrictOrderedRing K]

/-! ### Monitor lines -/

/-- The names of the columns. -/
inductive Col
  | density
  | atom
  | diameter
  | partialDensity
  | partialAtom
  | partialDiameter
  deriving DecidableEq

/-- What differs between the functions of the two networks: the column names of a species, the totals asked for (from the minimum size of the species, or from 1) with their factors, and the columns divided by others. -/
structure Layout where
  cols : List Col
  wanted : List (Kind × Bool × ℕ)
  averaged : List (ℕ × ℕ)

/-- xolotl/core/src/network/ZrReactionNetwork.cpp:231-237, 253-263, 280-288. -/
def zr : Layout where
  cols := [.density, .atom, .diameter, .partialDensity, .partialAtom, .partialDiameter]
  wanted := [(.total, false, 1), (.atom, false, 1), (.radius, false, 2), (.total, true, 1), (.atom, true, 1), (.radius, true, 2)]
  averaged := [(2, 0), (5, 3)]

/-- xolotl/core/src/network/AlloyReactionNetwork.cpp:130-135, 151-158, 175-183. -/
def alloy : Layout where
  cols := [.density, .diameter, .partialDensity, .partialDiameter]
  wanted := [(.total, false, 1), (.radius, false, 2), (.total, true, 1), (.radius, true, 2)]
  averaged := [(1, 0), (3, 2)]

namespace Layout

variable (L : Layout)

/-- The columns of one species.  ZrReactionNetwork.h:71-74, AlloyReactionNetwork.h:59-62. -/
def width : ℕ := L.wanted.length

/-- `getMonitorDataHeaderString`, after `#time`.  ZrReactionNetwork.cpp:224-240, AlloyReactionNetwork.cpp:123-138. -/
def header (d : ℕ) : List (Fin d × Col) := (List.finRange d).flatMap fun k => L.cols.map fun c => (k, c)

/-- The array of quantities.  ZrReactionNetwork.cpp:252-256, AlloyReactionNetwork.cpp:150-153. -/
def quantities (ms : Fin d → ℕ) (k : Fin d) : List (Quantity d) := L.wanted.map fun w => ⟨w.1, k, if w.2.1 then ms k else 1⟩

end Layout

/-- `totalVals[i] += x` in a vector of `size` entries; `none`: write outside the vector. -/
def addAt (size : ℕ) (vals : ℕ → K) (i : ℕ) (x : K) : Option (ℕ → K) :=
  if i < size then some (Function.update vals i (vals i + x)) else none

/-- The body of the loop over the species. -/
def addSpecies (L : Layout) (v : Fin d) (blocks : List (List (Cluster d))) (radius : ℕ → K) (ms : Fin d → ℕ) (size : ℕ) (fac : K) (c : ℕ → K)
    (vals : ℕ → K) (k : Fin d) : Option (ℕ → K) :=
  (getTotals v blocks radius c (L.quantities ms k) ⟨.total, k, 1⟩).bind fun totals =>
    (List.range L.width).foldlM (fun vals n => addAt size vals (L.width * k + n) (totals.getD n 0 * ((L.wanted.getD n (.total, false, 0)).2.2 : K) * fac)) vals

/-- `addMonitorDataValues`.  ZrReactionNetwork.cpp:242-265, AlloyReactionNetwork.cpp:140-160. -/
def addValues (L : Layout) (v : Fin d) (blocks : List (List (Cluster d))) (radius : ℕ → K) (ms : Fin d → ℕ) (size : ℕ) (fac : K) (c : ℕ → K)
    (vals : ℕ → K) : Option (ℕ → K) :=
  (List.finRange d).foldlM (addSpecies L v blocks radius ms size fac c) vals

/-- The loop over the local grid points, each with the factor and the concentrations given.  xolotl/solver/src/monitor/PetscMonitor1D.cpp:1409-1426, 1470-1490; PetscMonitor0D.cpp:472, 500; xolotl/interface/src/XolotlInterface.cpp:558-575. -/
def localData (L : Layout) (v : Fin d) (blocks : List (List (Cluster d))) (radius : ℕ → K) (ms : Fin d → ℕ) (points : List (K × (ℕ → K))) :
    Option (ℕ → K) :=
  points.foldlM (fun vals p => addValues L v blocks radius ms (d * L.width) p.1 p.2 vals) fun _ => 0

/-- `1.0e-16`. -/
def tiny : K := 1 / 10 ^ 16

/-- The divisions for one species.  ZrReactionNetwork.cpp:281-287, AlloyReactionNetwork.cpp:176-182. -/
def averageSpecies (L : Layout) (vals : ℕ → K) (k : ℕ) : ℕ → K :=
  L.averaged.foldl (fun vals p =>
    if vals (L.width * k + p.2) > tiny then Function.update vals (L.width * k + p.1) (vals (L.width * k + p.1) / vals (L.width * k + p.2)) else vals) vals

/-- `writeMonitorDataLine`: the sum over the processes, the divisions, the numbers written after the time.  ZrReactionNetwork.cpp:267-312, AlloyReactionNetwork.cpp:162-206. -/
def writeLine (L : Layout) (d : ℕ) (ranks : List (ℕ → K)) : List K :=
  let vals := (List.range d).foldl (averageSpecies L) fun i => (ranks.map fun r => r i).sum
  (List.range d).flatMap fun k => (List.range L.width).map fun n => vals (L.width * k + n)

/-- The line written when the processes have the points given. -/
def line (L : Layout) (v : Fin d) (blocks : List (List (Cluster d))) (radius : ℕ → K) (ms : Fin d → ℕ) (ranks : List (List (K × (ℕ → K)))) : Option (List K) :=
  (ranks.mapM (localData L v blocks radius ms)).map (writeLine L d)

/-- The grid points of a process that the monitor counts.  PetscMonitor1D.cpp:1411-1417, 1475-1481; `surf` is 0 in the alloy monitor. -/
def counted (surf left right Mx xs xm : ℕ) : List ℕ :=
  (List.range' xs xm).filter fun xi => !(decide (xi < surf + left) || decide (xi = Mx - right))

/-! ### Temperatures, concentrations and rates -/

/-- `SubInstanceData`. -/
structure Data (K : Type*) where
  temps : List K
  depths : List K
  conc : List (List (List K))

/-- The number of points data is collected for.  xolotl/interface/src/MultiXolotl.cpp:247-281. -/
def points (temps : List K) : ℕ := if temps.length < 2 then 1 else temps.length - 2

/-- The concentrations at one point: each sub-instance gives the number of its clusters and its sparse vectors.  MultiXolotl.cpp:250-259, 266-277. -/
def concAt (insts : List (ℕ × List (List (ℕ × K)))) (j : ℕ) : Option (List (List K)) := insts.mapM fun i => i.2[j]?.map (Sub.dense i.1)

/-- `getSubInstanceData`; the temperatures and depths are those of the first sub-instance.  MultiXolotl.cpp:239-283. -/
def subData (temps depths : List K) (insts : List (ℕ × List (List (ℕ × K)))) : Option (Data K) :=
  ((List.range (points temps)).mapM (concAt insts)).map fun c => ⟨temps, depths, c⟩

/-- The index of the concentrations; `none`: 0 minus 1.  MultiXolotl.cpp:349-350. -/
def concIndex (n g : ℕ) : Option ℕ := if n = 1 then some 0 else if g = 0 then none else some (g - 1)

variable {V : Type*}

/-- `updateTemperaturesAndRates`: the rates `R` the primary network computes with one temperature, one depth and concentrations, stored at the grid index in every sub-instance.  MultiXolotl.cpp:339-357. -/
def update (R : K → K → List (List K) → ℕ → V) (x : Data K) (store : ℕ → ℕ → V) (g : ℕ) : Option (ℕ → ℕ → V) :=
  x.temps[g]?.bind fun t => x.depths[g]?.bind fun z => (concIndex x.conc.length g).bind fun q => x.conc[q]?.map fun c => Function.update store g (R t z c)

/-- The grid indices visited.  MultiXolotl.cpp:364-374. -/
def visited (temps : List K) : List ℕ := if temps.length < 2 then [0] else (List.range (temps.length - 2)).map (· + 1)

/-- The rates of a step: grid index, sub-instance.  MultiXolotl.cpp:362-374. -/
def rates (R : K → K → List (List K) → ℕ → V) (temps depths : List K) (insts : List (ℕ × List (List (ℕ × K)))) (store : ℕ → ℕ → V) : Option (ℕ → ℕ → V) :=
  (subData temps depths insts).bind fun x => (visited temps).foldlM (update R x) store

/-- `localSize` handed to `outputData`.  MultiXolotl.cpp:377-378. -/
def localSize (temps : List K) : ℕ := (max ((temps.length : ℤ) - 2) 1).toNat

/-- The loop that solves: sub-instance `i` goes on from its own state with its own rates.  MultiXolotl.cpp:381-388. -/
def solveAll {S : Type*} (solve : ℕ → (ℕ → V) → S → S) (store : ℕ → ℕ → V) (is : List ℕ) (st : ℕ → S) : ℕ → S :=
  is.foldl (fun st i => Function.update st i (solve i (fun g => store g i) (st i))) st

/-! ### The run -/

section Run

variable [FloorRing K]

/-- `std::round`: halves away from zero. -/
def cround (x : K) : K := if 0 ≤ x then (⌊x + 1 / 2⌋ : ℤ) else -((⌊-x + 1 / 2⌋ : ℤ) : K)

/-- `util::round`.  xolotl/util/include/xolotl/util/MathUtils.h:29-38. -/
def roundTo (n : ℕ) (x : K) : K := cround (x * 10 ^ n) / 10 ^ n

/-- The output file: whether it begins with a header, and its lines. -/
structure File (K S : Type*) where
  header : Bool
  lines : List (K × S)

variable {S : Type*}

/-- `outputData`: the header is written, to a new file, when the time is zero; the line is appended.  XolotlInterface.cpp:554-577, xolotl/core/include/xolotl/core/network/ReactionNetwork.h:280-285. -/
def output (f : File K S) (t : K) (s : S) : File K S :=
  if t = 0 then ⟨true, [(t, s)]⟩ else ⟨f.header, f.lines ++ [(t, s)]⟩

/-- `roundDigits`.  MultiXolotl.cpp:22. -/
def digits : ℕ := 14

/-- `n` iterations of the loop of `solveXolotl`: the state of the sub-instances and the file.  `solve s t dt step` is the state reached from `s` when the time `t` is asked for.  MultiXolotl.cpp:298-320, 331-337, 376-388. -/
def iterate (o : Util.RunOpts K) (l : Util.Leg K) (solve : S → K → K → ℕ → S) (s0 : S) (f0 : File K S) : ℕ → S × File K S
  | 0 => (s0, f0)
  | n + 1 =>
    let r := iterate o l solve s0 f0 n
    (solve r.1 (roundTo digits (l.iter o n).cur) (l.iter o n).seq.value (l.iter o n).seq.step,
      output r.2 (roundTo digits (l.iter o n).prev) r.1)

/-- A run that leaves the loop after `n` iterations; the destructor writes one more line.  MultiXolotl.cpp:285-290. -/
def run (o : Util.RunOpts K) (l : Util.Leg K) (solve : S → K → K → ℕ → S) (s0 : S) (f0 : File K S) (n : ℕ) : S × File K S :=
  let r := iterate o l solve s0 f0 n
  (r.1, output r.2 (roundTo digits (l.iter o n).prev) r.1)

end Run

/-- `currentStep() - 1` with a 64-bit `size_t`.  MultiXolotl.cpp:95. -/
def lastStep (cur : ℕ) : ℕ := (cur + (2 ^ 64 - 1)) % 2 ^ 64

/-- The assertion of `timeAtStep` and `timeStepSizeAtStep`.  xolotl/util/src/TimeStepper.cpp:65, 72. -/
def asserts (maxSteps step : ℕ) : Bool := decide (step ≤ maxSteps)

/-! ### Restart files -/

/-- `writeRestartFile`.  MultiXolotl.cpp:58-71. -/
def writeNames (names : List (List Char)) : List Char := names.flatMap fun n => n ++ ['\n']

/-- `while (std::getline(ifs, line)) ret.push_back(line);`, `cur` being what was read of the line.  MultiXolotl.cpp:50-53. -/
def readNames : List Char → List Char → List (List Char)
  | cur, [] => if cur = [] then [] else [cur]
  | cur, c :: r => if c = '\n' then cur :: readNames [] r else readNames (cur ++ [c]) r

/-- The checkpoint file of an instance; 0 is the primary one.  MultiXolotl.cpp:155, 191-192. -/
def checkpointName (i : ℕ) : List Char := "xolotlStop_".toList ++ (toString i).toList ++ ".h5".toList

/-- The restart files of the primary instance and of the sub-instances; `none`: exception.  MultiXolotl.cpp:168-190. -/
def assign (names : List (List Char)) (subs : ℕ) : Option (List Char × List (List Char)) :=
  if names.length ≠ subs + 1 then none else
    match names with
    | [] => none
    | p :: r => some (p, r)

end Xolotl.Solver.Coupled
