import Verif.Solver.Retention

/-!
# Xenon at the grain boundaries

Model of the grain boundaries of a coupled fuel run: the choice of their grid points (`setGBLocation`), the transfer of what is there when they are set (`initGBLocation`), the flux of xenon into them and the two accounts of it that `computeXenonRetention` keeps (the total of the run and the amount at every point), and the averages it writes, in one to three dimensions.

Numbers are elements of an ordered field instead of doubles.  The array of every process that belongs to a point is one function of the points here, since a process only touches the points it owns.  The array of coefficients of a process starts with the point before its first one.  MPI_Reduce is the sum over the processes.
-/

namespace Xolotl.Solver.Grain

variable {K : Type*} [Field K] [LinearOrder K] [IsStrictOrderedRing K]

/-! ### Points -/

/-- A point of the grid; the coordinates that a dimension does not have are 0. -/
abbrev Pt := ℕ × ℕ × ℕ

/-- The part of the grid of a process.  The sizes of the missing dimensions are 0 (default arguments of `setLocalCoordinates`).  xolotl/solver/include/xolotl/solver/handler/SolverHandler.h:388-400. -/
structure Box where
  xs : ℕ
  xm : ℕ
  ys : ℕ := 0
  ym : ℕ := 0
  zs : ℕ := 0
  zm : ℕ := 0

/-- `setGBLocation` on one process.  xolotl/solver/src/handler/SolverHandler.cpp:724-733. -/
def setGB (b : Box) (v : List Pt) (p : Pt) : List Pt :=
  if b.xs ≤ p.1 ∧ p.1 < b.xs + max b.xm 1 ∧ b.ys ≤ p.2.1 ∧ p.2.1 < b.ys + max b.ym 1 ∧ b.zs ≤ p.2.2 ∧ p.2.2 < b.zs + max b.zm 1 then v ++ [p] else v

/-- Whether a process finds a point to be its own, in one, two and three dimensions.
xolotl/solver/src/monitor/PetscMonitor1D.cpp:1266, 1316; PetscMonitor2D.cpp:1157, 1210; PetscMonitor3D.cpp:1238-1239, 1295-1296; xolotl/solver/src/handler/PetscSolver1DHandler.cpp:615; PetscSolver2DHandler.cpp:643-644; PetscSolver3DHandler.cpp:714-715. -/
def owns (dim : ℕ) (b : Box) (p : Pt) : Bool :=
  decide (b.xs ≤ p.1 ∧ p.1 < b.xs + b.xm) && (decide (dim < 2) || decide (b.ys ≤ p.2.1 ∧ p.2.1 < b.ys + b.ym)) && (decide (dim < 3) || decide (b.zs ≤ p.2.2 ∧ p.2.2 < b.zs + b.zm))

/-- The points that the processes work on, in order, after the calls of `setGBLocation`, each made on every process.  xolotl/interface/src/XolotlInterface.cpp:227-233. -/
def entries (dim : ℕ) (boxes : List Box) (calls : List Pt) : List (List Pt) := boxes.map fun b => (calls.foldl (setGB b) []).filter (owns dim b)

/-! ### Transfer -/

/-- `initGBLocation`: what is at the point is added to its amount, and the concentrations are set to 0.  `atoms` is `getTotalAtomConcentration` for xenon.
xolotl/solver/src/handler/PetscSolver1DHandler.cpp:610-633; PetscSolver2DHandler.cpp:637-664; PetscSolver3DHandler.cpp:707-735. -/
def initGB (atoms : (ℕ → K) → K) (dof : ℕ) (gb : List Pt) (s : (Pt → K) × (Pt → ℕ → K)) : (Pt → K) × (Pt → ℕ → K) :=
  gb.foldl (fun s p => (Function.update s.1 p (s.1 p + atoms (s.2 p)), Function.update s.2 p fun n => if n < dof then 0 else s.2 p n)) s

/-! ### Flux -/

/-- A diffusing cluster: the origin of its region, its diffusion coefficient and its concentration by point, with the ghost points. -/
structure Mv (K : Type*) where
  comp : List ℕ
  coef : ℤ → K
  conc : ℤ → ℤ → ℤ → K

/-- What a process whose first point is `xs` has at hand at point `(x, y, z)`: its array of coefficients begins with the ghost point. -/
def Mv.at (xs : ℕ) (x y z : ℤ) (m : Mv K) : Retention.Mover K := ⟨m.comp, fun i => m.coef ((xs : ℤ) + i - 1), fun _ => m.conc x y z⟩

/-- `updateOutgoingDiffFluxes` at point `(x, y, z)`, with index `x + 1 - xs`.  xolotl/core/include/xolotl/core/network/impl/ReactionNetwork.tpp:1472-1504. -/
def addFrom (xs : ℕ) (ms : List (Mv K)) (factor : K) (x y z : ℤ) (u : ℕ → K) : ℕ → K :=
  Retention.outgoing factor (x + 1 - xs).toNat 0 (ms.map (Mv.at xs x y z)) u

/-- The coordinate before `i`, as an index of an array with ghost points.  With an `IdType` of 32 bits the one before 0 is `2^32 - 1`, which is outside of every array.
xolotl/config.h.in:18-24; xolotl/solver/src/monitor/PetscMonitor1D.cpp:1318-1321; PetscMonitor2D.cpp:1213-1216, 1231-1232; PetscMonitor3D.cpp:1299-1302, 1317-1318, 1333-1334. -/
def before (wide : Bool) (i : ℕ) : Option ℤ := if i = 0 ∧ wide = false then none else some ((i : ℤ) - 1)

/-- The flux of every species into a point in one dimension.  xolotl/solver/src/monitor/PetscMonitor1D.cpp:1294-1331. -/
def into1 (wide : Bool) (nX : ℕ) (grid : ℕ → K) (xs : ℕ) (ms : List (Mv K)) (p : Pt) : Option (ℕ → K) :=
  let f := Retention.factorAt nX grid p.1
  (before wide p.1).map fun xl =>
    addFrom xs ms (f / Transport.hxRight nX grid p.1) (p.1 + 1) 0 0 (addFrom xs ms (f / Transport.hxLeft grid p.1) xl 0 0 fun _ => 0)

/-- The same in two dimensions.  xolotl/solver/src/monitor/PetscMonitor2D.cpp:1186-1242. -/
def into2 (wide : Bool) (nX : ℕ) (grid : ℕ → K) (hy : K) (xs : ℕ) (ms : List (Mv K)) (p : Pt) : Option (ℕ → K) :=
  let f := Retention.factorAt nX grid p.1
  (before wide p.1).bind fun xl => (before wide p.2.1).map fun yb =>
    let u := addFrom xs ms (f / Transport.hxLeft grid p.1) xl p.2.1 0 fun _ => 0
    let u := addFrom xs ms (f / Transport.hxRight nX grid p.1) (p.1 + 1) p.2.1 0 u
    let u := addFrom xs ms (1 / (hy * hy)) p.1 yb 0 u
    addFrom xs ms (1 / (hy * hy)) p.1 (p.2.1 + 1) 0 u

/-- The same in three dimensions.  xolotl/solver/src/monitor/PetscMonitor3D.cpp:1270-1344. -/
def into3 (wide : Bool) (nX : ℕ) (grid : ℕ → K) (hy hz : K) (xs : ℕ) (ms : List (Mv K)) (p : Pt) : Option (ℕ → K) :=
  let f := Retention.factorAt nX grid p.1
  (before wide p.1).bind fun xl => (before wide p.2.1).bind fun yb => (before wide p.2.2).map fun zb =>
    let u := addFrom xs ms (f / Transport.hxLeft grid p.1) xl p.2.1 p.2.2 fun _ => 0
    let u := addFrom xs ms (f / Transport.hxRight nX grid p.1) (p.1 + 1) p.2.1 p.2.2 u
    let u := addFrom xs ms (1 / (hy * hy)) p.1 yb p.2.2 u
    let u := addFrom xs ms (1 / (hy * hy)) p.1 (p.2.1 + 1) p.2.2 u
    let u := addFrom xs ms (1 / (hz * hz)) p.1 p.2.1 zb u
    addFrom xs ms (1 / (hz * hz)) p.1 p.2.1 (p.2.2 + 1) u

/-! ### The accounts -/

/-- The amount at every point and the last flux into it (first and second entry of `localNE`), and the total of the run. -/
@[ext] structure Ledger (K : Type*) where
  rate : Pt → K
  prev : Pt → K
  n : K

/-- What `createLocalNE` and the constructor leave, at the start of every program, restarted or not.  xolotl/solver/src/handler/SolverHandler.cpp:57, 702-716; xolotl/solver/src/monitor/PetscMonitor1D.cpp:532-557; PetscMonitor2D.cpp:392; PetscMonitor3D.cpp:408. -/
def fresh : Ledger K := ⟨fun _ => 0, fun _ => 0, 0⟩

/-- One call of `computeXenonRetention`: `cell` is the size of a cell, `flux` the flux of xenon (species 0) into a point in the present state, `work` the points of every process.
xolotl/solver/src/monitor/PetscMonitor1D.cpp:1252-1283, 1292-1337; PetscMonitor2D.cpp:1142-1175, 1184-1249; PetscMonitor3D.cpp:1222-1259, 1268-1353; xolotl/solver/include/xolotl/solver/handler/SolverHandler.h:330-334, 359-364. -/
def call (cell : Pt → K) (work : List (List Pt)) (dt : K) (flux : Pt → K) (s : Ledger K) : Ledger K where
  rate := work.foldl (fun r l => l.foldl (fun r p => Function.update r p (r p + s.prev p * dt)) r) s.rate
  n := s.n + (work.map fun l => l.foldl (fun a p => a + s.prev p * cell p) 0).sum * dt
  prev := work.foldl (fun r l => l.foldl (fun r p => Function.update r p (flux p)) r) s.prev

/-- The calls of a run, with the time and the present fluxes of each; the second part of the result is `previousTime`, set by `monitorTime` after every call.  xolotl/solver/src/monitor/PetscMonitor.cpp:279-289. -/
def run (cell : Pt → K) (work : List (List Pt)) : Ledger K → K → List (K × (Pt → K)) → Ledger K × K
  | s, t, [] => (s, t)
  | s, t, c :: l => run cell work (call cell work (c.1 - t) c.2 s) c.1 l

/-! ### Averages -/

/-- The cell of a point: its width, times the steps in the other directions.  xolotl/solver/src/monitor/PetscMonitor1D.cpp:1213, 1268; PetscMonitor2D.cpp:1104, 1159; PetscMonitor3D.cpp:1180, 1242-1243. -/
def cell (grid : ℕ → K) (hy hz : K) (p : Pt) : K := (grid (p.1 + 1) - grid p.1) * hy * hz

/-- A sum over the points of a process of one of the totals, times the cells.  xolotl/solver/src/monitor/PetscMonitor1D.cpp:1200-1232; PetscMonitor2D.cpp:1091-1122; PetscMonitor3D.cpp:1167-1198. -/
def summed (cell : Pt → K) (total : Pt → K) (pts : List Pt) : K := pts.foldl (fun a p => a + total p * cell p) 0

/-- The averages.  xolotl/solver/src/monitor/PetscMonitor1D.cpp:1351-1359; PetscMonitor2D.cpp:1265-1272; PetscMonitor3D.cpp:1369-1376. -/
def average (num den : K) : K := if 1 / 10 ^ 16 < den then num / den else 0

end Xolotl.Solver.Grain
