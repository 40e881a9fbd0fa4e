import Verif.Solver.Events
import Verif.Network.Bursting

/-!
# The bursting event

Model of the part of `eventFunction` that looks for grid points where bubbles burst and of the part of `postEventFunction` that acts on them, in one, two and three dimensions and on several ranks.  The test at one point (radius, probability) is that of `Events`; what happens to the concentrations at a point is `updateBurstingConcs` (`Network.Bursting`).

Simplifications: numbers are real (or elements of an ordered field) instead of doubles; the generator of each rank is a sequence of numbers; `Mx - rightOffset` does not wrap; the entries of the grid are read with a function, as the positions read are within the grid; the messages on the screen and bursting.txt (C94) are left out.  All ranks have the same surface.  PETSc is assumed to call `postEventFunction` on a rank with the events whose value is 0 on that rank, and the arrays it gives are those of the part of the grid that the rank owns.
-/

namespace Xolotl.Solver.Burst

open Network.Bursting Network Network.Totals

variable {K : Type*} [Field K] [LinearOrder K] [IsStrictOrderedRing K]

/-- The dimension: which of the three monitors. -/
inductive Dim where
  | one
  | two
  | three
  deriving DecidableEq

/-- A grid point: `z`, `y`, `x`. -/
abbrev Place := ℕ × ℕ × ℕ

/-- The grid: extents, offsets, position of the surface at `y`, `z`. -/
structure Grid where
  mx : ℕ
  my : ℕ
  mz : ℕ
  lo : ℕ
  ro : ℕ
  surf : ℕ → ℕ → ℕ

/-- The part of a rank (`getLocalCoordinates`). -/
structure Box where
  xs : ℕ
  xm : ℕ
  ys : ℕ := 0
  ym : ℕ := 0
  zs : ℕ := 0
  zm : ℕ := 0

/-- The points of a line, from the first below the surface at `s`. -/
def line (g : Grid) (s z y : ℕ) : List Place := (List.range' (s + g.lo) (g.mx - g.ro - (s + g.lo))).map fun x => (z, y, x)

/-- The points in the order of the loops; in one dimension the surface is at 0.  xolotl/solver/src/monitor/PetscMonitor1D.cpp:1767-1768, PetscMonitor2D.cpp:1516-1520, PetscMonitor3D.cpp:1572-1577. -/
def points (d : Dim) (g : Grid) : List Place :=
  match d with
  | .one => line g 0 0 0
  | .two => (List.range g.my).flatMap fun y => line g (g.surf y 0) 0 y
  | .three => (List.range g.mz).flatMap fun z => (List.range g.my).flatMap fun y => line g (g.surf y z) z y

/-- "If this is the locally owned part of the grid".  PetscMonitor1D.cpp:1770, PetscMonitor2D.cpp:1523, 1652, PetscMonitor3D.cpp:1579-1580. -/
def owns (d : Dim) (b : Box) (p : Place) : Bool :=
  match d with
  | .one => decide (b.xs ≤ p.2.2 ∧ p.2.2 < b.xs + b.xm)
  | .two => decide ((b.xs ≤ p.2.2 ∧ p.2.2 < b.xs + b.xm) ∧ b.ys ≤ p.2.1 ∧ p.2.1 < b.ys + b.ym)
  | .three => decide ((b.xs ≤ p.2.2 ∧ p.2.2 < b.xs + b.xm) ∧ (b.ys ≤ p.2.1 ∧ p.2.1 < b.ys + b.ym) ∧ b.zs ≤ p.1 ∧ p.1 < b.zs + b.zm)

/-! ### The test at a point -/

/-- What is compared at the points: whether the radius is larger than the distance, and the probability. -/
structure Test (K : Type*) where
  big : Place → Bool
  prob : Place → K

/-- The parameters. -/
structure Par where
  lattice : ℝ
  ratio : ℝ
  prefactor : ℝ
  depth : ℝ
  hy : ℝ
  hz : ℝ

/-- The distance from the surface at `s`.  PetscMonitor1D.cpp:1772, PetscMonitor2D.cpp:1535-1536, 1646-1647, PetscMonitor3D.cpp:1593-1594, 1714-1715. -/
def distance (x : ℕ → K) (s i : ℕ) : K := (x i + x (i + 1)) / 2 - x (s + 1)

/-- The position of the surface above a point. -/
def surfaceOf (d : Dim) (g : Grid) (p : Place) : ℕ :=
  match d with
  | .one => 0
  | .two => g.surf p.2.1 0
  | .three => g.surf p.2.1 p.1

/-- The number of vacancies of the bubble; `he` is the helium density.  PetscMonitor1D.cpp:1785-1789, PetscMonitor2D.cpp:1539-1545, PetscMonitor3D.cpp:1597-1603. -/
noncomputable def vacancies (d : Dim) (q : Par) (x : ℕ → ℝ) (he : ℝ) (i : ℕ) : ℝ :=
  match d with
  | .one => he * (x (i + 1) - x i) / q.ratio
  | .two => he * (x (i + 1) - x i) * q.hy / q.ratio
  | .three => he * (x (i + 1) - x i) * q.hy * q.hz / q.ratio

open Classical in
/-- The test of the monitors for a helium density at each point.  PetscMonitor1D.cpp:1790-1804, PetscMonitor2D.cpp:1546-1560, PetscMonitor3D.cpp:1604-1631. -/
noncomputable def test (d : Dim) (q : Par) (g : Grid) (x : ℕ → ℝ) (he : Place → ℝ) : Test ℝ where
  big p := decide (Events.radius q.lattice (vacancies d q x (he p) p.2.2) > distance x (surfaceOf d g p) p.2.2)
  prob p := q.prefactor * (1 - (distance x (surfaceOf d g p) p.2.2 - Events.radius q.lattice (vacancies d q x (he p) p.2.2)) / distance x (surfaceOf d g p) p.2.2) *
    min 1 (Real.exp (-(distance x (surfaceOf d g p) p.2.2 - q.depth) / (q.depth * 2)))

/-- The test at a point on a rank that has drawn `n` numbers: whether it bursts, and how many numbers are drawn then.  In one and two dimensions a number is always drawn, in three dimensions only if the radius does not decide.
PetscMonitor1D.cpp:1801-1804, PetscMonitor2D.cpp:1558-1562, PetscMonitor3D.cpp:1613-1631. -/
def draw (d : Dim) (t : Test K) (rnd : ℕ → K) (n : ℕ) (p : Place) : Bool × ℕ :=
  match d with
  | .three => if t.big p then (true, n) else (decide (t.prob p > rnd n), n + 1)
  | _ => (decide (t.prob p > rnd n) || t.big p, n + 1)

/-! ### The loops -/

/-- What a rank keeps: `_depthPositions` and how many numbers its generator has given. -/
structure Mem where
  pos : List Place
  n : ℕ
  deriving DecidableEq

/-- The body of the loop in one and three dimensions.  PetscMonitor1D.cpp:1770-1808, PetscMonitor3D.cpp:1579-1638. -/
def visit (d : Dim) (t : Test K) (b : Box) (rnd : ℕ → K) (m : Mem) (p : Place) : Mem :=
  if owns d b p = true then ⟨if (draw d t rnd m.n p).1 = true then m.pos ++ [p] else m.pos, (draw d t rnd m.n p).2⟩ else m

/-- The body of the loop in two dimensions, on all ranks at once: whether the point bursts on some rank is made known to all (`MPI_Allreduce`).  PetscMonitor2D.cpp:1521-1571. -/
def visitAll {N : ℕ} (t : Test K) (box : Fin N → Box) (rnd : Fin N → ℕ → K) (m : Fin N → Mem) (p : Place) : Fin N → Mem := fun r =>
  ⟨if ((List.finRange N).any fun q => owns .two (box q) p && (draw .two t (rnd q) (m q).n p).1) = true then (m r).pos ++ [p] else (m r).pos,
    if owns .two (box r) p = true then (draw .two t (rnd r) (m r).n p).2 else (m r).n⟩

/-- The loops on all ranks, which have drawn `n` numbers before.  PetscMonitor1D.cpp:1767-1809, PetscMonitor2D.cpp:1516-1573, PetscMonitor3D.cpp:1572-1641. -/
def scan {N : ℕ} (d : Dim) (g : Grid) (t : Test K) (box : Fin N → Box) (rnd : Fin N → ℕ → K) (n : Fin N → ℕ) : Fin N → Mem :=
  match d with
  | .two => (points .two g).foldl (visitAll t box rnd) fun r => ⟨[], n r⟩
  | d => fun r => (points d g).foldl (visit d t (box r) (rnd r)) ⟨[], n r⟩

/-- Whether the value of the event is 0 on a rank; `burst` is true when something is listed.  In one dimension the flags of all ranks are compared.  PetscMonitor1D.cpp:1811-1820, PetscMonitor2D.cpp:1575-1579, PetscMonitor3D.cpp:1643-1647. -/
def happens {N : ℕ} (d : Dim) (m : Fin N → Mem) (r : Fin N) : Bool :=
  match d with
  | .one => (List.finRange N).any fun q => !(m q).pos.isEmpty
  | _ => !(m r).pos.isEmpty

/-- The state of the monitors on all ranks: the last step number (`none`: the initial −1) and what the ranks keep. -/
structure Mon (N : ℕ) where
  last : Option ℕ
  mem : Fin N → Mem

/-- `eventFunction` in step `ts`, as far as bursting goes; `on` is `burstBubbles()`.  The second part of the result is whether the event happens, for each rank.
PetscMonitor1D.cpp:1611-1622, 1748, PetscMonitor2D.cpp:1300-1311, 1499, PetscMonitor3D.cpp:1404-1415, 1555. -/
def event {N : ℕ} (d : Dim) (on : Bool) (ts : ℕ) (g : Grid) (t : Test K) (box : Fin N → Box) (rnd : Fin N → ℕ → K) (s : Mon N) : Mon N × (Fin N → Bool) :=
  if s.last = some ts then (⟨s.last, fun r => ⟨[], (s.mem r).n⟩⟩, fun _ => false)
  else if on = true then
    (⟨some ts, scan d g t box rnd fun r => (s.mem r).n⟩, happens d (scan d g t box rnd fun r => (s.mem r).n))
  else (⟨some ts, fun r => ⟨[], (s.mem r).n⟩⟩, fun _ => false)

/-! ### After the event -/

/-- The solution on a rank and the amounts released (`nBurst`). -/
structure Sol (sp : ℕ) (K : Type*) where
  c : Place → ℕ → K
  burst : Fin sp → K

/-- `hxLeft`.  PetscMonitor1D.cpp:1889-1895. -/
def hxLeft (x : ℕ → K) (i : ℕ) : K := if i < 1 then x (i + 1) - x i else (x (i + 1) - x (i - 1)) / 2

/-- `updateBurstingConcs` at one point; `none` if it is undefined. -/
def update {sp : ℕ} (net : List (Cluster sp)) (ax : Axes sp) (f : K) (s : Sol sp K) (p : Place) : Option (Sol sp K) :=
  (updateBurstingConcs net ax f ⟨s.c p, s.burst⟩).map fun u => ⟨fun q => if q = p then u.c else s.c q, u.burst⟩

/-- The body of the loop over the listed points on one rank: the row of the array is read (`solutionArray[yj][xi]`), which is undefined (`none`) outside of the part of the rank, and the concentrations are updated; in two dimensions only if the rank owns the point.  Simplification: in three dimensions the released amounts are added up as well, but they are not used.
PetscMonitor1D.cpp:1884-1904, PetscMonitor2D.cpp:1638-1654, PetscMonitor3D.cpp:1704-1722. -/
def act {sp : ℕ} (d : Dim) (b : Box) (net : List (Cluster sp)) (ax : Axes sp) (x : ℕ → K) (s : Sol sp K) (p : Place) : Option (Sol sp K) :=
  if owns d b p = false then none
  else match d with
    | .one => update net ax (hxLeft x p.2.2) s p
    | .two => if owns .two b p = true then update net ax 0 s p else some s
    | .three => update net ax 0 s p

/-- The loop over the listed points.  PetscMonitor1D.cpp:1881-1905, PetscMonitor2D.cpp:1636-1654, PetscMonitor3D.cpp:1702-1723. -/
def acts {sp : ℕ} (d : Dim) (b : Box) (net : List (Cluster sp)) (ax : Axes sp) (x : ℕ → K) : List Place → Sol sp K → Option (Sol sp K)
  | [], s => some s
  | p :: l, s => (act d b net ax x s p).bind (acts d b net ax x l)

/-- `postEventFunction` on one rank, as far as bursting goes; `some` of the events happens on this rank, bursting or a movement of the surface.  PetscMonitor1D.cpp:1842-1844, 1875-1905, PetscMonitor2D.cpp:1599-1600, 1626-1654, PetscMonitor3D.cpp:1667-1668, 1697-1723. -/
def post {sp : ℕ} (d : Dim) (some_ : Bool) (b : Box) (net : List (Cluster sp)) (ax : Axes sp) (x : ℕ → K) (pos : List Place) (c : Place → ℕ → K) : Option (Sol sp K) :=
  if some_ = true then acts d b net ax x pos ⟨c, fun _ => 0⟩ else some ⟨c, fun _ => 0⟩

/-- The account after the event: in one dimension, the amounts of all ranks are added.  PetscMonitor1D.cpp:1907-1913. -/
def account {N sp : ℕ} (d : Dim) (old : Fin sp → K) (burst : Fin N → Fin sp → K) : Fin sp → K :=
  match d with
  | .one => fun k => old k + ((List.finRange N).map fun r => burst r k).sum
  | _ => old

end Xolotl.Solver.Burst
