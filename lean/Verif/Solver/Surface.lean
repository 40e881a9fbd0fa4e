import Verif.Solver.Move

/-!
# The surface in two and three dimensions

In two and three dimensions every line of grid points along the depth has its own surface and its own account of interstitials.  Model of the part of `eventFunction` that keeps the accounts and tests them, of the side faces of a line that is lower than its neighbour, and of `postEventFunction`, which moves the surfaces.  What the solver does next, changing the grid, is `Move.move`.

Numbers are elements of an ordered field instead of doubles.  Positions are unsigned numbers of `bits` bits (`IdType`), and arithmetic with them wraps.  A line of the grid is a pair of its account and its surface position; lines are listed in the order of the loops.  What the processes hold is the same everywhere (positions and accounts are not distributed), so only one is modelled.  The values of the solution are not modelled; which points are overwritten with what is.
-/

namespace Xolotl.Solver.Surface

variable {K : Type*} [Field K] [LinearOrder K] [IsStrictOrderedRing K]

/-- The parameters: density, area of a line (`hy` or `hy * hz`), sputtering yield, amplitude of the flux, left offset and number of bits of a position. -/
structure Par (K : Type*) where
  density : K
  area : K
  yield : K
  amp : K
  left : ℕ
  bits : ℕ

/-- The result of a loop: its value, a read outside a vector, or that it still runs after the given number of rounds. -/
inductive Loop (α : Type*) where
  | done (a : α)
  | outside
  | running
  deriving DecidableEq

/-! ### The account -/

/-- The account at a call of `eventFunction` that is not the first.  In two dimensions the sputtered amount is multiplied with the width of the line, in three dimensions it is not multiplied with its area.
xolotl/solver/src/monitor/PetscMonitor2D.cpp:1367-1375 (`scaled`), PetscMonitor3D.cpp:1476-1486 (not). -/
def arrive (c : Par K) (scaled : Bool) (prev dt n : K) : K := n + prev * dt - c.yield * c.amp * dt * if scaled then c.area else 1

/-- The loop over the points of a higher neighbour: from `xi` downwards as long as the point is not less than `xi`; `currentX` is unsigned.  xolotl/solver/src/monitor/PetscMonitor2D.cpp:1417-1440, 1446-1464. -/
def sides (bits xi : ℕ) : ℕ → ℕ → Loop (List ℕ)
  | 0, _ => .running
  | fuel + 1, cur =>
    if xi ≤ cur then
      match sides bits xi fuel ((cur + (2 ^ bits - 1)) % 2 ^ bits) with
      | .done l => .done (cur :: l)
      | .outside => .outside
      | .running => .running
    else .done []

/-! ### Moving -/

/-- One less. -/
def dec (bits p : ℕ) : ℕ := (p + (2 ^ bits - 1)) % 2 ^ bits

/-- The first point of the line below the surface.  xolotl/solver/src/monitor/PetscMonitor2D.cpp:1379, 1760, 1774; PetscMonitor3D.cpp:1490, 1745, 1760. -/
def first (c : Par K) (pos : ℕ) : ℕ := (pos + c.left) % 2 ^ c.bits

/-- The content of the cell between two points of the grid.  xolotl/solver/src/monitor/PetscMonitor2D.cpp:1481-1482, 1489, 1763-1764, 1779-1780, 1839-1840; PetscMonitor3D.cpp:1534-1535, 1543-1544, 1748-1749, 1765-1766, 1830-1831. -/
def cell (c : Par K) (g : List K) (i j : ℕ) : Option K := do
  let a ← g[i]?
  let b ← g[j]?
  pure (c.density * (a - b) * c.area)

/-- The second condition of the loop: `surfacePos + leftOffset - 2 >= 0`, computed with unsigned numbers.  xolotl/solver/src/monitor/PetscMonitor2D.cpp:1771, PetscMonitor3D.cpp:1757. -/
def roomAbove (c : Par K) (pos : ℕ) : Bool := decide (0 ≤ (pos + c.left + (2 ^ c.bits - 2)) % 2 ^ c.bits)

/-- Moving up: account, threshold, position and number of points; at most `fuel` rounds.  xolotl/solver/src/monitor/PetscMonitor2D.cpp:1768-1781, PetscMonitor3D.cpp:1753-1767. -/
def up (c : Par K) (g : List K) : ℕ → K → K → ℕ → ℕ → Loop (K × ℕ × ℕ)
  | 0, _, _, _, _ => .running
  | fuel + 1, n, thr, pos, count =>
    if n > thr ∧ roomAbove c pos = true then
      match cell c g (first c (dec c.bits pos)) (dec c.bits (first c (dec c.bits pos))) with
      | none => .outside
      | some thr' => up c g fuel (n - thr) thr' (dec c.bits pos) (count + 1)
    else .done (n, pos, count)

/-- Moving back: account and position; at most `fuel` rounds.  Positions stay below the number of points, so that they do not wrap.  xolotl/solver/src/monitor/PetscMonitor2D.cpp:1836-1857, PetscMonitor3D.cpp:1826-1849. -/
def back (c : Par K) (g : List K) : ℕ → K → ℕ → Loop (K × ℕ)
  | 0, _, _ => .running
  | fuel + 1, n, pos =>
    if n < 0 then
      match cell c g (pos + c.left + 1) (pos + c.left) with
      | none => .outside
      | some thr => back c g fuel (n + thr) (pos + 1)
    else .done (n, pos)

/-- What happens to a line: it has a new account and position, or the loop over the grid ends with a new account and a number of points to add. -/
inductive Moved (K : Type*) where
  | stays (n : K) (pos : ℕ)
  | leaves (n : K) (count : ℕ)
  deriving DecidableEq

/-- One line.  xolotl/solver/src/monitor/PetscMonitor2D.cpp:1758-1791, 1834-1867; PetscMonitor3D.cpp:1743-1777, 1824-1860. -/
def line (c : Par K) (g : List K) (fuel : ℕ) (n : K) (pos : ℕ) : Loop (Moved K) :=
  match cell c g (first c pos) (dec c.bits (first c pos)) with
  | none => .outside
  | some thr =>
    if n > thr then
      match up c g fuel n thr pos 0 with
      | .done r => .done (if first c r.2.1 < 2 then .leaves r.1 r.2.2 else .stays r.1 r.2.1)
      | .outside => .outside
      | .running => .running
    else if n < -thr / 10 then
      match back c g fuel n pos with
      | .done r => .done (.stays r.1 r.2)
      | .outside => .outside
      | .running => .running
    else .done (.stays n pos)

/-- The loop over the lines; the number of points to add if a line left the loop.  The account of the line that leaves is the changed one, its position the old one.  xolotl/solver/src/monitor/PetscMonitor2D.cpp:1757-1868, PetscMonitor3D.cpp:1741-1862. -/
def sweep (c : Par K) (g : List K) (fuel : ℕ) : List (K × ℕ) → Loop (List (K × ℕ) × Option ℕ)
  | [] => .done ([], none)
  | l :: ls =>
    match line c g fuel l.1 l.2 with
    | .outside => .outside
    | .running => .running
    | .done (.leaves n count) => .done ((n, l.2) :: ls, some count)
    | .done (.stays n pos) =>
      match sweep c g fuel ls with
      | .done r => .done ((n, pos) :: r.1, r.2)
      | .outside => .outside
      | .running => .running

/-- The smallest position in two dimensions.  xolotl/solver/src/monitor/PetscMonitor2D.cpp:1871-1878. -/
def minSurf (positions : List ℕ) : Option ℕ := positions.head?.map fun s => positions.foldl (fun m p => if p < m then p else m) s

/-- The smallest position in three dimensions.  The first value is read with the default second index, the largest position.  xolotl/solver/src/monitor/PetscMonitor3D.cpp:1865-1873, xolotl/solver/include/xolotl/solver/handler/PetscSolver3DHandler.h:99-103, xolotl/config.h.in:28-41. -/
def minSurf3 (bits : ℕ) (positions : List (List ℕ)) : Option ℕ := do
  let row ← positions[0]?
  let s ← row[2 ^ bits - 1]?
  pure (positions.flatten.foldl (fun m p => if p < m then p else m) s)

/-- `postEventFunction` after a surface event in two dimensions: the lines, and the offset with which the solver is to change the grid, if any.  xolotl/solver/src/monitor/PetscMonitor2D.cpp:1756-1883. -/
def post (c : Par K) (g : List K) (fuel : ℕ) (ls : List (K × ℕ)) : Loop (List (K × ℕ) × Option ℕ) :=
  match sweep c g fuel ls with
  | .outside => .outside
  | .running => .running
  | .done (r, some count) => .done (r, some count)
  | .done (r, none) =>
    match minSurf (r.map Prod.snd) with
    | none => .outside
    | some m => .done (r, if m > 0 then some m else none)

/-- Whether a line reports a surface event.  xolotl/solver/src/monitor/PetscMonitor2D.cpp:1478-1494, PetscMonitor3D.cpp:1534-1549. -/
def reports (c : Par K) (g : List K) (n : K) (pos : ℕ) : Option Bool :=
  (cell c g (first c pos) (dec c.bits (first c pos))).bind fun u =>
    (cell c g (first c pos + 1) (first c pos)).map fun d => decide (n > u) || decide (n < -d * (9 / 10))

/-! ### The points overwritten -/

/-- The points set when the surface has moved up by `count` points to `pos`, in order, and whether they get the initial concentrations (else zeros).  xolotl/solver/src/monitor/PetscMonitor2D.cpp:1801-1831, PetscMonitor3D.cpp:1790-1821. -/
def filled (pos : ℕ) : ℕ → List (ℕ × Bool)
  | 0 => [(pos, false)]
  | count + 1 => (pos + (count + 1), true) :: filled pos count

/-- The points set to zero when the surface moves back from `pos` to `pos'`.  xolotl/solver/src/monitor/PetscMonitor2D.cpp:1841-1854, PetscMonitor3D.cpp:1832-1846. -/
def emptied (left pos pos' : ℕ) : List ℕ := (List.range' pos (pos' - pos)).map (· + left)

/-- The point whose temperature the new points get.  xolotl/solver/src/monitor/PetscMonitor2D.cpp:1774, 1795-1800; PetscMonitor3D.cpp:1760, 1782-1789. -/
def warm (c : Par K) (pos' : ℕ) : ℕ := first c pos'

/-! ### What is accounted for -/

/-- The thickness of the material of a line. -/
def thick (g : List K) (left pos : ℕ) : K := g.getD (g.length - 2) 0 - g.getD (pos + left) 0

/-- The atoms of a line: those that wait in the account and those of the material. -/
def atoms (c : Par K) (g : List K) (n : K) (pos : ℕ) : K := n + c.density * thick g c.left pos * c.area

end Xolotl.Solver.Surface
