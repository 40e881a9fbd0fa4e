import Verif.Solver.Retention
import Verif.Solver.Grain
import Verif.Transport.Advection

/-!
# Retention in two and three dimensions

Model of `computeHeliumRetention` of the two- and of the three-dimensional monitor: the content of the material, the accounts of what left through the surface and through the bottom, kept for every column of the grid, and what is reported per area.  Also of `updateOutgoingAdvecFluxes`, which all three monitors add to the flux through the surface, and of the diffusion on a grid with one surface position per column.

Numbers are elements of an ordered field instead of doubles.  The network is reduced to its mobile clusters of one composition each, as in `Retention`.  Directions other than the depth are periodic (`DM_BOUNDARY_PERIODIC`).  The two-dimensional functions are those of three dimensions with one layer, except where they are written out.
-/

namespace Xolotl.Solver.Columns

open Retention

variable {K : Type*} [Field K] [LinearOrder K] [IsStrictOrderedRing K]

/-- A mobile cluster: its composition, its diffusion coefficient by index of the temperature array of the network, and its concentration by layer, column and depth (`solutionArray[k][j][xi]`). -/
structure Mover3 (K : Type*) where
  comp : List ℕ
  coef : ℕ → K
  conc : ℕ → ℕ → ℕ → K

/-- One column of it. -/
def Mover3.column (m : Mover3 K) (k j : ℕ) : Mover K := ⟨m.comp, m.coef, m.conc k j⟩

/-- The grid: number of points and step in every direction, position of the surface for every column, and the numbers of points left empty at the ends.  xolotl/solver/include/xolotl/solver/handler/SolverHandler.h:66-79, 102-105. -/
structure Mesh (K : Type*) where
  nX : ℕ
  nY : ℕ
  nZ : ℕ
  grid : ℕ → K
  hy : K
  hz : K
  /-- `surfacePosition[j][k]`, here by layer and column -/
  surf : ℕ → ℕ → ℕ
  leftOffset : ℕ := 1
  rightOffset : ℕ := 1
  bottomOffset : ℕ := 0
  topOffset : ℕ := 0
  frontOffset : ℕ := 0
  backOffset : ℕ := 0

/-! ### What the solver does -/

/-- The points at which the right-hand side is computed; `gb` are those of `gbVector`.  xolotl/solver/src/handler/PetscSolver3DHandler.cpp:1170-1188, PetscSolver2DHandler.cpp:1052-1068. -/
def inside (g : Mesh K) (gb : List (ℕ × ℕ × ℕ)) (k j xi : ℕ) : Bool :=
  !(decide (xi < g.surf k j + g.leftOffset ∨ (g.nX : ℤ) - 1 - g.rightOffset < xi ∨ j < g.bottomOffset ∨ (g.nY : ℤ) - 1 - g.topOffset < j
    ∨ k < g.frontOffset ∨ (g.nZ : ℤ) - 1 - g.backOffset < k)) && !(gb.any fun p => decide (p = (xi, j, k)))

/-- The rate of change by diffusion at a point, on a single process.  xolotl/core/src/diffusion/Diffusion3DHandler.cpp:132-159; xolotl/solver/src/handler/PetscSolver3DHandler.cpp:1136-1168, 1194-1199. -/
def rate3 (g : Mesh K) (gb : List (ℕ × ℕ × ℕ)) (m : Mover3 K) (k j xi : ℕ) : K :=
  if inside g gb k j xi then
    Transport.conc3 (Transport.hxLeft g.grid xi) (Transport.hxRight g.nX g.grid xi) (1 / (g.hy * g.hy)) (1 / (g.hz * g.hz))
      ⟨m.coef (xi + 1), m.coef xi, m.coef (xi + 2)⟩ ⟨⟨⟨1, 1, 1⟩, 1, 1⟩, 1, 1⟩
      ⟨⟨⟨m.conc k j xi, m.conc k j (xi - 1), m.conc k j (xi + 1)⟩, m.conc k ((j + g.nY - 1) % g.nY) xi, m.conc k ((j + 1) % g.nY) xi⟩,
        m.conc ((k + g.nZ - 1) % g.nZ) j xi, m.conc ((k + 1) % g.nZ) j xi⟩
  else 0

/-- The same in two dimensions, for layer 0.  xolotl/core/src/diffusion/Diffusion2DHandler.cpp:120-142; xolotl/solver/src/handler/PetscSolver2DHandler.cpp:1023-1050, 1074-1078. -/
def rate2 (g : Mesh K) (gb : List (ℕ × ℕ × ℕ)) (m : Mover3 K) (j xi : ℕ) : K :=
  if inside g gb 0 j xi then
    Transport.conc2 (Transport.hxLeft g.grid xi) (Transport.hxRight g.nX g.grid xi) (1 / (g.hy * g.hy))
      ⟨m.coef (xi + 1), m.coef xi, m.coef (xi + 2)⟩ ⟨⟨1, 1, 1⟩, 1, 1⟩
      ⟨⟨m.conc 0 j xi, m.conc 0 j (xi - 1), m.conc 0 j (xi + 1)⟩, m.conc 0 ((j + g.nY - 1) % g.nY) xi, m.conc 0 ((j + 1) % g.nY) xi⟩
  else 0

/-! ### What the monitor reports -/

/-- Whether the monitor counts a point of a column.  xolotl/solver/src/monitor/PetscMonitor3D.cpp:794-797, PetscMonitor2D.cpp:732-735. -/
def counted (g : Mesh K) (k j xi : ℕ) : Bool := !(decide (xi < g.surf k j + g.leftOffset ∨ (g.nX : ℤ) - g.rightOffset ≤ xi))

/-- The content of one column, `f` giving the value of a cluster at a point; `area` is `hy * hz`, or `hy` in two dimensions.  xolotl/solver/src/monitor/PetscMonitor3D.cpp:790-822, PetscMonitor2D.cpp:728-760. -/
def columnContent (g : Mesh K) (area : K) (ms : List (Mover3 K)) (f : Mover3 K → ℕ → ℕ → ℕ → K) (s k j : ℕ) : K :=
  ∑ xi ∈ Finset.range g.nX, if counted g k j xi then (ms.map fun m => (m.comp.getD s 0 : K) * f m k j xi).sum * (g.grid (xi + 1) - g.grid xi) * area else 0

/-- The irradiated area.  xolotl/solver/src/monitor/PetscMonitor3D.cpp:1029. -/
def area3 (g : Mesh K) : K := ((g.nY * g.nZ : ℕ) : K) * g.hy * g.hz

/-- xolotl/solver/src/monitor/PetscMonitor2D.cpp:955. -/
def area2 (g : Mesh K) : K := (g.nY : K) * g.hy

/-- The sum over the columns. -/
def overColumns (g : Mesh K) (f : ℕ → ℕ → K) : K := ∑ k ∈ Finset.range g.nZ, ∑ j ∈ Finset.range g.nY, f k j

/-- The reported content in three dimensions.  xolotl/solver/src/monitor/PetscMonitor3D.cpp:785-835, 1031-1034. -/
def content3 (g : Mesh K) (ms : List (Mover3 K)) (f : Mover3 K → ℕ → ℕ → ℕ → K) (s : ℕ) : K :=
  overColumns g (columnContent g (g.hy * g.hz) ms f s) / area3 g

/-- The reported content in two dimensions.  xolotl/solver/src/monitor/PetscMonitor2D.cpp:724-772, 957-960. -/
def content2 (g : Mesh K) (ms : List (Mover3 K)) (f : Mover3 K → ℕ → ℕ → ℕ → K) (s : ℕ) : K :=
  (∑ j ∈ Finset.range g.nY, columnContent g g.hy ms f s 0 j) / area2 g

/-- The flux by diffusion out of grid point `xi` of a column, on a single process.  xolotl/solver/src/monitor/PetscMonitor3D.cpp:866-889, 964-987, PetscMonitor2D.cpp:801-824, 896-920. -/
def faceFlux (g : Mesh K) (area : K) (ms : List (Mover3 K)) (k j xi : ℕ) : ℕ → K :=
  outgoing (2 * area / (Transport.hxLeft g.grid xi + Transport.hxRight g.nX g.grid xi)) xi xi (ms.map fun m => m.column k j) fun _ => 0

/-- Through the surface, without advection.  xolotl/solver/src/monitor/PetscMonitor3D.cpp:850, PetscMonitor2D.cpp:786. -/
def frontFlux (g : Mesh K) (area : K) (ms : List (Mover3 K)) (k j : ℕ) : ℕ → K := faceFlux g area ms k j (g.surf k j + 1)

/-- Through the bottom.  xolotl/solver/src/monitor/PetscMonitor3D.cpp:943, PetscMonitor2D.cpp:877. -/
def bottomFlux (g : Mesh K) (area : K) (ms : List (Mover3 K)) (k j : ℕ) : ℕ → K := faceFlux g area ms k j (g.nX - 2)

/-- The accounts of the columns after a loop, each kept as in one dimension, and what is reported of them.  xolotl/solver/src/monitor/PetscMonitor3D.cpp:846-937, 948-1017, 1035-1056, PetscMonitor2D.cpp:783-871, 882-949, 961-980. -/
def reported (g : Mesh K) (area : K) (acc : ℕ → ℕ → Acc K) (s : ℕ) : K := overColumns g (fun k j => (acc k j).n s) / area

/-! ### Advection towards the surface -/

/-- An advecting cluster, with its sink strength and its temperature by index of the temperature array. -/
structure Advected (K : Type*) extends Mover K where
  sink : K
  temp : ℕ → K

/-- `updateOutgoingAdvecFluxes` for grid point `xi` and index `ix` of the arrays of the network.  xolotl/core/include/xolotl/core/network/impl/ReactionNetwork.tpp:1505-1546. -/
def outgoingAdv (factor : K) (ix xi : ℕ) (ms : List (Advected K)) (u : ℕ → K) : ℕ → K :=
  ms.foldl (fun u m =>
    let flux : K := if (0 : K) < m.temp ix then (m.comp.sum : K) * factor * m.coef ix * m.conc xi * m.sink / m.temp ix else 0
    match axisOf m.comp with
    | some s => Function.update u s (u s + flux)
    | none => u) u

/-- The factor, with the distance from `location`; `kB` is the Boltzmann constant.  xolotl/solver/src/monitor/PetscMonitor3D.cpp:897-905, PetscMonitor2D.cpp:833-840, PetscMonitor1D.cpp:964-971. -/
def advFactor (kB area : K) (grid : ℕ → K) (location : K) (xi : ℕ) : K :=
  let d := (grid xi + grid (xi + 1)) / 2 - grid 1 - location
  3 * area / (kB * d * d * d * d)

/-- The location of the surface for the advection handler: that of the column of the last call of `setLocation`.  The right-hand side and the Jacobian visit the columns layer by layer; `order` are those of the process in this order.
xolotl/solver/src/handler/PetscSolver3DHandler.cpp:1126-1127, 1478-1480, PetscSolver2DHandler.cpp:1014-1015, 1332-1333. -/
def locationAfter (g : Mesh K) (order : List (ℕ × ℕ)) (start : K) : K := order.foldl (fun _ c => g.grid (g.surf c.1 c.2 + 1) - g.grid 1) start

/-- The rate of change by advection towards the surface at a point inside, on a single process; every column is given its own location first.
xolotl/solver/src/handler/PetscSolver3DHandler.cpp:1126-1127, 1201-1210, PetscSolver2DHandler.cpp:1014-1015, 1080-1088; xolotl/core/src/advection/SurfaceAdvectionHandler.cpp:136-155. -/
def advRate (g : Mesh K) (kB : K) (m : Advected K) (k j xi : ℕ) : K :=
  Transport.Adv.surfConc m.sink kB (g.grid (g.surf k j + 1) - g.grid 1) ((g.grid xi + g.grid (xi + 1)) / 2 - g.grid 1) (Transport.hxRight g.nX g.grid xi)
    (m.coef (xi + 1)) (m.coef (xi + 2)) (m.temp (xi + 1)) (m.temp (xi + 2)) 1 1 (m.conc xi) (m.conc (xi + 1))

end Xolotl.Solver.Columns
