import Verif.Solver.Coo
import Verif.Network.Updates
import Verif.Network.Pattern
import Verif.Transport.Stencil
import Verif.Transport.Advection
import Verif.Transport.Soret
import Verif.Transport.Heat

/-!
# The values of the Jacobian on a grid

`Coo` follows the indices of the values that `computeJacobian` writes; here the values are added: the array `vals` with its zeros, the assignments of the transport terms and the additions of the network, the sum that
`MatSetValuesCOO` makes of them, and the right-hand side of which the matrix should be the derivative (`/repo/xolotl/solver/src/handler/PetscSolver1DHandler.cpp:942-1025, 1066-1330`, `PetscSolver2DHandler.cpp:1008-1104, 1148-1415`, `PetscSolver3DHandler.cpp:1118-1226, 1426-1570`).

One process and its local points are considered.  The kernels write to different indices, so that their order is left out, except for the additions of the network whose order is arbitrary.
The temperatures and rates known to the network, the depths and the spacings are what they are during one evaluation: the change of the rates with the temperature (`PetscSolver1DHandler.cpp:868-939, 1137-1197`) and the attenuation of the
trap mutation (`PetscSolver1DHandler.cpp:770-805, 1199-1234`) are not part of the right-hand side modelled here.
PETSc is modelled as documented: `MatZeroEntries` sets the matrix to zero, `MatSetValuesCOO` with `ADD_VALUES` adds the `k`-th value to the entry at the `k`-th coordinates, ignores negative coordinates and reads as many values as there are coordinates.
-/

namespace Xolotl.Solver.Matrix

open Xolotl.Solver.Coo Xolotl.Network Xolotl.Transport

variable {P Q K : Type} [Field K] [LinearOrder K]

/-- A store into the array of values: the index, whether the number is added to what is there, the number. -/
structure Store (K : Type) where
  idx : ℕ
  add : Bool
  val : K

/-- One store; `none` outside of the array. -/
def store (v : List K) (u : Store K) : Option (List K) := if u.idx < v.length then some (v.modify u.idx fun x => if u.add then x + u.val else u.val) else none

/-- The computed numbers: of the temperature at a point by stencil index, of a kind of diffusion at a point by position of the cluster and stencil index, of an advection handler at a point by position of the cluster,
of the network at a point by position among its entries, in the order of the additions. -/
structure Values (P K : Type) where
  temp : P → ℕ → K
  block : ℕ → P → ℕ → ℕ → K
  adv : ℕ → P → ℕ → K × K
  nw : P → List (ℕ × K)

/-- The temperature.  The numbers are accumulated in `hTempVals`, which starts with zeros, and copied.  PetscSolver1DHandler.cpp:1069-1072, 1096-1124, 1162-1174; PetscSolver2DHandler.cpp:1151-1158, 1181-1212, 1248-1261. -/
def tempS (V : Values P K) (s : ℕ) (l : List P) : List (Store K) := l.zipIdx.flatMap fun pi => (List.range s).map fun k => ⟨pi.2 * s + k, false, V.temp pi.1 k⟩

/-- One kind of diffusion from index `v` on.  /repo/xolotl/core/src/diffusion/Diffusion1DHandler.cpp:140-162; /repo/xolotl/core/src/modified/SoretDiffusionHandler.cpp:198-234. -/
def blockS (V : Values P K) (s : ℕ) (p : P) (b v : ℕ) (ids : List ℕ) : List (Store K) :=
  ids.zipIdx.flatMap fun ci => (List.range s).map fun k => ⟨v + (ci.2 * s + k), false, V.block b p ci.2 k⟩

/-- The kinds of diffusion, numbered from `b` on: what is stored and the index afterwards.  PetscSolver1DHandler.cpp:1285-1296; PetscSolver2DHandler.cpp:1371-1375. -/
def blocksS (V : Values P K) (s : ℕ) (p : P) : ℕ → ℕ → List (List ℕ) → List (Store K) × ℕ
  | _, v, [] => ([], v)
  | b, v, ids :: r => let t := blocksS V s p (b + 1) (v + s * ids.length) r; (blockS V s p b v ids ++ t.1, t.2)

/-- One advection handler from index `v` on.  /repo/xolotl/core/src/advection/SurfaceAdvectionHandler.cpp:174-202; YGBAdvectionHandler.cpp:182-214. -/
def advHS (V : Values P K) (p : P) (a v : ℕ) (ids : List ℕ) : List (Store K) :=
  ids.zipIdx.flatMap fun ci => [⟨v + ci.2 * 2, false, (V.adv a p ci.2).1⟩, ⟨v + (ci.2 * 2 + 1), false, (V.adv a p ci.2).2⟩]

/-- The advection handlers, numbered from `a` on.  PetscSolver1DHandler.cpp:1301-1306; PetscSolver2DHandler.cpp:1380-1387. -/
def advS (V : Values P K) (n : ℕ) (p : P) : ℕ → ℕ → List (Handler P Q) → List (Store K) × ℕ
  | _, v, [] => ([], v)
  | a, v, h :: r => let t := advS V n p (a + 1) (v + 2 * n) r; (advHS V p a v h.ids ++ t.1, t.2)

/-- The network from index `v` on.  PetscSolver1DHandler.cpp:1320-1322. -/
def nwS (V : Values P K) (v : ℕ) (p : P) : List (Store K) := (V.nw p).map fun u => ⟨v + u.1, true, u.2⟩

/-- The loop over the points.  PetscSolver1DHandler.cpp:1236-1325; PetscSolver2DHandler.cpp:1327-1410. -/
def pointsS (S : Setup P Q) (V : Values P K) (s : ℕ) (skip stop : P → Bool) : ℕ → List P → List (Store K)
  | _, [] => []
  | v, p :: r =>
    if skip p then pointsS S V s skip stop (v + advance S s) r
    else if stop p then pointsS S V s skip stop v r
    else
      let a := blocksS V s p 0 v S.blocks
      let b := advS V (nAdvec S) p 0 a.2 S.adv
      a.1 ++ (b.1 ++ nwS V b.2 p) ++ pointsS S V s skip stop (b.2 + S.nw.length) r

/-- All stores of `computeJacobian`.  PetscSolver1DHandler.cpp:1066-1325; PetscSolver2DHandler.cpp:1148-1410. -/
def stores (S : Setup P Q) (V : Values P K) (s : ℕ) (skip stop : P → Bool) : List (Store K) :=
  tempS V s S.points ++ pointsS S V s skip stop (S.points.length * s) S.points

/-- `MatSetValuesCOO(J, vals.data(), ADD_VALUES)`; `none` if it reads outside of the array.  PetscSolver1DHandler.cpp:1327. -/
def addCoo [DecidableEq P] [DecidableEq Q] (L : List (Option (Entry P Q))) (v : List K) (J : Entry P Q → K) : Option (Entry P Q → K) :=
  if L.length ≤ v.length then some fun e => J e + netOf (L.zip v) (some e) else none

/-- `rhsJacobian`: the matrix is zeroed, the values are stored and given to the matrix, and the array is reset.  /repo/xolotl/solver/src/PetscSolver.cpp:531-570, PetscSolver1DHandler.cpp:1034-1336, PetscSolverHandler.cpp:108-115. -/
def rhsJacobian [DecidableEq P] [DecidableEq Q] (S : Setup P Q) (V : Values P K) (s : ℕ) (skip stop : P → Bool) (vals : List K) : Option (List K × (Entry P Q → K)) :=
  ((stores S V s skip stop).foldlM store vals).bind fun v => (addCoo (slots S) v fun _ => 0).map fun J => (v.map fun _ => 0, J)

/-- The array after the set up: one value more than coordinates, zeros.  PetscSolver1DHandler.cpp:249-254; PetscSolver2DHandler.cpp:267-272. -/
def fresh (S : Setup P Q) : List K := List.replicate ((slots S).length + 1) 0

/-! ### The right-hand side -/

/-- The terms of the right-hand side as functions of the state: of the temperature at a point, of a kind of diffusion and of an advection handler at a point by position of the cluster, the source at a point, which does not depend on the state,
and the additions of the network at a point to the degrees of freedom. -/
structure Terms (P Q K : Type) where
  temp : P → (Q → ℕ → K) → K
  block : ℕ → P → ℕ → (Q → ℕ → K) → K
  adv : ℕ → P → ℕ → (Q → ℕ → K) → K
  src : P → List (ℕ × K)
  nw : P → (ℕ → K) → List (ℕ × K)

/-- The additions to `F` at a point.  PetscSolver1DHandler.cpp:818-919, 942-1025; PetscSolver2DHandler.cpp:819-868, 1008-1104. -/
def additions (S : Setup P Q) (T : Terms P Q K) (skip stop : P → Bool) (c : Q → ℕ → K) (p : P) : List (ℕ × K) :=
  (S.dof, T.temp p c) ::
    if skip p || stop p then []
    else (S.blocks.zipIdx.flatMap fun bi => bi.1.zipIdx.map fun ci => (ci.1, T.block bi.2 p ci.2 c)) ++ (T.src p ++
      ((S.adv.zipIdx.flatMap fun ha => ha.1.ids.zipIdx.map fun ci => (ci.1, T.adv ha.2 p ci.2 c)) ++ T.nw p (c (S.self p))))

/-- The right-hand side; `rhsFunction` sets it to zero first.  /repo/xolotl/solver/src/PetscSolver.cpp:516-520. -/
def F (S : Setup P Q) (T : Terms P Q K) (skip stop : P → Bool) (c : Q → ℕ → K) (p : P) (n : ℕ) : K := applyUpdates (fun _ => 0) (additions S T skip stop c p) n

/-! ### One dimension -/

/-- The advection towards the surface, the only kind that works in one dimension: its columns are those of the middle and right point, announced for a sink that no point is on and an offset of 1.
PetscSolver1DHandler.cpp:218-240; /repo/xolotl/core/include/xolotl/core/advection/SurfaceAdvectionHandler.h:107-125; SurfaceAdvectionHandler.cpp:187-201. -/
def surface (ids : List ℕ) : Handler ℕ ℤ where
  ids := ids
  reg i := advCols false 1 i
  real i := ((i : ℤ), (i : ℤ) + 1)

/-- What one evaluation in one dimension knows: the positions of the grid, diffusion coefficients, temperatures and masks by kind of handler, factors, sinks and reactions. -/
structure Line (K : Type) where
  nX : ℕ
  left : ℕ
  right : ℕ
  gb : List ℕ
  /-- `isRobin` -/
  robin : Bool
  grid : ℕ → K
  /-- `temperatureGrid` -/
  tgrid : ℕ → K
  /-- `util::equal(x, 0)` is `|x| < eps` -/
  eps : K
  kB : K
  /-- the temperatures known to the network, at the middle, left and right point -/
  temp : ℕ → S1 K
  /-- diffusion coefficients of a cluster at the middle, left and right point -/
  dif : ℕ → ℕ → S1 K
  beta : ℕ → K
  /-- the mask of the diffusion by point and position of the cluster -/
  dmask : ℕ → ℕ → S1 K
  /-- the mask of an advection handler: middle, right -/
  amask : ℕ → ℕ → ℕ → K × K
  sink : ℕ → ℕ → K
  loc : ℕ → K
  /-- the heat equation, without the spacings -/
  heat : Option (Heat.Ctx K)
  /-- the flux of incoming particles -/
  src : ℕ → List (ℕ × K)

namespace Line

variable (E : Line K)

/-- The concentrations of a cluster at the middle, left and right point.  PetscSolver1DHandler.cpp:948-953, 1263-1268. -/
def st (c : ℤ → ℕ → K) (i n : ℕ) : S1 K := ⟨c i n, c ((i : ℤ) - 1) n, c ((i : ℤ) + 1) n⟩

/-- The temperatures of the state by stencil index.  PetscSolver1DHandler.cpp:892-897, 1098-1107. -/
def stT (c : ℤ → ℕ → K) (i dof : ℕ) (k : ℕ) : K := if k = 0 then c i dof else if k = 1 then c ((i : ℤ) - 1) dof else if k = 2 then c ((i : ℤ) + 1) dof else 0

/-- The numbers of a stencil by index. -/
def nth (x : S1 K) (k : ℕ) : K := if k = 0 then x.mid else if k = 1 then x.left else x.right

/-- The spacings of the concentrations.  PetscSolver1DHandler.cpp:955-968, 1270-1283. -/
def hL (i : ℕ) : K := hxLeft E.grid i
def hR (i : ℕ) : K := hxRight E.nX E.grid i

/-- The context of the heat equation at a point, with the spacings of the temperature grid.  PetscSolver1DHandler.cpp:899-912, 1074-1091. -/
def ctx (h : Heat.Ctx K) (i : ℕ) : Heat.Ctx K := { h with hL := hxLeft E.tgrid i, hR := hxRight E.nX E.tgrid i }

/-- The point gets transport and reactions.  PetscSolver1DHandler.cpp:970-983, 1238-1258. -/
def skip (i : ℕ) : Bool := !free1 E.nX E.left E.right E.gb i
def stop (i : ℕ) : Bool := decide (i = 0)

/-- The centre of the cell relative to the surface.  PetscSolver1DHandler.cpp:1005, 1300. -/
def pos (i : ℕ) : K := (E.grid i + E.grid (i + 1)) / 2 - E.grid 1

variable [IsStrictOrderedRing K]

/-- The temperature's term: the heat equation, as often as it is evaluated.  PetscSolver1DHandler.cpp:818-851, 914-918. -/
def termT (dof : ℕ) (i : ℕ) (c : ℤ → ℕ → K) : K := match E.heat with
  | none => 0
  | some h => tempTimes E.nX E.robin (free1 E.nX E.left E.right E.gb) i * Heat.rhs (E.ctx h i) i (stT c i dof)

/-- The temperature's numbers.  PetscSolver1DHandler.cpp:1111-1124, 1162-1172. -/
def valueT (dof : ℕ) (c : ℤ → ℕ → K) (i k : ℕ) : K := match E.heat with
  | none => 0
  | some h =>
    let v := Heat.part (E.ctx h i) i (stT c i dof)
    tempTimes E.nX E.robin (free1 E.nX E.left E.right E.gb) i * (if k = 0 then v.1 else if k = 1 then v.2.1 else v.2.2)

/-- The terms.  PetscSolver1DHandler.cpp:914-918, 988-1023. -/
def terms (dof : ℕ) (soret dif : List ℕ) (adv : List (List ℕ)) (nw : ℕ → (ℕ → K) → List (ℕ × K)) : Terms ℕ ℤ K where
  temp i c := E.termT dof i c
  block b i k c :=
    if b = 0 then Soret.rate (E.beta k) (E.hL i) (E.hR i) (E.dif i (soret.getD k 0)) (E.temp i) (st c i (soret.getD k 0))
    else conc1 (E.hL i) (E.hR i) (E.dif i (dif.getD k 0)) (E.dmask i k) (st c i (dif.getD k 0))
  adv a i k c :=
    let n := (adv.getD a []).getD k 0
    Adv.surfConc (E.sink a k) E.kB (E.loc a) (E.pos i) (E.hR i) (E.dif i n).mid (E.dif i n).right (E.temp i).mid (E.temp i).right (E.amask a i k).1 (E.amask a i k).2 (c i n) (c ((i : ℤ) + 1) n)
  src := E.src
  nw := nw

/-- The numbers.  Where Soret diffusion writes nothing the array keeps its zeros.  PetscSolver1DHandler.cpp:1111-1172, 1285-1322. -/
def values (dof : ℕ) (soret dif : List ℕ) (adv : List (List ℕ)) (nw : ℕ → List (ℕ × K)) (c : ℤ → ℕ → K) : Values ℕ K where
  temp i k := E.valueT dof c i k
  block b i k j :=
    if b = 0 then nth (Soret.part E.eps (E.beta k) (E.hL i) (E.hR i) (E.dif i (soret.getD k 0)) (E.temp i) (st c i (soret.getD k 0)) ⟨0, 0, 0⟩) j
    else nth (part1 (E.hL i) (E.hR i) (E.dif i (dif.getD k 0)) (E.dmask i k)) j
  adv a i k :=
    let n := (adv.getD a []).getD k 0
    Adv.surfPart (E.sink a k) E.kB (E.loc a) (E.pos i) (E.hR i) (E.dif i n).mid (E.dif i n).right (E.temp i).mid (E.temp i).right (E.amask a i k).1 (E.amask a i k).2
  nw := nw

end Line

/-! ### Two and three dimensions -/

/-- What one evaluation in two (`iz` and `sz` unused) or three dimensions knows; diffusion coefficients and temperatures are kept by depth. -/
structure Space (K : Type) where
  nX : ℕ
  grid : ℕ → K
  sy : K
  sz : K
  kB : K
  temp : ℕ → S1 K
  dif : ℕ → ℕ → S1 K
  /-- the mask of the diffusion -/
  dmask : ℕ → ℕ → ℕ → ℕ → S3 K
  /-- the mask of the advection towards the surface: middle, right -/
  amask : ℕ → ℕ → ℕ → ℕ → K × K
  sink : ℕ → K
  /-- the location of the surface -/
  loc : ℕ → ℕ → K

namespace Space

variable (E : Space K)

/-- The stencil in two dimensions.  PetscSolver2DHandler.cpp:211-216, 222-229, 1023-1035. -/
def cols2 (p : ℕ × ℕ) : List (ℤ × ℤ) := [(p.1, p.2), (p.1 - 1, p.2), (p.1 + 1, p.2), (p.1, p.2 - 1), (p.1, p.2 + 1)]

/-- The stencil in three dimensions.  PetscSolver3DHandler.cpp:244-258, 266-282. -/
def cols3 (p : ℕ × ℕ × ℕ) : List (ℤ × ℤ × ℤ) :=
  [(p.1, p.2.1, p.2.2), (p.1 - 1, p.2.1, p.2.2), (p.1 + 1, p.2.1, p.2.2), (p.1, p.2.1 - 1, p.2.2), (p.1, p.2.1 + 1, p.2.2), (p.1, p.2.1, p.2.2 - 1), (p.1, p.2.1, p.2.2 + 1)]

/-- The layout in two dimensions with the advection towards the surface, if there is any.  PetscSolver2DHandler.cpp:208-266. -/
def setup2 (dof xs xm ys ym : ℕ) (dif : List ℕ) (adv : Option (List ℕ)) (nw : List (ℕ × ℕ)) : Setup (ℕ × ℕ) (ℤ × ℤ) where
  dof := dof
  points := (List.range' ys ym).flatMap fun j => (List.range' xs xm).map fun i => (i, j)
  self p := (p.1, p.2)
  cols := cols2
  blocks := [dif]
  adv := adv.toList.map fun ids => ⟨ids, fun p => ((p.1, p.2), (p.1 + 1, p.2)), fun p => ((p.1, p.2), (p.1 + 1, p.2))⟩
  nw := nw

/-- The layout in three dimensions.  PetscSolver3DHandler.cpp:240-324. -/
def setup3 (dof xs xm ys ym zs zm : ℕ) (dif : List ℕ) (adv : Option (List ℕ)) (nw : List (ℕ × ℕ)) : Setup (ℕ × ℕ × ℕ) (ℤ × ℤ × ℤ) where
  dof := dof
  points := (List.range' zs zm).flatMap fun k => (List.range' ys ym).flatMap fun j => (List.range' xs xm).map fun i => (i, j, k)
  self p := (p.1, p.2.1, p.2.2)
  cols := cols3
  blocks := [dif]
  adv := adv.toList.map fun ids => ⟨ids, fun p => ((p.1, p.2.1, p.2.2), (p.1 + 1, p.2.1, p.2.2)), fun p => ((p.1, p.2.1, p.2.2), (p.1 + 1, p.2.1, p.2.2))⟩
  nw := nw

/-- The numbers of a stencil by index. -/
def nth (x : S3 K) (k : ℕ) : K :=
  if k = 0 then x.mid else if k = 1 then x.left else if k = 2 then x.right else if k = 3 then x.bottom else if k = 4 then x.top else if k = 5 then x.front else x.back

/-- The rate of the advection towards the surface in the column of points `(y, z)`.  PetscSolver2DHandler.cpp:1014-1015, 1080-1088. -/
def advRate (x y z k n : ℕ) (c cR : K) : K :=
  Adv.surfConc (E.sink k) E.kB (E.loc y z) ((E.grid x + E.grid (x + 1)) / 2 - E.grid 1) (hxRight E.nX E.grid x) (E.dif x n).mid (E.dif x n).right (E.temp x).mid (E.temp x).right (E.amask x y z k).1 (E.amask x y z k).2 c cR

/-- Its numbers.  PetscSolver2DHandler.cpp:1332-1333, 1377-1387. -/
def advPart (x y z k n : ℕ) : K × K :=
  Adv.surfPart (E.sink k) E.kB (E.loc y z) ((E.grid x + E.grid (x + 1)) / 2 - E.grid 1) (hxRight E.nX E.grid x) (E.dif x n).mid (E.dif x n).right (E.temp x).mid (E.temp x).right (E.amask x y z k).1 (E.amask x y z k).2

/-- The terms in two dimensions, with a temperature handler that adds none.  PetscSolver2DHandler.cpp:1017-1104; /repo/xolotl/core/include/xolotl/core/temperature/TemperatureHandler.h:79-102. -/
def terms2 (dif adv : List ℕ) (src : ℕ × ℕ → List (ℕ × K)) (nw : ℕ × ℕ → (ℕ → K) → List (ℕ × K)) : Terms (ℕ × ℕ) (ℤ × ℤ) K where
  temp _ _ := 0
  block _ p k c :=
    let n := dif.getD k 0
    conc2 (hxLeft E.grid p.1) (hxRight E.nX E.grid p.1) E.sy (E.dif p.1 n) (E.dmask p.1 p.2 0 k).toS2 ⟨⟨c (p.1, p.2) n, c (p.1 - 1, p.2) n, c (p.1 + 1, p.2) n⟩, c (p.1, p.2 - 1) n, c (p.1, p.2 + 1) n⟩
  adv _ p k c := E.advRate p.1 p.2 0 k (adv.getD k 0) (c (p.1, p.2) (adv.getD k 0)) (c (p.1 + 1, p.2) (adv.getD k 0))
  src := src
  nw := nw

/-- The numbers in two dimensions.  PetscSolver2DHandler.cpp:1335-1410. -/
def values2 (dif adv : List ℕ) (nw : ℕ × ℕ → List (ℕ × K)) : Values (ℕ × ℕ) K where
  temp _ _ := 0
  block _ p k j :=
    let v := part2 (hxLeft E.grid p.1) (hxRight E.nX E.grid p.1) E.sy (E.dif p.1 (dif.getD k 0)) (E.dmask p.1 p.2 0 k).toS2
    nth ⟨v, 0, 0⟩ j
  adv _ p k := E.advPart p.1 p.2 0 k (adv.getD k 0)
  nw := nw

/-- The terms in three dimensions.  PetscSolver3DHandler.cpp:1118-1226. -/
def terms3 (dif adv : List ℕ) (src : ℕ × ℕ × ℕ → List (ℕ × K)) (nw : ℕ × ℕ × ℕ → (ℕ → K) → List (ℕ × K)) : Terms (ℕ × ℕ × ℕ) (ℤ × ℤ × ℤ) K where
  temp _ _ := 0
  block _ p k c :=
    let n := dif.getD k 0
    conc3 (hxLeft E.grid p.1) (hxRight E.nX E.grid p.1) E.sy E.sz (E.dif p.1 n) (E.dmask p.1 p.2.1 p.2.2 k)
      ⟨⟨⟨c (p.1, p.2.1, p.2.2) n, c (p.1 - 1, p.2.1, p.2.2) n, c (p.1 + 1, p.2.1, p.2.2) n⟩, c (p.1, p.2.1 - 1, p.2.2) n, c (p.1, p.2.1 + 1, p.2.2) n⟩, c (p.1, p.2.1, p.2.2 - 1) n, c (p.1, p.2.1, p.2.2 + 1) n⟩
  adv _ p k c := E.advRate p.1 p.2.1 p.2.2 k (adv.getD k 0) (c (p.1, p.2.1, p.2.2) (adv.getD k 0)) (c (p.1 + 1, p.2.1, p.2.2) (adv.getD k 0))
  src := src
  nw := nw

/-- The numbers in three dimensions.  PetscSolver3DHandler.cpp:1473-1565. -/
def values3 (dif adv : List ℕ) (nw : ℕ × ℕ × ℕ → List (ℕ × K)) : Values (ℕ × ℕ × ℕ) K where
  temp _ _ := 0
  block _ p k j := nth (part3 (hxLeft E.grid p.1) (hxRight E.nX E.grid p.1) E.sy E.sz (E.dif p.1 (dif.getD k 0)) (E.dmask p.1 p.2.1 p.2.2 k)) j
  adv _ p k := E.advPart p.1 p.2.1 p.2.2 k (adv.getD k 0)
  nw := nw

end Space

end Xolotl.Solver.Matrix
