import Verif.Network.Connectivity

/-!
# Fill patterns given to the solver

Model of the three conversions of a sparse fill map in `PetscSolverHandler` and of `generateDiagonalFill`/`getDiagonalFill`, which produce the fill map from the network's connectivity.  The unordered map is a list of its items; `find` looks a row up.
-/

namespace Xolotl.Solver.FillMap

/-- A map from row numbers to column lists.  xolotl/core/include/xolotl/core/network/IReactionNetwork.h:42. -/
abbrev Map := List (ℕ × List ℕ)

/-- `fillMap.find(i)`. -/
def find (m : Map) (i : ℕ) : Option (List ℕ) := (m.find? fun x => x.1 == i).map Prod.snd

/-- The sum of the lengths of all rows.  xolotl/solver/src/handler/PetscSolverHandler.cpp:26-29, 62-64. -/
def nNonZeros (m : Map) : ℕ := (m.map fun x => x.2.length).sum

/-- A write to the result vector; `none` outside of it. -/
def put (ret : List ℕ) (k v : ℕ) : Option (List ℕ) := if k < ret.length then some (ret.set k v) else none

/-- The columns of one row.  xolotl/solver/src/handler/PetscSolverHandler.cpp:45-48. -/
def putRow : List ℕ → ℕ → List ℕ → Option (List ℕ × ℕ)
  | ret, k, [] => some (ret, k)
  | ret, k, c :: l => (put ret k c).bind fun r => putRow r (k + 1) l

/-- The loop over the rows from row `i` on.  xolotl/solver/src/handler/PetscSolverHandler.cpp:37-50. -/
def putRows (m : Map) : ℕ → ℕ → List ℕ → ℕ → Option (List ℕ × ℕ)
  | 0, _, ret, k => some (ret, k)
  | n + 1, i, ret, k =>
    (put ret i k).bind fun r =>
      match find m i with
      | none => putRows m n (i + 1) r k
      | some l => (putRow r k l).bind fun s => putRows m n (i + 1) s.1 s.2

/-- `ConvertToPetscSparseFillMap`.  xolotl/solver/src/handler/PetscSolverHandler.cpp:21-56. -/
def toPetsc (dof : ℕ) (m : Map) : Option (List ℕ) :=
  (putRows m dof 0 (List.replicate (nNonZeros m + dof + 1) 0) (dof + 1)).bind fun s => put s.1 dof (nNonZeros m + dof + 1)

/-- `convertToRowColPairList`.  xolotl/solver/src/handler/PetscSolverHandler.cpp:84-106. -/
def pairs (dof : ℕ) (m : Map) : List (ℕ × ℕ) :=
  (List.range dof).foldl (fun ret i =>
    match find m i with
    | none => ret
    | some l => l.foldl (fun ret j => ret ++ [(i, j)]) ret) []

/-- `convertToCoordinateListPair`.  xolotl/solver/src/handler/PetscSolverHandler.cpp:58-82. -/
def coords (dof : ℕ) (m : Map) : List ℕ × List ℕ :=
  (List.range dof).foldl (fun ret i =>
    match find m i with
    | none => ret
    | some l => l.foldl (fun ret j => (ret.1 ++ [i], ret.2 ++ [j])) ret) ([], [])

/-- `generateDiagonalFill` and `getDiagonalFill` into an empty map.  xolotl/core/include/xolotl/core/network/impl/ReactionNetwork.tpp:1639-1671. -/
def diagonal (C : Network.Conn.Crs) (dof : ℕ) : Map :=
  (List.range dof).map fun i => (i, (List.range' (C.rowMap i) (C.rowMap (i + 1) - C.rowMap i)).filterMap C.entries)

end Xolotl.Solver.FillMap
