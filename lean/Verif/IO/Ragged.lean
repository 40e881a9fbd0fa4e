import Verif.Util.Segments

/-!
# Ragged datasets of the checkpoint file

Model of `HDF5File::RaggedDataSet2D` (HDF5FileDataSet.h).  The parallel HDF5 library is trusted for: a dataset is an array whose elements are unwritten at first; writing or reading a hyperslab that does not fit fails; the writes of the ranks happen in some order.  `uint32_t` arithmetic wraps around.  `parts` holds, for every rank, the lists of the grid points it owns.
-/

namespace Xolotl.IO.Ragged

variable {α : Type*}

/-- Conversion to `uint32_t`. -/
def wrap (n : ℕ) : ℕ := n % 2 ^ 32

/-- Subtraction of `uint32_t`. -/
def sub32 (a b : ℕ) : ℕ := (a + 2 ^ 32 - b) % 2 ^ 32

/-- The content of a dataset. -/
abbrev Dset (α : Type*) := List (Option α)

/-- `H5Sselect_hyperslab` followed by `H5Dwrite`. -/
def writeSlab (d : Dset α) (off : ℕ) (vals : List α) : Option (Dset α) :=
  if off + vals.length ≤ d.length then some (d.take off ++ vals.map some ++ d.drop (off + vals.length)) else none

/-- `H5Sselect_hyperslab` followed by `H5Dread`; `none` also if something read was never written. -/
def readSlab (d : Dset α) (off n : ℕ) : Option (List α) :=
  if off + n ≤ d.length then ((d.drop off).take n).mapM id else none

/-- `findNumItemsByPoint`.  xolotl/io/include/xolotl/io/HDF5FileDataSet.h:183-192. -/
def numItems (pts : List (List α)) : List ℕ := pts.map fun l => wrap l.length

/-- The local starting indices: a zero and the partial sums without the last one.  xolotl/io/include/xolotl/io/HDF5FileDataSet.h:288-292. -/
def starts : ℕ → List ℕ → List ℕ
  | _, [] => []
  | s, c :: cs => s :: starts (wrap (s + c)) cs

/-- `myNumItems`; `back()` of an empty vector is undefined.  xolotl/io/include/xolotl/io/HDF5FileDataSet.h:308. -/
def myNumItems (pts : List (List α)) : Option ℕ :=
  match (starts 0 (numItems pts)).getLast?, (numItems pts).getLast? with
  | some s, some n => some (wrap (s + n))
  | _, _ => none

/-- `totalNumItems`: the size of the flattened dataset.  xolotl/io/include/xolotl/io/HDF5FileDataSet.h:213-228. -/
def totalNumItems (parts : List (List (List α))) : ℕ := wrap (parts.map fun pts => wrap (numItems pts).sum).sum

/-- The size of the index dataset.  xolotl/io/include/xolotl/io/HDF5FileDataSet.h:336-345. -/
def indexSize (parts : List (List (List α))) : ℕ := wrap (wrap (parts.map List.length).sum + 1)

/-- `globalBaseIdx` of rank `r`, from the numbers of items of all ranks.  xolotl/io/include/xolotl/io/HDF5FileDataSet.h:309-316. -/
def exscan (counts : List ℕ) (r : ℕ) : ℕ := if r = 0 then 0 else wrap (counts.take r).sum

/-- The two datasets in the file. -/
structure File (α : Type*) where
  index : Dset ℕ
  data : Dset α
  deriving DecidableEq

/-- The datasets created.  xolotl/io/include/xolotl/io/HDF5FileDataSet.h:159, 344-351. -/
def create (parts : List (List (List α))) : File α :=
  ⟨List.replicate (indexSize parts) none, List.replicate (totalNumItems parts) none⟩

/-- The part of the index written by rank `r`.  xolotl/io/include/xolotl/io/HDF5FileDataSet.h:317-366. -/
def indexPart (parts : List (List (List α))) (counts : List ℕ) (r : ℕ) (pts : List (List α)) : List ℕ :=
  (starts 0 (numItems pts)).map (fun i => wrap (i + exscan counts r)) ++ if r + 1 = parts.length then [totalNumItems parts] else []

/-- What rank `r` writes; its slab of grid points begins at `baseX`.  xolotl/io/include/xolotl/io/HDF5FileDataSet.h:154-172, 239-447. -/
def writeRank (parts : List (List (List α))) (counts : List ℕ) (f : File α) (r : ℕ) : Option (File α) :=
  match parts[r]?, counts[r]? with
  | some pts, some n =>
    let baseX := Util.Seg.start parts r
    (writeSlab f.index baseX (indexPart parts counts r pts)).bind fun ix =>
      (writeSlab f.data (exscan counts r) (pts.flatten.take n)).map fun dt => ⟨ix, dt⟩
  | _, _ => none

/-- The construction of the dataset by all ranks, which write in the given order. -/
def write (parts : List (List (List α))) (order : List ℕ) : Option (File α) :=
  (parts.mapM myNumItems).bind fun counts => order.foldlM (writeRank parts counts) (create parts)

/-- The ragged lists cut out of the flat data.  xolotl/io/include/xolotl/io/HDF5FileDataSet.h:579-599. -/
def unflatten (idx : List ℕ) (first : ℕ) (flat : List α) : Option (List (List α)) :=
  let loc := idx.map fun v => sub32 v first
  (List.range (idx.length - 1)).mapM fun p =>
    (loc[p]?).bind fun a => (loc[p + 1]?).bind fun b => (List.range (sub32 b a)).mapM fun v => flat[a + v]?

/-- `read`.  xolotl/io/include/xolotl/io/HDF5FileDataSet.h:449-600. -/
def read (f : File α) (baseX numX : ℕ) : Option (List (List α)) :=
  (readSlab f.index baseX (numX + 1)).bind fun idx =>
    (idx.head?).bind fun first => (idx.getLast?).bind fun last =>
      (readSlab f.data first (sub32 last first)).bind fun flat => unflatten idx first flat

end Xolotl.IO.Ragged
