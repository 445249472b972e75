import Verif.Model.Data
/-
Model of HDF5 output and input: include/dlaf/matrix/hdf5.h.

HDF5 contract used: a dataset is an array of scalars with 3 extents stored in C order; a hyperslab selection of a dataspace
is the list of the positions of a box in C order; a transfer moves the k-th selected position of the one to the k-th
selected position of the other, and fails (exception) if the selection does not lie in the extent or the numbers of
selected positions differ.  Elements are `comps` scalars (1 real, 2 complex) next to each other.  CPU matrices (the matrix
mirror and `returnMatrixOn` are the matrix itself).
-/
namespace DLAF

/-- Extents, counts and offsets of 3-dimensional dataspaces. -/
structure Dim3 where
  x : Int
  y : Int
  z : Int
deriving DecidableEq, Repr

/-- Position of a scalar in memory: element address, times the scalars per element. -/
abbrev ScalarAddr := ChunkId × Int

/-- `selectHyperslab(H5S_SELECT_SET, counts, offsets)` on a dataspace of extents `dims`: the selected positions in C
order; `none` if a transfer with that selection fails. -/
def slab (dims count start : Dim3) : Option (List Int) :=
  if (0 ≤ start.x ∧ 0 ≤ count.x ∧ start.x + count.x ≤ dims.x) ∧ (0 ≤ start.y ∧ 0 ≤ count.y ∧ start.y + count.y ≤ dims.y) ∧
      (0 ≤ start.z ∧ 0 ≤ count.z ∧ start.z + count.z ≤ dims.z) then
    some ((List.range count.x.toNat).flatMap fun a : Nat => (List.range count.y.toNat).flatMap fun b : Nat =>
      (List.range count.z.toNat).map fun c : Nat =>
        ((start.x + a) * dims.y + (start.y + b)) * dims.z + (start.z + c))
  else none

/-- An element type: `hdf5_datatype<T>::type` (`base`) and `hdf5_datatype<T>::dims`, hdf5.h:41-54. -/
structure ElemType where
  base : Nat
  comps : Int
deriving DecidableEq, Repr

/-- `map_ds_tile`, hdf5.h:101-130: the pairs (position in the file, position in memory) of one transfer. -/
def mapTile (T : ElemType) (dims : Dim3) (d : Distribution) (t : Tile) (ij : Nat × Nat) :
    Option (List (Int × ScalarAddr)) :=
  let tl_row := d.row.global_element_from_global_tile_and_tile_element (d.row.global_tile_from_local_tile ij.1) 0
  let tl_col := d.col.global_element_from_global_tile_and_tile_element (d.col.global_tile_from_local_tile ij.2) 0
  (slab dims ⟨t.cols, t.rows, T.comps⟩ ⟨tl_col, tl_row, 0⟩).bind fun file =>
  (slab ⟨t.cols, t.ld, T.comps⟩ ⟨t.cols, t.rows, T.comps⟩ ⟨0, 0, 0⟩).bind fun memory =>
    if file.length = memory.length then
      some (file.zip (memory.map fun k => (t.view.chunk, t.view.offset * T.comps + k)))
    else none

/-- `for_each_local_map_with_dataset`, hdf5.h:92-134: all transfers of a process, in order. -/
def datasetMap (T : ElemType) (dims : Dim3) (d : Distribution) (mem : MatrixMem) : Option (List (Int × ScalarAddr)) :=
  (mapOpt (fun ij : Nat × Nat => (mem.tiles[(tile_linear_index d ij.1 ij.2).toNat]?).bind fun t => mapTile T dims d t ij)
    (localTiles d)).map List.flatten

/-- A dataset of the file. -/
structure Dataset (E : Type) where
  base : Nat
  dims : Dim3
  data : Int → E

/-- Store the values of a list of (position, value), first to last. -/
def storeAll {α E : Type} [DecidableEq α] (l : List (α × E)) (m : α → E) : α → E :=
  l.foldl (fun m u => fun x => if x = u.1 then u.2 else m x) m

/-- `FileHDF5::write`, hdf5.h:195-224, on one process: the extents of the created dataset (225: with the base type) and what
this process stores in it; `none` = assertion failure or exception.  `file_rank`: the rank of the process in the file's
communicator (0 for a local file). -/
def hdf5Write {E : Type} (has_mpio : Bool) (file_rank : Int) (T : ElemType) (d : Distribution) (mem : MatrixMem)
    (buf : ScalarAddr → E) : Option (Dim3 × List (Int × E)) :=
  let is_local_matrix := decide (d.row.grid = 1) && decide (d.col.grid = 1)
  if is_local_matrix || has_mpio then
    let dims : Dim3 := ⟨d.col.size, d.row.size, T.comps⟩
    if !is_local_matrix || decide (file_rank = 0) then
      (datasetMap T dims d mem).map fun l => (dims, l.map fun u => (u.1, buf u.2))
    else some (dims, [])
  else none

/-- `FileHDF5::read` for a distributed matrix, hdf5.h:239-250 with `openDataSet` and `datasetToSize` 267-288: the
distribution, the memory of the new matrix and what it contains afterwards (`buf` before).  The local version (227-236)
is the same with the 1x1 grid.  `layout`, `alignment`, `ld`: the defaults in force for new matrices. -/
def hdf5Read {E : Type} (heavy : Bool) (layout : AllocationLayout) (alignment : Int) (ld : LdSpec) (T : ElemType)
    (ds : Dataset E) (blocksize grid rank src : Coord2) (buf : ScalarAddr → E) :
    Option (Distribution × MatrixMem × (ScalarAddr → E)) :=
  if T.base = ds.base then
    (Distribution.create heavy ⟨ds.dims.y, ds.dims.x⟩ blocksize blocksize grid rank src ⟨0, 0⟩).bind fun d =>
    (setUp layout d alignment ld).bind fun mem =>
    (datasetMap T ds.dims d mem).map fun l => (d, mem, storeAll (l.map fun u => (u.2, ds.data u.1)) buf)
  else none

end DLAF
