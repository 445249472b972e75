import Verif.Model.Memory
/-
Model of retiled views: include/dlaf/matrix/matrix_base.h:38-50 (`MatrixBase(distribution,
tiles_per_block)`) and `Matrix::set_up_retiled_sub_pipelines`, include/dlaf/matrix/matrix.h:562-615.

Only the tiles reached through the view are modelled here; the ordering of accesses is the subject of
C17.
-/
namespace DLAF

/-- One coordinate of the distribution of a retiled view, matrix_base.h:38-43: same size, block size,
grid, rank and source rank, `block / tiles_per_block` as tile size, no offset. -/
def Dist1.retiled (d : Dist1) (tpb : Int) : Dist1 :=
  Dist1.build d.size d.blockSize (cdiv d.blockSize tpb) d.grid d.rank d.src 0

/-- The assertions for one coordinate: matrix_base.h:44-48 and those of the distribution's constructor.
(The division by `tpb` is undefined for 0.) -/
def Dist1.retileAccepts (heavy : Bool) (d : Dist1) (tpb : Int) : Bool :=
  tpb ≠ 0 && Dist1.accepts heavy d.size d.blockSize (cdiv d.blockSize tpb) d.grid d.rank d.src 0
    && d.blockSize = d.tileSize

/-- One iteration of the loops of matrix.h:586-596 along one coordinate: original tile, position in it,
index of the new tile, size of the new tile. -/
structure RetileEntry where
  orig : Int
  el : Int
  idx : Int
  sz : Int
deriving DecidableEq, Repr

/-- The values of `i` in `for (i = 0; i < n; i += s)`. -/
def stepValues (n s : Int) : List Int :=
  (List.range (ceilDiv n s).toNat).map fun k : Nat => (k : Int) * s

/-- The iterations inside original tile `orig`, matrix.h:587-596. -/
def retileEntries (d nd : Dist1) (tpb orig : Int) : List RetileEntry :=
  (stepValues (d.global_tile_size_of (d.global_tile_from_local_tile orig)) nd.tileSize).map fun i =>
    let idx := orig * tpb + cdiv i nd.tileSize
    ⟨orig, i, idx, nd.global_tile_size_of (nd.global_tile_from_local_tile idx)⟩

/-- The sub-tile specs and the new indices for original tile (oi, oj), in loop order `for j for i`,
matrix.h:589-596. -/
def retileSpecs (d nd : Distribution) (tpb : Coord2) (o : Nat × Nat) :
    List (Coord2 × SubTileSpec) :=
  (retileEntries d.col nd.col tpb.col o.2).flatMap fun ce =>
    (retileEntries d.row nd.row tpb.row o.1).map fun re =>
      (⟨re.idx, ce.idx⟩, ⟨⟨re.el, ce.el⟩, ⟨re.sz, ce.sz⟩⟩)

/-- The assignments (linear index in the new tile vector, tile) made for one original tile,
matrix.h:598-611; `none` = assertion failure. -/
def retileOne (moderate : Bool) (m : MatrixMem) (d nd : Distribution) (tpb : Coord2) (o : Nat × Nat) :
    Option (List (Int × Tile)) :=
  (m.tiles[(tile_linear_index d o.1 o.2).toNat]?).bind fun t =>
    let specs := retileSpecs d nd tpb o
    (splitTileDisjoint moderate t (specs.map (·.2))).map fun us =>
      ((specs.map fun s => tile_linear_index nd s.1.row s.1.col).zip us)

/-- All the assignments, over the original tiles in order, matrix.h:585-615. -/
def retileAssign (moderate : Bool) (m : MatrixMem) (d nd : Distribution) (tpb : Coord2) :
    Option (List (Int × Tile)) :=
  (mapOpt (retileOne moderate m d nd tpb) (localTiles d)).map List.flatten

/-- The tile left in slot `k`: the last one assigned (each assignment is a write access to the
pipeline of slot `k`), none if the slot keeps its empty placeholder (matrix.h:571-574). -/
def lastAssigned (l : List (Int × Tile)) (k : Int) : Option Tile :=
  ((l.filter fun a => a.1 = k).getLast?).map (·.2)

/-- Address of local element (i, j) through the retiled view. -/
def retiledAddr (l : List (Int × Tile)) (nd : Distribution) (i j : Int) : Option (ChunkId × Int) :=
  (lastAssigned l (tile_linear_index nd (nd.row.local_tile_from_local_element i)
      (nd.col.local_tile_from_local_element j))).map fun t =>
    t.addr (nd.row.tile_element_from_local_element i) (nd.col.tile_element_from_local_element j)

end DLAF
