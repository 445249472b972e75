import Verif.Model.Data
/-
Model of include/dlaf/matrix/matrix_ref.h: sub-matrix references.
-/
namespace DLAF

/-- `MatrixRef`, matrix_ref.h:38, 126-130 (members `distribution`, `mat_const_`/`mat_`, `origin_`). -/
structure MatrixRefObj where
  parent : MatrixObj
  origin : Coord2
  dist : Distribution

/-- Constructors, matrix_ref.h:58-60, 198-199 (and 65, 204 with the whole matrix); `none` = an assertion of the
sub-distribution constructor aborts. -/
def MatrixRefObj.create (a : MatrixObj) (origin size : Coord2) : Option MatrixRefObj :=
  (a.dist.sub origin size).map fun d => ⟨a, origin, d⟩

/-- `Matrix::read/readwrite(GlobalTileIndex)`, matrix.h:158-160, 394-396 with the precondition "stored in
the current process" (`tile_linear_index` checks the local index in Debug builds only; `none` here). -/
def MatrixObj.globalTile (a : MatrixObj) (ij : Coord2) : Option TileRef :=
  let l := a.dist.local_tile_index ij
  if (0 ≤ l.row ∧ l.row < a.dist.row.localNrTiles) ∧ (0 ≤ l.col ∧ l.col < a.dist.col.localNrTiles) then
    a.tileAt l.row l.col
  else none

/-- The tile behind `read/readwrite(GlobalTileIndex)`, matrix_ref.h:94-118, 149-170, 229-250. -/
def MatrixRefObj.globalTile (r : MatrixRefObj) (ij : Coord2) : Option TileRef :=
  if (0 ≤ ij.row ∧ ij.row < r.dist.row.nrTiles) ∧ (0 ≤ ij.col ∧ ij.col < r.dist.col.nrTiles) then
    let parent_index : Coord2 :=
      ⟨r.parent.dist.row.global_tile_from_sub_distribution r.origin.row ij.row,
       r.parent.dist.col.global_tile_from_sub_distribution r.origin.col ij.col⟩
    (r.parent.globalTile parent_index).bind fun t =>
      let parent_tile_size := r.parent.dist.tile_size_of parent_index
      let tile_size := r.dist.tile_size_of ij
      if parent_tile_size = tile_size then some t
      else
        let ij_tile : Coord2 :=
          ⟨r.parent.dist.row.tile_element_offset_from_sub_distribution r.origin.row ij.row,
           r.parent.dist.col.tile_element_offset_from_sub_distribution r.origin.col ij.col⟩
        (t.tile.subTile ⟨ij_tile, tile_size⟩).map fun u => ⟨t.obj, u⟩
  else none

/-- The tile behind `read/readwrite(LocalTileIndex)`, matrix_ref.h:84-88, 139-143, 219-223. -/
def MatrixRefObj.localTile (r : MatrixRefObj) (ij : Coord2) : Option TileRef :=
  r.globalTile (r.dist.global_tile_index_of_local ij)

end DLAF
