import Verif.Spec.DistMatrix
/- Specification: three matrices distributed over the same grid for a product. -/
namespace DLAF

/-- The tiles of `C` and the rows of `A` are distributed in the same way over the rows of the grid, those of `C` and the columns of `B` over
the columns of the grid, and `A` and `B` have the same inner tiles; one tile per block.  The matrices may have an offset: they may be parts of larger matrices (`MatrixRef`). -/
structure MulDist (PA PB PC : Params2) : Prop where
  aRow : Tiled PA.row
  aCol : Tiled PA.col
  bRow : Tiled PB.row
  bCol : Tiled PB.col
  rows : PA.row = PC.row
  cols : PB.col = PC.col
  size : PA.col.size = PB.row.size
  tile : PA.col.tile = PB.row.tile
  inner : PA.col.offset % PA.col.tile = PB.row.offset % PB.row.tile
  gridRow : PB.row.grid = PC.row.grid
  gridCol : PA.col.grid = PC.col.grid

instance (PA PB PC : Params2) [DecidableEq Params] : Decidable (MulDist PA PB PC) :=
  decidable_of_iff (Tiled PA.row ∧ Tiled PA.col ∧ Tiled PB.row ∧ Tiled PB.col ∧ PA.row = PC.row ∧ PB.col = PC.col ∧
      PA.col.size = PB.row.size ∧ PA.col.tile = PB.row.tile ∧ PA.col.offset % PA.col.tile = PB.row.offset % PB.row.tile ∧ PB.row.grid = PC.row.grid ∧ PA.col.grid = PC.col.grid)
    ⟨fun ⟨a, b, c, d, e, f, g, h, k, i, j⟩ => ⟨a, b, c, d, e, f, g, h, k, i, j⟩,
     fun ⟨a, b, c, d, e, f, g, h, k, i, j⟩ => ⟨a, b, c, d, e, f, g, h, k, i, j⟩⟩

/-- The number of tiles of a coordinate. -/
abbrev Params.ntn (p : Params) : Nat := p.dist.nrTiles.toNat

end DLAF
