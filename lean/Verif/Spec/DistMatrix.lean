import Verif.Spec.Spmd
import Verif.Spec.Kernels
/- Specification: a tiled matrix stored over the processes of a grid. -/
namespace DLAF
variable {K : Type*}

/-- The tile sizes of a distribution, as natural numbers. -/
def Params.tileSizes (p : Params) (i : Nat) : Nat := (p.dist.global_tile_size_of i).toNat

/-- Process `r` holds its tiles of the matrix `m` of `nr` x `nc` tiles: its local tile with the local indices of the
global tile `(i, j)` is `m (i, j)`, for every tile it owns. -/
def HoldsTiles (P : Params2) (nr nc : Nat) (r : Coord2) (m : Tiles K) (loc : Coord2 → Blk K) : Prop :=
  ∀ i < nr, ∀ j < nc, P.row.dist.rank_global_tile (i : Nat) = r.row → P.col.dist.rank_global_tile (j : Nat) = r.col →
    loc ⟨(P.at' .Row r).dist.local_tile_from_global_tile i, (P.at' .Col r).dist.local_tile_from_global_tile j⟩ = m (i, j)

/-- A square matrix in square tiles, distributed without offset and with one tile per block. -/
structure SquareDist (P : Params2) : Prop where
  row : Plain P.row
  col : Plain P.col
  size : P.row.size = P.col.size
  tile : P.row.tile = P.col.tile

instance (P : Params2) : Decidable (SquareDist P) :=
  decidable_of_iff (Plain P.row ∧ Plain P.col ∧ P.row.size = P.col.size ∧ P.row.tile = P.col.tile)
    ⟨fun h => ⟨h.1, h.2.1, h.2.2.1, h.2.2.2⟩, fun h => ⟨h.row, h.col, h.size, h.tile⟩⟩

/-- The number of tiles per row and column. -/
def Params2.nt (P : Params2) : Nat := P.row.dist.nrTiles.toNat

end DLAF
