import Verif.Spec.DistMatrix
/- Specification: a matrix and a vector of elements stored in the local tiles of a process. -/
namespace DLAF
variable {K : Type*}

/-- Process `r` holds its tiles of the matrix `M`: for every global tile `(i, j)` of the process, the local tile with the local indices of `(i, j)` has the size of
the global tile, and its element `(x, y)` is the element of `M` that many rows and columns after the first element of the tile. -/
def HoldsElems (P : Params2) (r : Coord2) (M : Nat → Nat → K) (loc : Coord2 → Blk K) : Prop :=
  ∀ i < P.row.dist.nrTiles.toNat, ∀ j < P.col.dist.nrTiles.toNat,
    P.row.dist.rank_global_tile (i : Nat) = r.row → P.col.dist.rank_global_tile (j : Nat) = r.col →
    let t := loc ⟨(P.at' .Row r).dist.local_tile_from_global_tile i, (P.at' .Col r).dist.local_tile_from_global_tile j⟩
    t.rows = P.row.tileSizes i ∧ t.cols = P.col.tileSizes j ∧
      ∀ x < t.rows, ∀ y < t.cols, t.e x y = M (i * P.row.tile.toNat + x) (j * P.col.tile.toNat + y)

/-- The process with rank `q` holds its tiles of the vector `v`, distributed with `p`. -/
def HoldsVec (p : Params) (q : Int) (v : Nat → K) (loc : Int → Blk K) : Prop :=
  ∀ i < p.dist.nrTiles.toNat, p.dist.rank_global_tile (i : Nat) = q →
    let t := loc ((p.onRank q).dist.local_tile_from_global_tile i)
    t.rows = p.tileSizes i ∧ t.cols = 1 ∧ ∀ x < t.rows, t.e x 0 = v (i * p.tile.toNat + x)

/-- The distribution of the scaling factors of the `n - b - 1` reflectors of the reduction of a matrix of order `n` to band width `b`: in tiles like the columns of the
matrix, on the processes of the columns (reduction_to_band/impl.h:1196-1200). -/
def tausParams (p : Params) (b : Nat) : Params := { p with size := ((p.size.toNat - b - 1 : Nat) : Int) }

end DLAF
