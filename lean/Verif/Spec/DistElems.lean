import Verif.Spec.Spmd
import Verif.Model.Kernels
/- Specification: a matrix of elements stored in the local tiles of the processes of a grid (any valid distribution, with
or without offset). -/
namespace DLAF
variable {K : Type*}

/-- The local tiles `tile r` of the processes store the matrix `A`: a local tile has the size of its global tile, and its
element `(a, b)` is the element of `A` that many rows and columns after the beginning of the global tile. -/
def StoresElems (P : Params2) (A : Int → Int → K) (tile : Coord2 → Coord2 → Blk K) : Prop :=
  ∀ r ∈ P.ranks, ∀ li lj : Nat, (li : Int) < (P.on r).row.localNrTiles → (lj : Int) < (P.on r).col.localNrTiles →
    let ti := (P.on r).row.global_tile_from_local_tile li
    let tj := (P.on r).col.global_tile_from_local_tile lj
    ((tile r ⟨li, lj⟩).rows : Int) = P.row.dist.global_tile_size_of ti ∧
    ((tile r ⟨li, lj⟩).cols : Int) = P.col.dist.global_tile_size_of tj ∧
    ∀ a b : Nat, a < (tile r ⟨li, lj⟩).rows → b < (tile r ⟨li, lj⟩).cols →
      (tile r ⟨li, lj⟩).e a b = A (P.row.tileBegin ti + a) (P.col.tileBegin tj + b)

/-- The tiles of one process store the matrix `A`. -/
def StoresAt (P : Params2) (A : Int → Int → K) (r : Coord2) (t : Coord2 → Blk K) : Prop :=
  ∀ li lj : Nat, (li : Int) < (P.on r).row.localNrTiles → (lj : Int) < (P.on r).col.localNrTiles →
    let ti := (P.on r).row.global_tile_from_local_tile li
    let tj := (P.on r).col.global_tile_from_local_tile lj
    ((t ⟨li, lj⟩).rows : Int) = P.row.dist.global_tile_size_of ti ∧
    ((t ⟨li, lj⟩).cols : Int) = P.col.dist.global_tile_size_of tj ∧
    ∀ a b : Nat, a < (t ⟨li, lj⟩).rows → b < (t ⟨li, lj⟩).cols →
      (t ⟨li, lj⟩).e a b = A (P.row.tileBegin ti + a) (P.col.tileBegin tj + b)

/-- A valid distribution of the rows and columns. -/
def Params2.Valid (P : Params2) : Prop := P.row.Valid ∧ P.col.Valid

instance Params2.decValid (P : Params2) : Decidable P.Valid := by unfold Params2.Valid; infer_instance

end DLAF
