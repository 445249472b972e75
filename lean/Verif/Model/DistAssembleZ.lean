import Verif.Model.DistRank1
import Verif.Model.DistMultEvecs
/-
Model of the rank-one vector of the distributed merge of two sub-problems, `assembleDistZVec`, eigensolver/tridiag_solver/merge.h:1217-1250, with
`assembleRank1UpdateVectorTile`, kernels.h:100-118.

`z` is stored completely by every process, with the tile size of the eigenvectors; its element `e` is entry `e` of the function `z`.
The assertion that a tile of `z` has as many rows as the tile of the eigenvectors has columns (kernels.h:105, a heavy assertion) holds by that.
-/
namespace DLAF
namespace DistZ

/-- The work space of one process: its part of the eigenvectors `e0`, the vector `z` and the value `rho`. -/
structure DZSt where
  e0 : LocE ℝ
  z : Nat → ℝ
  rho : ℝ

noncomputable section
variable (s : Distribution) (isr i : Int)

/-- Row of tiles the entries are taken from: the last one of `Q1`, the first one of `Q2`, merge.h:1228-1231. -/
def evecsRow : Int := isr - (if i < isr then 1 else 0)

/-- First element of tile `i` of `z`. -/
def zBegin : Nat := (s.col.global_element_from_global_tile_and_tile_element i 0).toNat
/-- Its size. -/
def zLen : Nat := (s.col.global_tile_size_of i).toNat

/-- The process that owns the tile of the eigenvectors, merge.h:1236. -/
def zOwner : Coord2 := ⟨s.row.rank_global_tile (evecsRow isr i), s.col.rank_global_tile i⟩

/-- `assembleRank1UpdateVectorTile`, kernels.h:100-118: the bottom row of the tile for `Q1`, negated if `rho < 0`, the top row for `Q2`. -/
def assembleTile (st : DZSt) : DZSt :=
  let top : Prop := i < isr
  let x := s.row.local_element_from_local_tile_and_tile_element (s.row.local_tile_from_global_tile (evecsRow isr i))
    (if top then s.row.global_tile_size_of (evecsRow isr i) - 1 else 0)
  let y := s.col.local_element_from_local_tile_and_tile_element (s.col.local_tile_from_global_tile i) 0
  let sign : ℝ := if top ∧ st.rho < 0 then -1 else 1
  { st with z := fun e => if zBegin s i ≤ e ∧ e < zBegin s i + zLen s i then sign * st.e0 x (y + ((e - zBegin s i : Nat) : Int)) / Real.sqrt 2 else st.z e }

/-- One tile, merge.h:1226-1248.  The rank in the full communicator counts the processes by rows (communicator_pipeline.h:26, 85-88). -/
def zTile : List (Instr DZSt DistR1.Msg) :=
  let ch := Chan.full s.col.grid
  let root := (zOwner s isr i).row * s.col.grid + (zOwner s isr i).col
  if zOwner s isr i = ⟨s.row.rank, s.col.rank⟩ then
    [.loc fun st => some (assembleTile s isr i st)] ++
    (if 1 < s.row.grid * s.col.grid then bcastSend ch root fun st => some (st, (zLen s i, fun l => st.z (zBegin s i + l))) else [])
  else
    bcastRecv ch root fun st v =>
      if v.1 = zLen s i then some { st with z := fun e => if zBegin s i ≤ e ∧ e < zBegin s i + zLen s i then v.2 (e - zBegin s i) else st.z e } else none

/-- `assembleDistZVec`, merge.h:1217-1250. -/
def assembleZDist (ib ie : Int) : List (Instr DZSt DistR1.Msg) := (irange ib ie).flatMap (zTile s isr)

end
end DistZ
end DLAF
