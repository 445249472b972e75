import Verif.Model.DistAssembleZ
import Verif.Model.DivConq
/-
Model of the first part of the distributed divide & conquer solver, eigensolver/tridiag_solver/impl.h:430-450: `set0`, `cuppensDecomposition` (impl.h:78-100) and
`solveDistLeaf` (impl.h:300-329).

Every process stores all of `tridiag`: the functions `d` and `e` of its two columns, in tiles of the tile size of the eigenvectors, and its part `q` of the eigenvectors (`e0`).
-/
namespace DLAF
namespace DistLeaf

structure DLSt where
  d : Nat → ℝ
  e : Nat → ℝ
  q : LocE ℝ

/-- A tile of `tridiag`: size and both columns. -/
abbrev Tri := Nat × (Nat → ℝ) × (Nat → ℝ)

noncomputable section
/- `junk i`: what `stedc` leaves in the second column of tile `i` (LAPACK: it is destroyed). -/
variable (P : DcPar) (junk : Nat → Nat → ℝ) (s : Distribution)

/-- `stedcAsync` of tile `i`, impl.h:311, tile_extensions: eigenvalues in the first column of `tridiag`, eigenvectors in the diagonal tile. -/
def stedcTile (i : Int) (st : DLSt) : DLSt :=
  let b := DistZ.zBegin s i
  let len := DistZ.zLen s i
  let r := P.stedc len (shF st.d b) (shF st.e b)
  let x := s.row.local_element_from_local_tile_and_tile_element (s.row.local_tile_from_global_tile i) 0
  let y := s.col.local_element_from_local_tile_and_tile_element (s.col.local_tile_from_global_tile i) 0
  { d := putF st.d b len r.1
    e := putF st.e b len (junk b)
    q := fun u v => if (x ≤ u ∧ u < x + len) ∧ (y ≤ v ∧ v < y + len) then r.2 (u - x).toNat (v - y).toNat else st.q u v }

/-- One diagonal tile, impl.h:308-327. -/
def leafTile (i : Int) : List (Instr DLSt Tri) :=
  let ii : Coord2 := ⟨s.row.rank_global_tile i, s.col.rank_global_tile i⟩
  let b := DistZ.zBegin s i
  let len := DistZ.zLen s i
  let ch := Chan.full s.col.grid
  let root := ii.row * s.col.grid + ii.col
  if ii = ⟨s.row.rank, s.col.rank⟩ then
    [.loc fun st => some (stedcTile P junk s i st)] ++
    (if 1 < s.row.grid * s.col.grid then bcastSend ch root fun st => some (st, (len, shF st.d b, shF st.e b)) else [])
  else
    bcastRecv ch root fun st v =>
      if v.1 = len then some { st with d := putF st.d b len v.2.1, e := putF st.e b len v.2.2 } else none

/-- `solveDistLeaf`, impl.h:300-329. -/
def solveDistLeaf : List (Instr DLSt Tri) := (irange 0 s.row.nrTiles).flatMap (leafTile P junk s)

/-- `set0` of the local part, matrix/matrix.h (util). -/
def setZero (st : DLSt) : DLSt := { st with q := fun u v => if (0 ≤ u ∧ u < s.row.localSize) ∧ (0 ≤ v ∧ v < s.col.localSize) then 0 else st.q u v }

/-- The start of the solver, impl.h:430-450 (`nb`, `m`: tile size and order). -/
def distStart (nb m : Nat) : List (Instr DLSt Tri) :=
  [.loc fun st => some (setZero s st)] ++
  [.loc fun st => some { st with d := (upto 1 (ceilDivN m nb)).foldl (fun d i => cuppens nb m st.e i d) st.d }] ++
  solveDistLeaf P junk s

end
end DistLeaf
end DLAF
