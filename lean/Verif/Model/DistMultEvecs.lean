import Verif.Model.DistMultiplication
import Verif.Model.SpmdLift
import Verif.Model.DistElem
/-
Model of the product of the eigenvectors in the distributed merge of two sub-problems, `multiplyEigenvectors`,
eigensolver/tridiag_solver/merge.h:1691-1804, of references to parts of a distributed matrix (`MatrixRef`) and of `copy` of references.

The part of a matrix that a process stores is the function of the local indices of its elements.
-/
namespace DLAF
variable {K : Type*}

/-- The local part of a matrix: element by local row and column. -/
abbrev LocE (K : Type*) := Int → Int → K

namespace Ref
section
variable (d : Dist1) (o n : Int)

/-- Local index (one coordinate) of the first element of the local tile `i` of the reference to `[o, o + n)`: `MatrixRef::read(LocalTileIndex)`,
matrix_ref.h:97-101 and 107-128 (the part of the tile of the parent; C27). -/
def base (i : Int) : Int :=
  let t := (d.subBuild o n).global_tile_from_local_tile i
  d.local_element_from_local_tile_and_tile_element (d.local_tile_from_global_tile (d.global_tile_from_sub_distribution o t))
    (d.tile_element_offset_from_sub_distribution o t)
/-- Its size, matrix_ref.h:113. -/
def size (i : Int) : Int := (d.subBuild o n).global_tile_size_of ((d.subBuild o n).global_tile_from_local_tile i)
end

section
variable (d : Distribution) (o n : Coord2)

/-- The local tiles of the reference with the origin `o` and size `n`, matrix_ref.h:97-128. -/
def tiles (E : LocE K) : Coord2 → Blk K := fun z =>
  ⟨(size d.row o.row n.row z.row).toNat, (size d.col o.col n.col z.col).toNat,
   fun r c => E (base d.row o.row n.row z.row + r) (base d.col o.col n.col z.col + c)⟩

/-- A tile of the local part is overwritten. -/
def putTile (E : LocE K) (x0 y0 : Int) (b : Blk K) : LocE K := fun x y =>
  if (x0 ≤ x ∧ x < x0 + b.rows) ∧ (y0 ≤ y ∧ y < y0 + b.cols) then b.e (x - x0).toNat (y - y0).toNat else E x y

/-- The local tiles of the reference. -/
def locals : List Coord2 := (irange 0 (d.col.subBuild o.col n.col).localNrTiles).flatMap fun j =>
  (irange 0 (d.row.subBuild o.row n.row).localNrTiles).map fun i => (⟨i, j⟩ : Coord2)

/-- The local part after the tiles of the reference have been written, `MatrixRef::readwrite`, matrix_ref.h:215-252. -/
def put (E : LocE K) (m : Coord2 → Blk K) : LocE K :=
  (locals d o n).foldl (fun E z => putTile E (base d.row o.row n.row z.row) (base d.col o.col n.col z.col) (m z)) E
end
end Ref

/-- The local parts of the work space matrices `e0`, `e1`, `e2` of the merge, merge.h:115-166. -/
structure EvSt (K : Type*) where
  e0 : LocE K
  e1 : LocE K
  e2 : LocE K

variable [Field K] [StarRing K] [DecidableEq K]

/-- `General::callNN` on references to parts of `e1`, `e2` and `e0`, all distributed with `d`: `MatrixRef` (matrix_ref.h:58-60, 198-199, assertions of the
sub-distribution, distribution.cpp:95-98), the work space of the call (multiplication/general/impl.h:91-93), the call. -/
def gemmRef (dbg : Bool) (d : Distribution) (oa ob oc : Coord2) (m n k : Int) : List (Instr (DSt K × EvSt K) (Blk K)) :=
  match d.sub oa ⟨m, k⟩, d.sub ob ⟨k, n⟩, d.sub oc ⟨m, n⟩ with
  | some da, some db, some dc =>
    [.loc fun s => (distGenInit da db (Ref.tiles d oa ⟨m, k⟩ s.2.e1) (Ref.tiles d ob ⟨k, n⟩ s.2.e2) (Ref.tiles d oc ⟨m, n⟩ s.2.e0)).map fun g => (g, s.2)] ++
    Instr.onFstL (distGenNN dbg 1 0 da db dc) ++
    [.loc fun s => some (s.1, { s.2 with e0 := Ref.put d oc ⟨m, n⟩ s.2.e0 (s.1.mat 2) })]
  | _, _, _ => [.loc fun _ => none]

/-- `copy(sub_e1, sub_e0)`, matrix/copy.h:82-117, for references of the same shape at the same place. -/
def copyRef (d : Distribution) (o n : Coord2) : List (Instr (DSt K × EvSt K) (Blk K)) :=
  match d.sub o n with
  | some _ => [.loc fun s => some (s.1, { s.2 with e0 := Ref.put d o n s.2.e0 (Ref.tiles d o n s.2.e1) })]
  | none => [.loc fun _ => none]

/-- `multiplyEigenvectors`, merge.h:1691-1804: `off` is `sub_offset` (the same in both coordinates), `n` the size of the sub-problem, `n1 = n_upper`,
`n2 = n_lower`, `klc = k_lc` of this process, `[a, b, c] = n_udl`. -/
def distMultEvecs (dbg : Bool) (d : Distribution) (off n n1 n2 klc a b c : Int) : List (Instr (DSt K × EvSt K) (Blk K)) :=
  match d.sub ⟨off, off⟩ ⟨n, n⟩ with
  | some dist_sub =>
    gemmRef dbg d ⟨off, off⟩ ⟨off, off⟩ ⟨off, off⟩ n1 c b ++
    gemmRef dbg d ⟨off + n1, off + a⟩ ⟨off + a, off⟩ ⟨off + n1, off⟩ n2 c (c - a) ++
    (if klc < dist_sub.col.localSize then
      let k := dist_sub.col.global_element_from_local_element klc
      copyRef d ⟨off, off + k⟩ ⟨n, n - k⟩
    else [])
  | none => [.loc fun _ => none]

end DLAF
