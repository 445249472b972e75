import Verif.Model.Deflate
import Verif.Model.Panel
import Verif.Model.Spmd
/-
Model of the distributed `applyGivensRotationsToMatrixColumns`, include/dlaf/eigensolver/tridiag_solver/rot.h:203-396 (CPU path), with `TileCollector`,
eigensolver/tridiag_solver/tile_collector.h:25-65.

The columns are accessed through raw pointers; the matrix is in column-major layout (documented precondition, rot.h:217).  So the element `k` places below an
element of a local tile is found by going down the tiles of the local tile column.  An access outside the local tiles is the outcome `none`.

Simplifications: one call with its own tag (concurrent calls use different tags, so their messages do not match each other); the order in which the two
processes of an exchange start their send and their receive is not modelled (neither waits for the other); real element type.
-/
namespace DLAF
open scoped Classical
noncomputable section

/-- What a process holds: its local tiles, and the workspace `tile_ws` (a contiguous column). -/
structure RotSt where
  a : Coord2 → Blk ℝ
  ws : Nat → ℝ

/-- A pointer into the local matrix: the local tile and the element in it. -/
structure ColPtr where
  tile : Coord2
  row : Int
  col : Int

namespace DistRot

/-- `tiles[lin]`: position `lin` in the column-by-column list of the local tiles of a range with origin `b` and extent `n` (`TileCollector::readwrite`,
tile_collector.h:29-46, 59-62, `iterate_range2d`: C09). -/
def collected (b n : Coord2) (lin : Int) : Option Coord2 :=
  if 0 ≤ lin ∧ lin < n.row * n.col then some ⟨b.row + lin % n.row, b.col + lin / n.row⟩ else none

/-- `getColPtr(col_index, true)`, rot.h:284-293; `s` is `dist_sub`, `b` and `n` describe the collected tiles. -/
def colPtr (s : Distribution) (b n : Coord2) (col : Int) : Option ColPtr :=
  (collected b n (s.local_tile_linear_index ⟨s.row.next_local_tile_from_global_element 0, s.col.next_local_tile_from_global_element col⟩)).map fun t =>
    ⟨t, s.row.tile_element_from_global_element 0, s.col.tile_element_from_global_element col⟩

/-- The local tile and the row in it of the element `k` places below a pointer, in column-major layout with local row tiles of `nb` rows. -/
def below (nb : Int) (p : ColPtr) (k : Nat) : Coord2 × Int := (⟨p.tile.row + (p.row + k) / nb, p.tile.col⟩, (p.row + k) % nb)

/-- The first `m` elements from a pointer on; `none`: outside the local matrix. -/
def readCol (d : Distribution) (m : Nat) (p : ColPtr) (s : RotSt) : Option (Nat → ℝ) :=
  if ∀ k < m, (below d.row.tileSize p k).1.row < d.row.localNrTiles ∧ (below d.row.tileSize p k).2 < (s.a (below d.row.tileSize p k).1).rows ∧
      p.col < (s.a (below d.row.tileSize p k).1).cols then
    some fun k => (s.a (below d.row.tileSize p k).1).e (below d.row.tileSize p k).2.toNat p.col.toNat
  else none

/-- Overwrite the first `m` elements from a pointer on with `f`. -/
def writeCol (d : Distribution) (m : Nat) (p : ColPtr) (f : Nat → ℝ) (s : RotSt) : RotSt :=
  { s with a := fun t => { s.a t with e := fun x y =>
      let k := (t.row - p.tile.row) * d.row.tileSize + x - p.row
      if t.col = p.tile.col ∧ (y : Int) = p.col ∧ 0 ≤ k ∧ k < m then f k.toNat else (s.a t).e x y } }

/-- The two columns after `blas::rot(m, x, 1, y, 1, c, s)`. -/
def rotX (r : Rot) (x y : Nat → ℝ) : Nat → ℝ := fun k => r.c * x k + r.s * y k
@[inherit_doc rotX] def rotY (r : Rot) (x y : Nat → ℝ) : Nat → ℝ := fun k => r.c * y k - r.s * x k

/-- Both columns on the process: rot.h:354-362. -/
def rotBoth (d : Distribution) (m : Nat) (px py : Option ColPtr) (r : Rot) (s : RotSt) : Option RotSt :=
  px.bind fun px => py.bind fun py => (readCol d m px s).bind fun x => (readCol d m py s).map fun y =>
    writeCol d m py (rotY r x y) (writeCol d m px (rotX r x y) s)

/-- Column x on the process, column y in the workspace: rot.h:354-362. -/
def rotOwnX (d : Distribution) (m : Nat) (px : Option ColPtr) (r : Rot) (s : RotSt) : Option RotSt :=
  px.bind fun px => (readCol d m px s).map fun x =>
    { writeCol d m px (rotX r x s.ws) s with ws := fun k => if k < m then rotY r x s.ws k else s.ws k }

/-- Column y on the process, column x in the workspace: rot.h:354-362. -/
def rotOwnY (d : Distribution) (m : Nat) (py : Option ColPtr) (r : Rot) (s : RotSt) : Option RotSt :=
  py.bind fun py => (readCol d m py s).map fun y =>
    { writeCol d m py (rotY r s.ws y) s with ws := fun k => if k < m then rotX r s.ws y k else s.ws k }

/-- `sendCol` of the own column, rot.h:47-56, 319-320. -/
def sendCol (d : Distribution) (m : Nat) (p : Option ColPtr) (s : RotSt) : Option (RotSt × Blk ℝ) :=
  p.bind fun p => (readCol d m p s).map fun x => (s, ⟨m, 1, fun k _ => x k⟩)

/-- `recvCol` into the workspace of `wsz` elements, rot.h:58-66, 321-322; MPI requires a message of the expected length. -/
def recvCol (m : Nat) (wsz : Int) (s : RotSt) (v : Blk ℝ) : Option RotSt :=
  if v.rows = m ∧ (m : Int) ≤ wsz then some { s with ws := fun k => if k < m then v.e k 0 else s.ws k } else none

/-- The exchange with the partner: rot.h:310-324; the two processes of row `row` in the columns `a` and `b`. -/
def exchange (d : Distribution) (m : Nat) (wsz : Int) (p : Option ColPtr) (row a b partner : Int) : List (Instr RotSt (Blk ℝ)) :=
  [.post (.pair row (min a b) (max a b)) (sendCol d m p),
   .take (.pair row (min a b) (max a b)) .exchange [⟨row, partner⟩] (recvOne (recvCol m wsz))]

/-- One iteration of the loop over the rotations, rot.h:297-379. -/
def rotate (d s : Distribution) (b n : Coord2) (wsz : Int) (r : Rot) : List (Instr RotSt (Blk ℝ)) :=
  let mb := d.row.tileSize
  let m := s.row.localSize.toNat
  let rankX := s.col.rank_global_tile (cdiv r.i mb)
  let rankY := s.col.rank_global_tile (cdiv r.j mb)
  let px := colPtr s b n r.i
  let py := colPtr s b n r.j
  if s.col.rank = rankX then
    if s.col.rank = rankY then [.loc (rotBoth d m px py r)]
    else exchange d m wsz px s.row.rank rankX rankY rankY ++ [.loc (rotOwnX d m px r)]
  else if s.col.rank = rankY then exchange d m wsz py s.row.rank rankX rankY rankX ++ [.loc (rotOwnY d m py r)]
  else []

/-- The workspace: `Panel<Coord::Col>(dist_ws, {i_begin, i_begin})`, rot.h:381-386; the number of its local elements.  `none`: an assertion fails, or the panel has no local tile (`all_ws[0]`). -/
def workspace (d : Distribution) (limit ib : Int) : Option Int :=
  (Distribution.create true ⟨limit, 1⟩ ⟨d.row.tileSize, d.col.tileSize⟩ ⟨d.row.tileSize, d.col.tileSize⟩ ⟨d.row.grid, d.col.grid⟩ ⟨d.row.rank, d.col.rank⟩
    ⟨d.row.src, d.col.src⟩ ⟨0, 0⟩).bind fun dw =>
  (Panel.create dw.row dw.col.tileSize ib : Option (Panel Unit)).bind fun p => if p.startLocal < p.stopLocal then some p.data.size else none

/-- `applyGivensRotationsToMatrixColumns`, rot.h:218-396, with `dist` = `d`. -/
def program (d : Distribution) (ib ie : Int) (rots : List Rot) : List (Instr RotSt (Blk ℝ)) :=
  let mb := d.row.tileSize
  let limit := min d.row.size (ie * mb)
  let len := limit - ib * mb
  let b : Coord2 := ⟨d.row.next_local_tile_from_global_tile ib, d.col.next_local_tile_from_global_tile ib⟩
  let e : Coord2 := ⟨d.row.next_local_tile_from_global_tile ie, d.col.next_local_tile_from_global_tile ie⟩
  if e.row - b.row ≠ 0 ∧ e.col - b.col ≠ 0 then
    match Distribution.create true ⟨len, len⟩ ⟨d.row.tileSize, d.col.tileSize⟩ ⟨d.row.tileSize, d.col.tileSize⟩ ⟨d.row.grid, d.col.grid⟩
        ⟨d.row.rank, d.col.rank⟩ ⟨d.row.rank_global_tile ib, d.col.rank_global_tile ib⟩ ⟨0, 0⟩, workspace d limit ib with
    | some s, some wsz => rots.flatMap (rotate d s b ⟨e.row - b.row, e.col - b.col⟩ wsz)
    | _, _ => [.loc fun _ => none]
  else []

end DistRot
end
end DLAF
