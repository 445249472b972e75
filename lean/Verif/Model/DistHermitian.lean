import Verif.Model.DistSolver
import Verif.Model.Multiplication
/-
Model of the distributed Hermitian multiplication, `Hermitian::call_LL`, include/dlaf/multiplication/hermitian/impl.h:98-213, and of the function
hermitian_multiplication on a grid, multiplication/hermitian.h:28-62, for matrices without offset.
Matrices: 0 = A, 1 = B, 2 = C.  Panels: 0 = `a_panels` (`Panel<Col>`), 1 = `b_panels`, 2 = `c_panels` (`Panel<Row>`).

In iteration `l` column `l` of the lower triangle of A and row `l` of B are broadcast; every process updates its tiles of C in the rows from `l`,
and adds up in the panel of C the contributions of the rows below `l` to row `l` of C, which are then reduced to the owners of the row.
-/
namespace DLAF
variable {K : Type*} [Field K] [StarRing K]

section
variable (dbg : Bool) (alpha beta : K) (da db dc : Distribution) (l : Int)

/-- Range and width of the panels, and the tiles of A of the root, impl.h:146-160. -/
def hermPrepA : List (DSt K → Option (DSt K)) :=
  [(DSt.panel 0 l).upd fun v => v.setRangeStart dbg l] ++
  (if l = da.row.nrTiles - 1 then
    [(DSt.panel 0 l).upd fun v => v.setDim dbg (da.col.global_tile_size_of l), (DSt.panel 1 l).upd fun v => v.setDim dbg (da.col.global_tile_size_of l),
     (DSt.panel 2 l).upd fun v => v.setDim dbg (da.col.global_tile_size_of l)] else []) ++
  (if da.col.rank = da.col.rank_global_tile l then
    (irange (da.row.next_local_tile_from_global_tile l) da.row.localNrTiles).map fun i =>
      DSt.link (DSt.panel 0 l) dbg i 0 ⟨i, da.col.next_local_tile_from_global_tile l⟩ else [])

/-- The tiles of B of the root, impl.h:163-168. -/
def hermPrepB : List (DSt K → Option (DSt K)) :=
  if dc.row.rank = da.row.rank_global_tile l then
    (irange 0 db.col.localNrTiles).map fun j => DSt.link (DSt.panel 1 l) dbg j 1 ⟨dc.row.next_local_tile_from_global_tile l, j⟩ else []

/-- `iterate_range2d` of the local tiles of C in the local rows `[a, b)` (column by column). -/
def rowsTiles (a b : Int) : List Coord2 :=
  (irange 0 dc.col.localNrTiles).flatMap fun j => (irange a b).map fun i => (⟨i, j⟩ : Coord2)

/-- The factor of the tile of C in iteration `l`, impl.h:127, 205. -/
def hermBeta : K := if l = 0 then beta else 1

/-- The tiles of C in row `l`, impl.h:171-173. -/
def hermDiag : List (DSt K → Option (DSt K)) :=
  (rowsTiles dc (dc.row.next_local_tile_from_global_tile l) (dc.row.next_local_tile_from_global_tile (l + 1))).map fun z => fun s =>
    ((DSt.panel 0 l).read dbg z.row s).bind fun sa => ((DSt.panel 1 l).read dbg z.col sa.1).bind fun sb =>
      DSt.task 2 z (hemm .Left .Lower alpha sa.2 sb.2 (hermBeta beta l)) sb.1

/-- `set0` of the panel of C, impl.h:176. -/
def hermSet0 : List (DSt K → Option (DSt K)) :=
  (irange 0 dc.col.localNrTiles).map fun j => (DSt.panel 2 l).upd fun v => v.set0 dbg j

/-- The tiles of C below row `l`, and the contributions to row `l`, impl.h:178-186. -/
def hermLower : List (DSt K → Option (DSt K)) :=
  (rowsTiles dc (dc.row.next_local_tile_from_global_tile (l + 1)) dc.row.localNrTiles).flatMap fun z =>
    [fun s => ((DSt.panel 0 l).read dbg z.row s).bind fun sa => ((DSt.panel 1 l).read dbg z.col sa.1).bind fun sb =>
        DSt.task 2 z (gemm .NoTrans .NoTrans alpha sa.2 sb.2 (hermBeta beta l)) sb.1,
     fun s => ((DSt.panel 0 l).read dbg z.row s).bind fun sa =>
        (fun y => (DSt.panel 2 l).upd fun v => v.modify dbg z.col (gemm .ConjTrans .NoTrans alpha sa.2 y 1)) (sa.1.mat 1 z) sa.1]

/-- The sum of the contributions is added to row `l` of C, impl.h:197-201. -/
def hermAdd : List (DSt K → Option (DSt K)) :=
  (rowsTiles dc (dc.row.next_local_tile_from_global_tile l) (dc.row.next_local_tile_from_global_tile (l + 1))).map fun z => fun s =>
    ((DSt.panel 2 l).read dbg z.col s).bind fun sc => DSt.task 2 z (blkAdd 1 sc.2) sc.1

/-- The part for the rows below `l`, impl.h:175-202. -/
def hermBelow : List (Instr (DSt K) (Blk K)) :=
  (hermSet0 dbg dc l).map Instr.loc ++ (hermLower dbg alpha beta dc l).map Instr.loc ++
  reducePanel dbg .Row dc (da.row.rank_global_tile l) (DSt.panel 2 l) 0 dc.col.nrTiles ++
  (hermAdd dbg dc l).map Instr.loc

/-- Iteration `l`, impl.h:129-211. -/
def hermStep : List (Instr (DSt K) (Blk K)) :=
  (hermPrepA dbg da l).map Instr.loc ++
  bcastPanel dbg .Col da (da.col.rank_global_tile l) (DSt.panel 0 l) l da.row.nrTiles ++
  (hermPrepB dbg da db dc l).map Instr.loc ++
  bcastPanel dbg .Row db (da.row.rank_global_tile l) (DSt.panel 1 l) 0 db.col.nrTiles ++
  (hermDiag dbg alpha beta dc l).map Instr.loc ++
  (if l < da.col.nrTiles - 1 then hermBelow dbg alpha beta da dc l else []) ++
  [.loc fun s => (DSt.panel 0 l).upd (fun v => some v.reset) s, .loc fun s => (DSt.panel 1 l).upd (fun v => some v.reset) s,
   .loc fun s => (DSt.panel 2 l).upd (fun v => some v.reset) s]
end

/-- `Hermitian::call_LL` (distributed), impl.h:98-213, on the process with the distributions `da`, `db`, `dc`. -/
def distHermLL (dbg : Bool) (alpha beta : K) (da db dc : Distribution) : List (Instr (DSt K) (Blk K)) :=
  if db.row.size = 0 ∨ db.col.size = 0 then []
  else (irange 0 da.col.nrTiles).flatMap fun l => hermStep dbg alpha beta da db dc l

/-- `hermitian_multiplication` (distributed), hermitian.h:28-62: only `Left`, `Lower` is implemented, everything else aborts. -/
def distHermitian (s : Side) (u : Uplo) (dbg : Bool) (alpha beta : K) (da db dc : Distribution) : List (Instr (DSt K) (Blk K)) :=
  match s, u with
  | .Left, .Lower => distHermLL dbg alpha beta da db dc
  | _, _ => [.loc fun _ => none]

/-- The state of a process at the start: its tiles of the matrices and the workspaces, impl.h:116-119. -/
def distHermInit (da db dc : Distribution) (a b c : Coord2 → Blk K) : Option (DSt K) :=
  (mkPanels .Col da).bind fun pa => (mkPanels .Row db).bind fun pb => (mkPanels .Row dc).map fun pc =>
    ⟨fun n => if n = 0 then a else if n = 1 then b else c, fun n => if n = 0 then pa else if n = 1 then pb else pc⟩

end DLAF
