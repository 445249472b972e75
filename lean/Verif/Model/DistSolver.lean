import Verif.Model.DistTriangular
/-
Model of the distributed triangular solver with a transposed `op`, include/dlaf/solver/triangular/impl.h:577-662 (`call_LLT`), 757-844 (`call_LUT`),
938-1025 (`call_RLT`), 1120-1205 (`call_RUT`), and of the function triangular_solver on a grid, solver/triangular.h:84-146, for matrices without offset.

In iteration `k` each process adds up, in its panel of B, the contributions of its tiles of the lines that are solved already; the panels are
reduced to the processes that hold line `k` of B, which solve for the tiles of the line.
-/
namespace DLAF
section
variable {K : Type*}

/-- `readwrite` of an index of a panel and a task on the tile, panel.h:606-621. -/
def VPanel.modify (dbg : Bool) (v : VPanel K) (idx : Int) (f : Blk K → Option (Blk K)) : Option (VPanel K) :=
  (v.p.readwrite dbg idx).bind fun r =>
    match r.2 with
    | .tile k ax co => (v.mem k).bind fun b => if VPanel.fits v.tall b ax co then (f b).bind fun c =>
        if VPanel.fits v.tall c ax co then some { v with p := r.1, mem := set1 v.mem k (some c) } else none else none
    | _ => none

variable [Field K]

/-- The tile of zeros of a panel. -/
def zeroTile (tall : Bool) (ax co : Int) : Blk K :=
  if tall then ⟨co.toNat, ax.toNat, fun _ _ => 0⟩ else ⟨ax.toNat, co.toNat, fun _ _ => 0⟩

/-- `readwrite` of an index of a panel and `tile::set0` on the tile, util_matrix.h:217-227. -/
def VPanel.set0 (dbg : Bool) (v : VPanel K) (idx : Int) : Option (VPanel K) :=
  (v.p.readwrite dbg idx).bind fun r =>
    match r.2 with
    | .tile k ax co => some { v with p := r.1, mem := set1 v.mem k (some (zeroTile v.tall ax co)) }
    | _ => none

/-- `MPI_SUM` of tiles. Simplification: in the order of the ranks (the arithmetic of the model is exact). -/
def sumBlk : List (Blk K) → Option (Blk K)
  | [] => none
  | x :: xs => xs.foldlM (fun a b => blkAdd 1 b a) x

/-- The reduction of the tiles of a panel to the processes at `root` along the axis of the panel, solver/triangular/impl.h:626-637: for every
tile of the panel `schedule_reduce_recv_in_place` (kernels/internal/reduce.h:64-102) on the root and `schedule_reduce_send` (reduce.h:104-137) on
the others.  `[st, en)` is the range of the panel. -/
def reducePanel {S : Type*} (dbg : Bool) (axis : Coord) (d : Distribution) (root : Int) (R : PRef S K) (st en : Int) :
    List (Instr S (Blk K)) :=
  let me : Coord2 := ⟨d.row.rank, d.col.rank⟩
  let ch := panelChan axis me
  let dc := d.get axis.orth
  [.loc (R.hasRange st en)] ++
  if (d.get axis).grid ≤ 1 then []
  else (irange (dc.next_local_tile_from_global_tile st) (dc.next_local_tile_from_global_tile en)).flatMap fun i =>
    [.post ch (R.read dbg i)] ++
    if (d.get axis).rank = root then
      [.take ch (.reduce root) ((irange 0 (d.get axis).grid).map ch.rankOf) fun s vs =>
        (sumBlk vs).bind fun b => R.upd (fun v => v.modify dbg i fun _ => some b) s]
    else [.take ch (.reduce root) [] fun s _ => some s]

namespace TriAlg
section
variable (t : TriAlg K) (dbg : Bool) (junk : Int → Nat → Nat → Nat → K) (da db : Distribution) (k : Int)

/-- The local tiles of B in the lines that are solved already, along the lines: impl.h:603, 783, 963, 1147 (`bt_offset`). -/
def doneLines : List Int :=
  if t.lower then irange ((db.get t.axis.orth).next_local_tile_from_global_tile (k + 1)) (db.get t.axis.orth).localNrTiles
  else irange 0 ((db.get t.axis.orth).next_local_tile_from_global_tile k)

/-- The local tiles of B in those lines, in the order of `iterate_range2d` (column by column): impl.h:620, 805, 985, 1171.
`row` is the position along the lines, `col` the position in the line. -/
def doneTiles : List Coord2 :=
  match t.axis with
  | .Col => (irange 0 (db.get t.axis).localNrTiles).flatMap fun j => (t.doneLines db k).map fun i => ⟨i, j⟩
  | .Row => (t.doneLines db k).flatMap fun i => (irange 0 (db.get t.axis).localNrTiles).map fun j => ⟨i, j⟩

/-- The contributions of the local tiles, impl.h:618-624. -/
def accumulate : List (DSt K → Option (DSt K)) :=
  (t.doneTiles db k).map fun z => fun s =>
    ((DSt.panel 0 (t.iter da k)).read dbg z.row s).bind fun sa =>
      (DSt.panel 1 (t.iter da k)).upd (fun v => v.modify dbg z.col (t.upd sa.2 (sa.1.mat 1 (tileAt t.axis z.row z.col)))) sa.1

/-- `tile::add` and `tile::trsm` on the tile `j` of line `k` of B, impl.h:640-653. -/
def solveTile (sigma : K) (j : Int) : List (DSt K → Option (DSt K)) :=
  let kl := (da.get t.axis.orth).next_local_tile_from_global_tile k
  if (da.get t.axis.orth).rank_global_tile k = (da.get t.axis.orth).rank then
    [fun s => ((DSt.panel 1 (t.iter da k)).read dbg j s).bind fun sb => DSt.task 1 (tileAt t.axis kl j) (blkAdd sigma sb.2) sb.1,
     fun s => ((DSt.panel 0 (t.iter da k)).read dbg kl s).bind fun sa => DSt.task 1 (tileAt t.axis kl j) (t.diag sa.2) sa.1]
  else []

/-- Iteration `k`. -/
def stepT (sigma : K) : List (Instr (DSt K) (Blk K)) :=
  (t.prep dbg junk da k).map Instr.loc ++
  bcastPanel dbg t.axis da ((da.get t.axis).rank_global_tile k) (DSt.panel 0 (t.iter da k)) (if t.lower then k else 0) (da.get t.axis.orth).nrTiles ++
  ((irange 0 (db.get t.axis).localNrTiles).map fun j => (DSt.panel 1 (t.iter da k)).upd fun v => v.set0 dbg j).map Instr.loc ++
  (t.accumulate dbg da db k).map Instr.loc ++
  reducePanel dbg t.axis.orth db ((da.get t.axis.orth).rank_global_tile k) (DSt.panel 1 (t.iter da k)) 0 (db.get t.axis).nrTiles ++
  ((dirRange t.jUp 0 (db.get t.axis).localNrTiles).flatMap fun j => t.solveTile dbg da k sigma j).map Instr.loc ++
  [.loc fun s => (DSt.panel 1 (t.iter da k)).upd (fun v => some v.reset) s, .loc fun s => (DSt.panel 0 (t.iter da k)).upd (fun v => some v.reset) s]

/-- The function. -/
def progT (sigma : K) : List (Instr (DSt K) (Blk K)) :=
  if db.row.size = 0 ∨ db.col.size = 0 then []
  else (dirRange t.up 0 (da.get t.axis).nrTiles).flatMap fun k => t.stepT dbg junk da db k sigma

end
end TriAlg

variable [StarRing K]

/-- `call_LLT` impl.h:577-662, `call_LUT` 757-844, `call_RLT` 938-1025, `call_RUT` 1120-1205 with the kernels impl.h:66-88, 115-137, 164-186, 213-235:
the function and the factor of `tile::add`.  `beta` is `T(-1) / alpha`; the left variants use `T(1) / alpha`. -/
def distSolveAlgT (lp : Lapack K) (s : Side) (u : Uplo) (o : BlasOp) (d : Diag) (alpha beta : K) : TriAlg K × K :=
  match s, u with
  | .Left, .Lower => (⟨.Col, true, false, true, false, false, true, lp.tileTrsm .Left .Lower o d alpha,
      fun x y z => gemm o .NoTrans (-beta) x y 1 z⟩, -1)
  | .Left, .Upper => (⟨.Col, false, true, false, false, false, true, lp.tileTrsm .Left .Upper o d alpha,
      fun x y z => gemm o .NoTrans (-beta) x y 1 z⟩, -1)
  | .Right, .Lower => (⟨.Row, false, true, false, false, false, true, lp.tileTrsm .Right .Lower o d alpha,
      fun x y z => gemm .NoTrans o beta y x 1 z⟩, 1)
  | .Right, .Upper => (⟨.Row, true, false, true, false, false, true, lp.tileTrsm .Right .Upper o d alpha,
      fun x y z => gemm .NoTrans o beta y x 1 z⟩, 1)

/-- `triangular_solver(grid, side, uplo, op, diag, alpha, mat_a, mat_b)`, solver/triangular.h:84-146: the program of one process.
`beta` is `T(-1) / alpha`. -/
def distTriSolve (dbg : Bool) (junk : Int → Nat → Nat → Nat → K) (lp : Lapack K) (s : Side) (u : Uplo) (o : BlasOp) (d : Diag) (alpha beta : K)
    (da db : Distribution) : List (Instr (DSt K) (Blk K)) :=
  match o with
  | .NoTrans => (distSolveAlg lp s u d alpha beta).prog dbg junk da db
  | _ => (distSolveAlgT lp s u o d alpha beta).1.progT dbg junk da db (distSolveAlgT lp s u o d alpha beta).2

end
end DLAF
