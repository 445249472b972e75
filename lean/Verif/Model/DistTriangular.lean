import Verif.Model.DistAlg
import Verif.Model.Triangular
/-
Model of the distributed triangular multiplication, include/dlaf/multiplication/triangular/impl.h:400-725, and of the distributed triangular
solver for `op = NoTrans`, include/dlaf/solver/triangular/impl.h:481-575, 664-755, 845-936, 1026-1118, for matrices without offset.
Matrices: 0 = A, 1 = B.  Panels: 0 = `a_panels`, 1 = `b_panels`.

The eight functions have the same form; they differ in what is in `TriAlg`.

Simplification: `bt_offset` is computed with `distr_b` in the solver and with `distr_a` in the multiplication.  The model uses `distr_b`;
the theorems assume that both agree.
-/
namespace DLAF
variable {K : Type*}

/-- One of the functions. -/
structure TriAlg (K : Type*) where
  /-- `a_panels` are `Panel<axis>`, `b_panels` are `Panel<orthogonal(axis)>`: `Col` for the left variants, `Row` for the right ones. -/
  axis : Coord
  /-- The panel of A has the tiles `k, k + 1, ...` of line `k`; otherwise the tiles `0, ..., k`. -/
  lower : Bool
  /-- The loop over `k` is increasing. -/
  up : Bool
  /-- The loops over the tiles of a line of B are increasing. -/
  jUp : Bool
  /-- (`accum = false`) The tile of B is put into the panel before it is changed (multiplication) or after (solver). -/
  linkFirst : Bool
  /-- (`accum = false`) The last iteration stops after the tiles of line `k` of B (solver). -/
  skipLast : Bool
  /-- The panel of B accumulates contributions to line `k` (solver with a transposed `op`) instead of holding the tiles of line `k`. -/
  accum : Bool
  /-- Task on a tile of line `k` of B, with the tile `(k, k)` of A. -/
  diag : Blk K → Blk K → Option (Blk K)
  /-- Task on a tile of the trailing matrix, with a tile of the panel of A and a tile of the panel of B. -/
  upd : Blk K → Blk K → Blk K → Option (Blk K)

namespace TriAlg
section
variable (t : TriAlg K) (dbg : Bool) (junk : Int → Nat → Nat → Nat → K) (da db : Distribution) (k : Int)

/-- The number of the iteration. -/
def iter : Int := if t.up then k else (da.get t.axis).nrTiles - 1 - k

/-- Range and extent of the panels, tiles of A: multiplication impl.h:435-449, solver impl.h:520-534. The tiles of the panel that are not set
but in its range (`lower = false`) hold uninitialized memory, which is broadcast. -/
def prep : List (DSt K → Option (DSt K)) :=
  let RA := DSt.panel 0 (t.iter da k)
  let RB := DSt.panel 1 (t.iter da k)
  let kc := (da.get t.axis).next_local_tile_from_global_tile k
  (if t.lower then [RA.upd fun v => v.setRangeStart dbg k] else []) ++
  (if k = (da.get t.axis).nrTiles - 1 then [RA.upd fun v => v.setDim dbg ((da.get t.axis.orth).global_tile_size_of k),
    RB.upd fun v => v.setDim dbg ((da.get t.axis).global_tile_size_of k)] else []) ++
  (if (da.get t.axis).rank_global_tile k = (da.get t.axis).rank then
    (if t.lower then irange ((da.get t.axis.orth).next_local_tile_from_global_tile k) (da.get t.axis.orth).localNrTiles
      else (irange 0 ((da.get t.axis.orth).next_local_tile_from_global_tile (k + 1))).reverse).map fun i =>
        DSt.link RA dbg i 0 (tileAt t.axis i kc) else []) ++
  (if (da.get t.axis).rank_global_tile k = (da.get t.axis).rank ∧ t.lower = false then
    [RA.upd fun v => some (v.fill (junk k))] else [])

/-- The tile `j` of line `k` of B: multiplication impl.h:453-461, solver impl.h:538-548. -/
def diagTile (j : Int) : List (DSt K → Option (DSt K)) :=
  let kl := (db.get t.axis.orth).local_tile_from_global_tile k
  let task : DSt K → Option (DSt K) := fun s => ((DSt.panel 0 (t.iter da k)).read dbg kl s).bind fun sa =>
    DSt.task 1 (tileAt t.axis kl j) (t.diag sa.2) sa.1
  if (da.get t.axis.orth).rank_global_tile k = (da.get t.axis.orth).rank then
    if t.linkFirst then [DSt.link (DSt.panel 1 (t.iter da k)) dbg j 1 (tileAt t.axis kl j), task]
    else [task, DSt.link (DSt.panel 1 (t.iter da k)) dbg j 1 (tileAt t.axis kl j)]
  else []

/-- The local tiles of the trailing matrix along the panel of A: multiplication impl.h:466, solver impl.h:555. -/
def trailing : List Int :=
  if t.lower then irange ((db.get t.axis.orth).next_local_tile_from_global_tile (k + 1)) (da.get t.axis.orth).localNrTiles
  else (irange 0 ((db.get t.axis.orth).next_local_tile_from_global_tile k)).reverse

/-- Update of the trailing matrix: multiplication impl.h:466-475, solver impl.h:555-571. -/
def update : List (DSt K → Option (DSt K)) :=
  (t.trailing da db k).flatMap fun i => (dirRange t.jUp 0 (db.get t.axis).localNrTiles).map fun j => fun s =>
    ((DSt.panel 0 (t.iter da k)).read dbg i s).bind fun sa => ((DSt.panel 1 (t.iter da k)).read dbg j sa.1).bind fun sb =>
      DSt.task 1 (tileAt t.axis i j) (t.upd sa.2 sb.2) sb.1

/-- The rest of the iteration after the tiles of line `k` of B. -/
def rest : List (Instr (DSt K) (Blk K)) :=
  bcastPanel dbg t.axis.orth db ((da.get t.axis.orth).rank_global_tile k) (DSt.panel 1 (t.iter da k)) 0 (db.get t.axis).nrTiles ++
  (t.update dbg da db k).map Instr.loc ++
  [.loc fun s => (DSt.panel 0 (t.iter da k)).upd (fun v => some v.reset) s, .loc fun s => (DSt.panel 1 (t.iter da k)).upd (fun v => some v.reset) s]

/-- Is it the iteration in which the trailing matrix is empty, solver impl.h:551, 727, 910, 1092. -/
def isLast : Bool := if t.lower then k = (da.get t.axis).nrTiles - 1 else k = 0

/-- Iteration `k`. -/
def step : List (Instr (DSt K) (Blk K)) :=
  (t.prep dbg junk da k).map Instr.loc ++
  bcastPanel dbg t.axis da ((da.get t.axis).rank_global_tile k) (DSt.panel 0 (t.iter da k)) (if t.lower then k else 0) (da.get t.axis.orth).nrTiles ++
  ((dirRange t.jUp 0 (db.get t.axis).localNrTiles).flatMap fun j => t.diagTile dbg da db k j).map Instr.loc ++
  (if t.skipLast && t.isLast da k then [] else t.rest dbg da db k)

/-- The function. -/
def prog : List (Instr (DSt K) (Blk K)) :=
  if db.row.size = 0 ∨ db.col.size = 0 then []
  else (dirRange t.up 0 (da.get t.axis).nrTiles).flatMap fun k => t.step dbg junk da db k

/-- The state of a process at the start: its tiles of the matrices and the workspaces. -/
def init (a b : Coord2 → Blk K) : Option (DSt K) :=
  (mkPanels t.axis da).bind fun pa => (mkPanels t.axis.orth db).map fun pb =>
    ⟨fun n => if n = 0 then a else b, fun n => if n = 0 then pa else pb⟩

end
end TriAlg

variable [Field K] [StarRing K]

/-- `triangular_multiplication(grid, side, uplo, op, diag, alpha, mat_a, mat_b)`, multiplication/triangular.h:124-182: `call_LLN` impl.h:400-480,
`call_LUN` 482-561, `call_RLN` 563-643, `call_RUN` 645-725; the other operations are not implemented (the call aborts).
Kernels impl.h:38-57, 80-99, 122-141, 164-183. -/
def distMultAlg (s : Side) (u : Uplo) (o : BlasOp) (d : Diag) (alpha : K) : Option (TriAlg K) :=
  match s, u, o with
  | .Left, .Lower, .NoTrans => some ⟨.Col, true, false, true, true, false, false, trmm .Left .Lower .NoTrans d alpha,
      fun x y z => gemm .NoTrans .NoTrans alpha x y 1 z⟩
  | .Left, .Upper, .NoTrans => some ⟨.Col, false, true, true, true, false, false, trmm .Left .Upper .NoTrans d alpha,
      fun x y z => gemm .NoTrans .NoTrans alpha x y 1 z⟩
  | .Right, .Lower, .NoTrans => some ⟨.Row, false, true, true, true, false, false, trmm .Right .Lower .NoTrans d alpha,
      fun x y z => gemm .NoTrans .NoTrans alpha y x 1 z⟩
  | .Right, .Upper, .NoTrans => some ⟨.Row, true, false, false, true, false, false, trmm .Right .Upper .NoTrans d alpha,
      fun x y z => gemm .NoTrans .NoTrans alpha y x 1 z⟩
  | _, _, _ => none

/-- `triangular_solver(grid, side, uplo, NoTrans, diag, alpha, mat_a, mat_b)`, solver/triangular.h:84-146: `call_LLN` impl.h:481-575,
`call_LUN` 664-755, `call_RLN` 845-936, `call_RUN` 1026-1118.  `beta` is `T(-1.0) / alpha`. -/
def distSolveAlg (lp : Lapack K) (s : Side) (u : Uplo) (d : Diag) (alpha beta : K) : TriAlg K :=
  match s, u with
  | .Left, .Lower => ⟨.Col, true, true, true, false, true, false, lp.tileTrsm .Left .Lower .NoTrans d alpha,
      fun x y z => gemm .NoTrans .NoTrans beta x y 1 z⟩
  | .Left, .Upper => ⟨.Col, false, false, false, false, true, false, lp.tileTrsm .Left .Upper .NoTrans d alpha,
      fun x y z => gemm .NoTrans .NoTrans beta x y 1 z⟩
  | .Right, .Lower => ⟨.Row, false, false, false, false, true, false, lp.tileTrsm .Right .Lower .NoTrans d alpha,
      fun x y z => gemm .NoTrans .NoTrans beta y x 1 z⟩
  | .Right, .Upper => ⟨.Row, true, true, true, false, true, false, lp.tileTrsm .Right .Upper .NoTrans d alpha,
      fun x y z => gemm .NoTrans .NoTrans beta y x 1 z⟩

/-- The workspaces of both functions: `a_panels` are `Panel<Coord::Col>` for `side = Left` (multiplication impl.h:419-420, solver impl.h:504-505)
and `Panel<Coord::Row>` for `side = Right` (multiplication impl.h:582-583, solver impl.h:866-867), `b_panels` the other kind. -/
def distTriInit (s : Side) (da db : Distribution) (a b : Coord2 → Blk K) : Option (DSt K) :=
  (mkPanels (match s with | .Left => .Col | .Right => .Row) da).bind fun pa => (mkPanels (match s with | .Left => .Row | .Right => .Col) db).map fun pb =>
    ⟨fun n => if n = 0 then a else b, fun n => if n = 0 then pa else pb⟩

/-- `triangular_multiplication(grid, side, uplo, op, diag, alpha, mat_a, mat_b)`: the program of one process.  `op ≠ NoTrans` aborts
(`DLAF_UNIMPLEMENTED`, multiplication/triangular.h:147, 157, 171, 181). -/
def distTriMult (dbg : Bool) (junk : Int → Nat → Nat → Nat → K) (s : Side) (u : Uplo) (o : BlasOp) (d : Diag) (alpha : K) (da db : Distribution) :
    List (Instr (DSt K) (Blk K)) :=
  match distMultAlg s u o d alpha with
  | some t => t.prog dbg junk da db
  | none => [.loc fun _ => none]

end DLAF
