import Verif.Model.DistAlg
import Verif.Model.Multiplication
/-
Model of the distributed general matrix multiplication, `General::callNN`, include/dlaf/multiplication/general/impl.h:64-150, for matrices and
sub-matrices (`MatrixRef`: distributions with an offset).  Matrices: 0 = A, 1 = B, 2 = C.  Panels: 0 = `panelsA` (`Panel<Col>`), 1 = `panelsB` (`Panel<Row>`).
-/
namespace DLAF
variable {K : Type*} [Field K] [StarRing K] [DecidableEq K]

section
variable (dbg : Bool) (alpha beta : K) (da db dc : Distribution) (k : Int)

/-- Width of the panels, and the tiles of the roots, impl.h:102-129. -/
def genPrep : List (DSt K → Option (DSt K)) :=
  let RA := DSt.panel 0 k
  let RB := DSt.panel 1 k
  (if k = 0 ∨ k = da.col.nrTiles - 1 then
    [RA.upd fun v => v.setDim dbg (da.col.global_tile_size_of k), RB.upd fun v => v.setDim dbg (da.col.global_tile_size_of k)] else []) ++
  (if da.col.rank_global_tile k = dc.col.rank then
    (irange 0 dc.row.localNrTiles).map fun i => DSt.link RA dbg i 0 ⟨i, da.col.local_tile_from_global_tile k⟩ else []) ++
  (if db.row.rank_global_tile k = dc.row.rank then
    (irange 0 dc.col.localNrTiles).map fun j => DSt.link RB dbg j 1 ⟨db.row.local_tile_from_global_tile k, j⟩ else [])

/-- Update of the local tiles of C, impl.h:138-146. -/
def genUpdate : List (DSt K → Option (DSt K)) :=
  (irange 0 dc.row.localNrTiles).flatMap fun i => (irange 0 dc.col.localNrTiles).map fun j => fun s =>
    ((DSt.panel 0 k).read dbg i s).bind fun sa => ((DSt.panel 1 k).read dbg j sa.1).bind fun sb =>
      DSt.task 2 ⟨i, j⟩ (fun c => gemm .NoTrans .NoTrans alpha sa.2 sb.2 (if k = 0 then beta else 1) c) sb.1

/-- Iteration `k`, impl.h:98-149. -/
def genStep : List (Instr (DSt K) (Blk K)) :=
  (genPrep dbg da db dc k).map Instr.loc ++
  bcastPanel dbg .Col da (da.col.rank_global_tile k) (DSt.panel 0 k) 0 da.row.nrTiles ++
  bcastPanel dbg .Row db (db.row.rank_global_tile k) (DSt.panel 1 k) 0 db.col.nrTiles ++
  (genUpdate dbg alpha beta dc k).map Instr.loc ++
  [.loc fun s => (DSt.panel 0 k).upd (fun v => some v.reset) s, .loc fun s => (DSt.panel 1 k).upd (fun v => some v.reset) s]
end

/-- `General::callNN` (distributed), impl.h:64-150, on the process with the distributions `da`, `db`, `dc`. -/
def distGenNN (dbg : Bool) (alpha beta : K) (da db dc : Distribution) : List (Instr (DSt K) (Blk K)) :=
  if dc.row.size = 0 ∨ dc.col.size = 0 then []
  else if da.col.nrTiles = 0 then
    if beta ≠ 1 then
      (irange 0 dc.col.localNrTiles).flatMap fun j => (irange 0 dc.row.localNrTiles).map fun i =>
        .loc (DSt.task 2 ⟨i, j⟩ fun c => some (blkScal beta c))
    else []
  else (irange 0 da.col.nrTiles).flatMap fun k => genStep dbg alpha beta da db dc k

/-- The state of a process at the start: its tiles of the matrices and the workspaces, impl.h:91-93. -/
def distGenInit (da db : Distribution) (a b c : Coord2 → Blk K) : Option (DSt K) :=
  (mkPanels .Col da).bind fun pa => (mkPanels .Row db).map fun pb =>
    ⟨fun n => if n = 0 then a else if n = 1 then b else c, fun n => if n = 0 then pa else pb⟩

end DLAF
