import Verif.Model.Cholesky
import Verif.Model.DistPanel
/-
Model of the distributed Cholesky factorization, include/dlaf/factorization/cholesky/impl.h:191-313 (`call_L`) and
350-452 (`call_U`).  `call_U` is `call_L` with the roles of rows and columns exchanged; both are instances of
`distChol`, with `axis = Col` (column panels) for `call_L` and `axis = Row` for `call_U`.

Simplifications: a panel that refers to a tile of the matrix (`setTile(.., mat_a.read(..))`) holds the value of the tile
at that point of the program order (C15: this is what the reader gets).  The debug dump to HDF5 is not modelled.
-/
namespace DLAF
section
variable {K : Type*}

/-- The tile tasks of one variant. `gemm p q a`: `p` is the tile of the panel, `q` that of the transposed panel. -/
structure CholTasks (K : Type*) where
  potrf : Blk K → Option (Blk K)
  trsm : Blk K → Blk K → Option (Blk K)
  herk : Blk K → Blk K → Option (Blk K)
  gemm : Blk K → Blk K → Blk K → Option (Blk K)

/-- What a process holds: the local tiles of the matrix (by local tile index), and the two workspaces of
`RoundRobin<Panel>` (impl.h:218-221 and 363-366, `n_workspaces = 2`). -/
structure CholState (K : Type*) where
  mat : Coord2 → Blk K
  panels : Bool → VPanel K
  panelsT : Bool → VPanel K

/-- The tile index with `i` along the panel's `coord` and `j` along the panel's axis. -/
def tileAt (axis : Coord) (i j : Int) : Coord2 :=
  match axis with
  | .Col => ⟨i, j⟩
  | .Row => ⟨j, i⟩

/-- The panel `nextResource()` of iteration `k`: `RoundRobin` starts at 0 and increments before use
(common/round_robin.h:31-35); every iteration but the last one takes one resource. -/
def CholState.panel (k : Int) : PRef (CholState K) K :=
  ⟨fun s => s.panels (decide ((k + 1) % 2 = 1)), fun s v => { s with panels := set1 s.panels (decide ((k + 1) % 2 = 1)) v }⟩
def CholState.panelT (k : Int) : PRef (CholState K) K :=
  ⟨fun s => s.panelsT (decide ((k + 1) % 2 = 1)), fun s v => { s with panelsT := set1 s.panelsT (decide ((k + 1) % 2 = 1)) v }⟩

/-- `mat_a.readwrite(idx)` and a task on the tile. -/
def CholState.task (idx : Coord2) (f : Blk K → Option (Blk K)) (s : CholState K) : Option (CholState K) :=
  (f (s.mat idx)).map fun b => { s with mat := set1 s.mat idx b }

/-- `panel.setTile(i, mat_a.read(idx))`. -/
def CholState.link (R : PRef (CholState K) K) (dbg : Bool) (i : Int) (idx : Coord2) (s : CholState K) : Option (CholState K) :=
  R.upd (fun v => v.setTile dbg i (s.mat idx)) s

section
variable (dbg : Bool) (t : CholTasks K) (axis : Coord) (d : Distribution) (nt k : Int)

/-- Factorization of the diagonal tile, impl.h:227-229, 372-375. -/
def dcPotrf : List (CholState K → Option (CholState K)) :=
  let dc := d.get axis.orth
  let dT := d.get axis
  if dc.rank_global_tile k = dc.rank ∧ dT.rank_global_tile k = dT.rank then
    [CholState.task (tileAt axis (dc.local_tile_from_global_tile k) (dT.local_tile_from_global_tile k)) t.potrf]
  else []

/-- Until the broadcast of the diagonal tile, impl.h:239-252, 385-396. -/
def dcPrepare : List (CholState K → Option (CholState K)) :=
  let dc := d.get axis.orth
  let dT := d.get axis
  let lk := dT.local_tile_from_global_tile k
  [(CholState.panel k).upd fun v => v.setRangeStart dbg (k + 1)] ++
  if dT.rank_global_tile k = dT.rank then
    [(CholState.panelT k).upd fun v => v.setRange dbg k (k + 1)] ++
    if dc.rank_global_tile k = dc.rank then
      [CholState.link (CholState.panelT k) dbg lk (tileAt axis (dc.local_tile_from_global_tile k) lk)]
    else []
  else []

/-- Update of tile `i` (local) of the column, impl.h:258-264, 402-408. -/
def dcTrsm (i : Int) : List (CholState K → Option (CholState K)) :=
  let dT := d.get axis
  let lk := dT.local_tile_from_global_tile k
  [fun s => ((CholState.panelT k).read dbg lk s).bind fun sb => CholState.task (tileAt axis i lk) (t.trsm sb.2) sb.1,
   CholState.link (CholState.panel k) dbg i (tileAt axis i lk)]

/-- The column update and the preparation of the panel broadcast, impl.h:254-270, 398-414. -/
def dcColumn : List (CholState K → Option (CholState K)) :=
  let dc := d.get axis.orth
  let dT := d.get axis
  (if dT.rank_global_tile k = dT.rank then
    (irange (dc.next_local_tile_from_global_tile (k + 1)) dc.localNrTiles).flatMap (dcTrsm dbg t axis d k) ++
    [(CholState.panelT k).upd fun v => some v.reset]
  else []) ++
  [(CholState.panelT k).upd fun v => v.setRange dbg (k + 1) (nt - 1)]

/-- Update of the trailing column `j` (global index), impl.h:275-303, 419-447. -/
def dcTrailing (j : Int) : List (CholState K → Option (CholState K)) :=
  let dc := d.get axis.orth
  let dT := d.get axis
  let lj := dT.local_tile_from_global_tile j
  if dT.rank_global_tile j ≠ dT.rank then []
  else
    (if dc.rank_global_tile j = dc.rank then
      [fun s => ((CholState.panel k).read dbg (dc.local_tile_from_global_tile j) s).bind fun sb =>
        CholState.task (tileAt axis (dc.local_tile_from_global_tile j) lj) (t.herk sb.2) sb.1]
    else []) ++
    (irange (j + 1) nt).flatMap fun i =>
      if dc.rank_global_tile i ≠ dc.rank then []
      else [fun s => ((CholState.panel k).read dbg (dc.local_tile_from_global_tile i) s).bind fun sb =>
        ((CholState.panelT k).read dbg lj sb.1).bind fun sc =>
          CholState.task (tileAt axis (dc.local_tile_from_global_tile i) lj) (t.gemm sb.2 sc.2) sc.1]

/-- The end of the iteration, impl.h:305-306, 449-450. -/
def dcReset : List (CholState K → Option (CholState K)) :=
  [(CholState.panel k).upd fun v => some v.reset, (CholState.panelT k).upd fun v => some v.reset]

/-- One iteration, impl.h:223-307, 368-451. -/
def distCholStep : List (Instr (CholState K) (Blk K)) :=
  let dc := d.get axis.orth
  let dT := d.get axis
  (dcPotrf t axis d k).map .loc ++
  if k + 1 = nt then []
  else
    (dcPrepare dbg axis d k).map .loc ++
    (if dT.rank_global_tile k = dT.rank then
      bcastPanel dbg axis.orth d (dc.rank_global_tile k) (CholState.panelT k) k (k + 1) else []) ++
    (dcColumn dbg t axis d nt k).map .loc ++
    bcastPanels dbg axis d (dT.rank_global_tile k) (CholState.panel k) (CholState.panelT k) (k + 1) nt (k + 1) (nt - 1) ++
    ((irange (k + 1) nt).flatMap (dcTrailing dbg t axis d nt k)).map .loc ++
    (dcReset k).map .loc

end

/-- The loop over the tiles of the diagonal; `nrtile = mat_a.nrTiles().cols()`, impl.h:216, 361. -/
def distChol (dbg : Bool) (t : CholTasks K) (axis : Coord) (d : Distribution) : List (Instr (CholState K) (Blk K)) :=
  (irange 0 d.col.nrTiles).flatMap (distCholStep dbg t axis d d.col.nrTiles)

/-- Column panels have tiles of `nb` columns, row panels of `nb` rows. -/
def tallOf : Coord → Bool
  | .Col => true
  | .Row => false

/-- The state at the start of the loop: the matrix and four new panels. -/
def distCholInit (axis : Coord) (d : Distribution) (mat : Coord2 → Blk K) : Option (CholState K) :=
  let dc := d.get axis.orth
  let dT := d.get axis
  let tall := tallOf axis
  (VPanel.create tall dc dT.tileSize).bind fun p =>
    (VPanel.create tall (VPanel.transposeDist dT) dc.tileSize).map fun pT =>
      ⟨mat, fun _ => p, fun _ => pT⟩

variable [Field K] [StarRing K]

/-- Tasks of `call_L`, impl.h:45-95. -/
def tasksL (lp : Lapack K) : CholTasks K := ⟨potrfL lp, trsmL lp, herkL, gemmL⟩
/-- Tasks of `call_U`, impl.h:97-147: the transposed panel is the first argument of gemm (impl.h:443-445). -/
def tasksU (lp : Lapack K) : CholTasks K := ⟨potrfU lp, trsmU lp, herkU, fun p q => gemmU q p⟩

/-- `cholesky_factorization(grid, uplo, mat_a)`, factorization/cholesky.h:56-74 (the assertions are hypotheses of the
theorems). -/
def distCholesky (dbg : Bool) (lp : Lapack K) (u : Uplo) (d : Distribution) : List (Instr (CholState K) (Blk K)) :=
  match u with
  | .Lower => distChol dbg (tasksL lp) .Col d
  | .Upper => distChol dbg (tasksU lp) .Row d

def distCholeskyInit (u : Uplo) (d : Distribution) (mat : Coord2 → Blk K) : Option (CholState K) :=
  match u with
  | .Lower => distCholInit .Col d mat
  | .Upper => distCholInit .Row d mat

end
end DLAF
