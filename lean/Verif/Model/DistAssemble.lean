import Verif.Model.DistInverse
/-
Model of the distributed inverse from the Cholesky factor: `AssembleCholeskyInverse`, include/dlaf/inverse/cholesky/impl.h: `call_L` 225-358,
`call_U` 406-540, and the function on a grid, inverse/cholesky.h:67-82, for matrices without offset.  CPU path (`replace_lauum` is false); the optional
HDF5 dump of the matrix is not modelled.
Matrix 0 = A.  Panel 0 = `panels` (`Panel<Row>` in `call_L`, `Panel<Col>` in `call_U`), panel 1 = `panelsT` (the other axis, `StoreTransposed::Yes`).

The two functions are the same program with rows and columns swapped: `ax` is the axis of `panels`.  `panels.nextResource()` is called in every iteration,
`panelsT.nextResource()` from iteration 1 on; the two workspaces of `panelsT` are the same at that point, here the one that is taken in iteration 1 has
the number 1.  `call_U` takes the number of tiles of the rows instead of the columns, which is the same.
-/
namespace DLAF
variable {K : Type*}

/-- The kernels of a variant: `gemm_matrix_tile` (arguments: tile of `panelT`, tile of `panel`), `herk_matrix_tile`, `trmm_*_panel_tile`,
`assemble_diag_tile`. -/
structure AsmTasks (K : Type*) where
  gemm : Blk K → Blk K → Blk K → Option (Blk K)
  herk : Blk K → Blk K → Option (Blk K)
  trmm : Blk K → Blk K → Option (Blk K)
  lauum : Blk K → Option (Blk K)

section
variable (dbg : Bool) (ax : Coord) (T : AsmTasks K) (d : Distribution) (k : Int)

/-- Ranges and extents of the panels, and the tiles of line `k` before the diagonal, impl.h:268-283 and 449-464. -/
def asmPrep : List (DSt K → Option (DSt K)) :=
  [(DSt.panel 0 k).upd fun v => v.setRange dbg 0 k, (DSt.panel 1 k).upd fun v => v.setRange dbg 1 k] ++
  (if k = d.col.nrTiles - 1 then
    [(DSt.panel 0 k).upd fun v => v.setDim dbg ((d.get ax).global_tile_size_of k),
     (DSt.panel 1 k).upd fun v => v.setDim dbg ((d.get ax.orth).global_tile_size_of k)] else []) ++
  (if (d.get ax).rank_global_tile k = (d.get ax).rank then
    (irange 0 ((d.get ax.orth).next_local_tile_from_global_tile k)).map fun i =>
      DSt.link (DSt.panel 0 k) dbg i 0 (tileAt ax i ((d.get ax).next_local_tile_from_global_tile k)) else [])

/-- `gemm_matrix_tile` on the tile with the global indices `q` along `ax` and `p` along the other coordinate, impl.h:298-305 and 479-486. -/
def asmGemm (q p : Int) (s : DSt K) : Option (DSt K) :=
  ((DSt.panel 1 k).read dbg ((d.get ax).local_tile_from_global_tile q) s).bind fun sa =>
    ((DSt.panel 0 k).read dbg ((d.get ax.orth).local_tile_from_global_tile p) sa.1).bind fun sb =>
      DSt.task 0 (tileAt ax ((d.get ax.orth).local_tile_from_global_tile p) ((d.get ax).local_tile_from_global_tile q)) (T.gemm sa.2 sb.2) sb.1

/-- `herk_matrix_tile` on the diagonal tile `q`, impl.h:309-313 and 490-494. -/
def asmHerk (q : Int) (s : DSt K) : Option (DSt K) :=
  ((DSt.panel 0 k).read dbg ((d.get ax.orth).local_tile_from_global_tile q) s).bind fun sa =>
    DSt.task 0 (tileAt ax ((d.get ax.orth).local_tile_from_global_tile q) ((d.get ax).local_tile_from_global_tile q)) (T.herk sa.2) sa.1

/-- The update of the tiles before `k`, impl.h:286-315 and 467-496. -/
def asmTrail : List (DSt K → Option (DSt K)) :=
  (irange 0 k).flatMap fun q =>
    if (d.get ax).rank_global_tile q ≠ (d.get ax).rank then [] else
      ((irange 0 q).flatMap fun p =>
        if (d.get ax.orth).rank_global_tile p ≠ (d.get ax.orth).rank then [] else [asmGemm dbg ax T d k q p]) ++
      (if (d.get ax).rank_global_tile q = (d.get ax).rank ∧ (d.get ax.orth).rank_global_tile q = (d.get ax.orth).rank then [asmHerk dbg ax T d k q] else [])

/-- `panel.reset(); panelT.reset()`, impl.h:317-318 and 498-499. -/
def asmReset : List (DSt K → Option (DSt K)) :=
  [(DSt.panel 0 k).upd fun v => some v.reset, (DSt.panel 1 k).upd fun v => some v.reset]

/-- The diagonal tile is put into `panelT`, on the processes of line `k`, impl.h:321-327 and 502-508. -/
def asmDiag : List (DSt K → Option (DSt K)) :=
  [(DSt.panel 1 k).upd fun v => v.setRange dbg k (k + 1)] ++
  (if k = d.col.nrTiles - 1 then [(DSt.panel 1 k).upd fun v => v.setDim dbg ((d.get ax.orth).global_tile_size_of k)] else []) ++
  (if (d.get ax.orth).rank_global_tile k = (d.get ax.orth).rank then
    [DSt.link (DSt.panel 1 k) dbg ((d.get ax).next_local_tile_from_global_tile k) 0
      (tileAt ax ((d.get ax.orth).local_tile_from_global_tile k) ((d.get ax).local_tile_from_global_tile k))] else [])

/-- The tiles of line `k`, impl.h:331-336 and 512-517. -/
def asmLine : List (DSt K → Option (DSt K)) :=
  ((irange 0 ((d.get ax.orth).next_local_tile_from_global_tile k)).map fun i => fun s =>
    ((DSt.panel 1 k).read dbg ((d.get ax).next_local_tile_from_global_tile k) s).bind fun sa =>
      DSt.task 0 (tileAt ax i ((d.get ax).next_local_tile_from_global_tile k)) (T.trmm sa.2) sa.1) ++
  [(DSt.panel 1 k).upd fun v => some v.reset]

/-- The diagonal tile, impl.h:340-350 and 521-531. -/
def asmEnd : List (DSt K → Option (DSt K)) :=
  if d.row.rank_global_tile k = d.row.rank ∧ d.col.rank_global_tile k = d.col.rank then
    [DSt.task 0 ⟨d.row.local_tile_from_global_tile k, d.col.local_tile_from_global_tile k⟩ T.lauum] else []

/-- Iteration `k`, impl.h:258-351 and 439-532. -/
def asmStep : List (Instr (DSt K) (Blk K)) :=
  (if k > 0 then
    (asmPrep dbg ax d k).map Instr.loc ++
    bcastPanels dbg ax d ((d.get ax).rank_global_tile k) (DSt.panel 0 k) (DSt.panel 1 k) 0 k 1 k ++
    (asmTrail dbg ax T d k).map Instr.loc ++ (asmReset k).map Instr.loc ++
    (if (d.get ax).rank_global_tile k = (d.get ax).rank then
      (asmDiag dbg ax d k).map Instr.loc ++
      bcastPanel dbg ax.orth d ((d.get ax.orth).rank_global_tile k) (DSt.panel 1 k) k (k + 1) ++
      (asmLine dbg ax T d k).map Instr.loc else []) else []) ++
  (asmEnd T d k).map Instr.loc
end

/-- The loop, impl.h:257-352 and 438-533. -/
def assembleDist (dbg : Bool) (ax : Coord) (T : AsmTasks K) (d : Distribution) : List (Instr (DSt K) (Blk K)) :=
  (irange 0 d.col.nrTiles).flatMap fun k => asmStep dbg ax T d k

/-- Two workspaces of `Panel<axis, StoreTransposed::Yes>(dist)`, panel.h:478-500. -/
def mkPanelsT (axis : Coord) (d : Distribution) : Option (Bool → VPanel K) :=
  (VPanel.create (isTall axis.orth) (VPanel.transposeDist (d.get axis.orth)) (d.get axis).tileSize).map fun v => fun _ => v

/-- The workspaces of the call, impl.h:252-255 and 433-436. -/
def asmInit (ax : Coord) (d : Distribution) (s : DSt K) : Option (DSt K) :=
  (mkPanels ax d).bind fun p => (mkPanelsT ax.orth d).map fun pT => { s with pan := fun n => if n = 0 then p else pT }

variable [Field K] [StarRing K]

/-- Kernels of `call_L`, impl.h:44-107. -/
def asmTasksL (lp : Lapack K) : AsmTasks K :=
  ⟨fun x y => gemm .ConjTrans .NoTrans 1 x y 1, fun x => herk .Lower .ConjTrans 1 x 1, trmm .Left .Lower .ConjTrans .NonUnit 1, lp.tileLauum .Lower⟩
/-- Kernels of `call_U`, impl.h:109-171: the tile of `panelT` is the second argument of gemm (impl.h:484-485). -/
def asmTasksU (lp : Lapack K) : AsmTasks K :=
  ⟨fun x y => gemm .NoTrans .ConjTrans 1 y x 1, fun x => herk .Upper .NoTrans 1 x 1, trmm .Right .Upper .ConjTrans .NonUnit 1, lp.tileLauum .Upper⟩

/-- `AssembleCholeskyInverse::call_L` / `call_U` (distributed), with the construction of the workspaces. -/
def distAssemble (lp : Lapack K) (u : Uplo) (dbg : Bool) (d : Distribution) : List (Instr (DSt K) (Blk K)) :=
  match u with
  | .Lower => [.loc fun s => asmInit .Row d s] ++ assembleDist dbg .Row (asmTasksL lp) d
  | .Upper => [.loc fun s => asmInit .Col d s] ++ assembleDist dbg .Col (asmTasksU lp) d

/-- `inverse_from_cholesky_factor` (distributed), inverse/cholesky.h:67-82: the triangular inverse, then the product. -/
def distInverseFromCholesky (lp : Lapack K) (u : Uplo) (dbg : Bool) (d : Distribution) : List (Instr (DSt K) (Blk K)) :=
  distTriangularInverse lp u .NonUnit dbg d ++ distAssemble lp u dbg d

end DLAF
