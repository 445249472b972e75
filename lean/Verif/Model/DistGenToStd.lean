import Verif.Model.DistAssemble
import Verif.Model.GenToStd
/-
Model of the distributed transformation of a generalized eigenproblem to standard form, `GenToStd`, include/dlaf/eigensolver/gen_to_std/impl.h:
`call_L` 285-504, `call_U` 570-768, and the function on a grid, eigensolver/gen_to_std.h:100-125, for matrices without offset and with the same
distribution (the code uses the distribution of `mat_a` for both and does not check it: F29).  The optional HDF5 dump is not modelled.
Matrix 0 = `mat_a`, matrix 1 = `mat_l` / `mat_u` (only read by the kernels).  Panel 0 = `l_panels`, panel 1 = `l_panelsT` (`StoreTransposed::Yes`),
panel 2 = `a_panels`, panel 3 = `a_panelsT`.

The two functions are the same program with rows and columns swapped: `ax` is the axis of `l_panels`.  The only other difference is the order of the two gemm
tasks on a tile (`sw`).  The local variable `a_diag`, a sender of a tile that is kept until the end of the iteration, is slot `k` of "panel" 4.
`call_U` takes the number of tiles of the rows instead of the columns, which is the same.
-/
namespace DLAF
variable {K : Type*}

/-- The kernels of a variant: `hegstDiagTile`, `trsmPanelTile`, `hemmPanelTile`, `her2kTrailingDiagTile`, `gemmTrailingMatrixTile` (arguments: tile of the panel,
tile of the transposed panel), `trsmPanelUpdateTile`, `gemmPanelUpdateTile` (arguments: tile of `l`, tile of `a`). -/
structure GsTasks (K : Type*) where
  hegst : Blk K → Blk K → Option (Blk K)
  trsm : Blk K → Blk K → Option (Blk K)
  hemm : Blk K → Blk K → Blk K → Option (Blk K)
  her2k : Blk K → Blk K → Blk K → Option (Blk K)
  gemm : Blk K → Blk K → Blk K → Option (Blk K)
  trsmU : Blk K → Blk K → Option (Blk K)
  gemmU : Blk K → Blk K → Blk K → Option (Blk K)
  sw : Bool

section
variable (dbg : Bool) (ax : Coord) (T : GsTasks K) (d : Distribution) (k : Int)

/-- Ranges and extents of the panels, and the tiles of line `k` of `l`, impl.h:342-357 and 612-628. -/
def gsPrep : List (DSt K → Option (DSt K)) :=
  [(DSt.panel 0 k).upd fun v => v.setRangeStart dbg k, (DSt.panel 1 k).upd fun v => v.setRange dbg k (d.col.nrTiles - 1),
   (DSt.panel 3 k).upd fun v => v.setRange dbg 0 k] ++
  (if k = d.col.nrTiles - 1 then
    [(DSt.panel 0 k).upd fun v => v.setDim dbg ((d.get ax).global_tile_size_of k),
     (DSt.panel 3 k).upd fun v => v.setDim dbg ((d.get ax.orth).global_tile_size_of k)] else []) ++
  (if (d.get ax).rank_global_tile k = (d.get ax).rank then
    (irange ((d.get ax.orth).next_local_tile_from_global_tile k) (d.get ax.orth).localNrTiles).map fun i =>
      DSt.link (DSt.panel 0 k) dbg i 1 (tileAt ax i ((d.get ax).next_local_tile_from_global_tile k)) else [])

/-- The tiles of the previous lines with index `k`, impl.h:366-376 and 637-647. -/
def gsRow : List (DSt K → Option (DSt K)) :=
  if (d.get ax.orth).rank_global_tile k = (d.get ax.orth).rank then
    (irange 0 ((d.get ax).next_local_tile_from_global_tile k)).flatMap fun j =>
      [fun s => ((DSt.panel 0 k).read dbg ((d.get ax.orth).next_local_tile_from_global_tile k) s).bind fun sa =>
          DSt.task 0 (tileAt ax ((d.get ax.orth).next_local_tile_from_global_tile k) j) (T.trsmU sa.2) sa.1,
       DSt.link (DSt.panel 3 k) dbg j 0 (tileAt ax ((d.get ax.orth).next_local_tile_from_global_tile k) j)]
  else []

/-- The update of the previous lines, impl.h:382-391 and 653-662. -/
def gsBelow : List (DSt K → Option (DSt K)) :=
  (irange 0 ((d.get ax).next_local_tile_from_global_tile k)).flatMap fun j =>
    (irange ((d.get ax.orth).next_local_tile_from_global_tile (k + 1)) (d.get ax.orth).localNrTiles).map fun i => fun s =>
      ((DSt.panel 0 k).read dbg i s).bind fun sl => ((DSt.panel 3 k).read dbg j sl.1).bind fun sa =>
        DSt.task 0 (tileAt ax i j) (T.gemmU sl.2 sa.2) sa.1

/-- The diagonal tile, impl.h:397-398 and 668-669. -/
def gsDiag : List (DSt K → Option (DSt K)) :=
  if d.row.rank_global_tile k = d.row.rank ∧ d.col.rank_global_tile k = d.col.rank then
    [fun s => DSt.task 0 ⟨d.row.local_tile_from_global_tile k, d.col.local_tile_from_global_tile k⟩
      (fun a => T.hegst a (s.mat 1 ⟨d.row.local_tile_from_global_tile k, d.col.local_tile_from_global_tile k⟩)) s] else []

/-- `a_panelT` for the diagonal tile, on the processes of line `k`, impl.h:413-417 and 684-688. -/
def gsSetDiag : List (DSt K → Option (DSt K)) :=
  [(DSt.panel 3 k).upd fun v => v.setRange dbg k (k + 1)] ++
  (if (d.get ax.orth).rank_global_tile k = (d.get ax.orth).rank then
    [DSt.link (DSt.panel 3 k) dbg ((d.get ax).next_local_tile_from_global_tile k) 0
      (tileAt ax ((d.get ax.orth).local_tile_from_global_tile k) ((d.get ax).local_tile_from_global_tile k))] else [])

/-- The tiles of line `k`, impl.h:420-438 and 691-709. -/
def gsLine : List (DSt K → Option (DSt K)) :=
  ((irange ((d.get ax.orth).next_local_tile_from_global_tile (k + 1)) (d.get ax.orth).localNrTiles).flatMap fun i =>
    [fun s => ((DSt.panel 1 k).read dbg ((d.get ax).next_local_tile_from_global_tile k) s).bind fun sa =>
        DSt.task 0 (tileAt ax i ((d.get ax).local_tile_from_global_tile k)) (T.trsm sa.2) sa.1,
     fun s => ((DSt.panel 3 k).read dbg ((d.get ax).next_local_tile_from_global_tile k) s).bind fun sa =>
        DSt.task 0 (tileAt ax i ((d.get ax).local_tile_from_global_tile k))
          (T.hemm sa.2 (sa.1.mat 1 (tileAt ax i ((d.get ax).local_tile_from_global_tile k)))) sa.1,
     DSt.link (DSt.panel 2 k) dbg i 0 (tileAt ax i ((d.get ax).local_tile_from_global_tile k))]) ++
  (if (d.get ax.orth).next_local_tile_from_global_tile (k + 1) < (d.get ax.orth).localNrTiles then
    [(DSt.panel 4 k).upd fun v => v.setRange dbg k (k + 1),
     fun s => ((DSt.panel 3 k).read dbg ((d.get ax).next_local_tile_from_global_tile k) s).bind fun sa =>
       (DSt.panel 4 k).upd (fun v => v.setTile dbg ((d.get ax).next_local_tile_from_global_tile k) sa.2) sa.1] else []) ++
  [(DSt.panel 3 k).upd fun v => some v.reset]

/-- `her2kTrailingDiagTile` on the diagonal tile `q`, impl.h:459-461 and 730-732. -/
def gsHer2k (q : Int) (s : DSt K) : Option (DSt K) :=
  ((DSt.panel 2 k).read dbg ((d.get ax.orth).local_tile_from_global_tile q) s).bind fun sa =>
    ((DSt.panel 0 k).read dbg ((d.get ax.orth).local_tile_from_global_tile q) sa.1).bind fun sl =>
      DSt.task 0 (tileAt ax ((d.get ax.orth).local_tile_from_global_tile q) ((d.get ax).local_tile_from_global_tile q)) (T.her2k sa.2 sl.2) sl.1

/-- `gemmTrailingMatrixTile` with the panels `n` and `n'` (transposed) on the tile with the global indices `q` along `ax` and `p` along the other coordinate,
impl.h:475-478 and 746-749. -/
def gsGemm (n n' : Nat) (q p : Int) (s : DSt K) : Option (DSt K) :=
  ((DSt.panel n k).read dbg ((d.get ax.orth).local_tile_from_global_tile p) s).bind fun sa =>
    ((DSt.panel n' k).read dbg ((d.get ax).local_tile_from_global_tile q) sa.1).bind fun sb =>
      DSt.task 0 (tileAt ax ((d.get ax.orth).local_tile_from_global_tile p) ((d.get ax).local_tile_from_global_tile q)) (T.gemm sa.2 sb.2) sb.1

/-- The update of the trailing matrix, impl.h:446-480 and 717-751. -/
def gsTrailing : List (DSt K → Option (DSt K)) :=
  (irange (k + 1) d.col.nrTiles).flatMap fun q =>
    if (d.get ax).rank_global_tile q ≠ (d.get ax).rank then [] else
      (if (d.get ax.orth).rank = (d.get ax.orth).rank_global_tile q then [gsHer2k dbg ax T d k q] else []) ++
      ((irange (q + 1) d.col.nrTiles).flatMap fun p =>
        if (d.get ax.orth).rank_global_tile p ≠ (d.get ax.orth).rank then [] else
          if T.sw then [gsGemm dbg ax T d k 0 3 q p, gsGemm dbg ax T d k 2 1 q p] else [gsGemm dbg ax T d k 2 1 q p, gsGemm dbg ax T d k 0 3 q p])

/-- `a_panel.reset(); a_panelT.reset(); l_panel.reset(); l_panelT.reset()`, impl.h:482-485 and 753-756. -/
def gsReset : List (DSt K → Option (DSt K)) :=
  [(DSt.panel 2 k).upd fun v => some v.reset, (DSt.panel 3 k).upd fun v => some v.reset,
   (DSt.panel 0 k).upd fun v => some v.reset, (DSt.panel 1 k).upd fun v => some v.reset]

/-- The second update of line `k`, impl.h:487-494 and 758-765; `a_diag` ends with the iteration. -/
def gsEnd : List (DSt K → Option (DSt K)) :=
  if (d.get ax).rank_global_tile k = (d.get ax).rank then
    ((irange ((d.get ax.orth).next_local_tile_from_global_tile (k + 1)) (d.get ax.orth).localNrTiles).map fun i => fun s =>
      ((DSt.panel 4 k).read dbg ((d.get ax).next_local_tile_from_global_tile k) s).bind fun sa =>
        DSt.task 0 (tileAt ax i ((d.get ax).local_tile_from_global_tile k))
          (T.hemm sa.2 (sa.1.mat 1 (tileAt ax i ((d.get ax).local_tile_from_global_tile k)))) sa.1) ++
    [(DSt.panel 4 k).upd fun v => some v.reset] else []

/-- Iteration `k`, impl.h:323-495 and 593-766. -/
def gsStep : List (Instr (DSt K) (Blk K)) :=
  (gsPrep dbg ax d k).map Instr.loc ++
  bcastPanels dbg ax d ((d.get ax).rank_global_tile k) (DSt.panel 0 k) (DSt.panel 1 k) k d.col.nrTiles k (d.col.nrTiles - 1) ++
  (gsRow dbg ax T d k).map Instr.loc ++
  (if k < d.col.nrTiles - 1 then
    bcastPanel dbg ax.orth d ((d.get ax.orth).rank_global_tile k) (DSt.panel 3 k) 0 k ++
    (gsBelow dbg ax T d k).map Instr.loc else []) ++
  [Instr.loc fun s => (DSt.panel 3 k).upd (fun v => some v.reset) s] ++
  (gsDiag T d k).map Instr.loc ++
  (if k = d.col.nrTiles - 1 then [] else
    [Instr.loc fun s => (DSt.panel 2 k).upd (fun v => v.setRangeStart dbg (k + 1)) s] ++
    (if (d.get ax).rank_global_tile k = (d.get ax).rank then
      (gsSetDiag dbg ax d k).map Instr.loc ++
      bcastPanel dbg ax.orth d ((d.get ax.orth).rank_global_tile k) (DSt.panel 3 k) k (k + 1) ++
      (gsLine dbg ax T d k).map Instr.loc else []) ++
    [Instr.loc fun s => (DSt.panel 3 k).upd (fun v => v.setRange dbg (k + 1) (d.col.nrTiles - 1)) s] ++
    bcastPanels dbg ax d ((d.get ax).rank_global_tile k) (DSt.panel 2 k) (DSt.panel 3 k) (k + 1) d.col.nrTiles (k + 1) (d.col.nrTiles - 1) ++
    (gsTrailing dbg ax T d k).map Instr.loc ++ (gsReset k).map Instr.loc ++ (gsEnd dbg ax T d k).map Instr.loc)
end

/-- The loop, impl.h:323-495 and 593-766. -/
def gsDist (dbg : Bool) (ax : Coord) (T : GsTasks K) (d : Distribution) : List (Instr (DSt K) (Blk K)) :=
  (irange 0 d.col.nrTiles).flatMap fun k => gsStep dbg ax T d k

/-- The state at the call: the tiles of the two matrices and the workspaces, impl.h:316-321 and 586-591. -/
def gsInit (ax : Coord) (d : Distribution) (a l : Coord2 → Blk K) : Option (DSt K) :=
  (mkPanels ax d).bind fun p => (mkPanelsT ax.orth d).bind fun pT => (mkPanels ax.orth d).map fun q =>
    ⟨fun n => if n = 0 then a else l, fun n => if n = 0 then p else if n = 1 then pT else if n = 2 then p else q⟩

variable [Field K] [StarRing K]

/-- Kernels of `call_L`, impl.h:43-129. -/
def gsTasksL (lp : Lapack K) : GsTasks K where
  hegst a l := lp.tileHegst .Lower a l
  trsm l a := lp.tileTrsm .Right .Lower .ConjTrans .NonUnit 1 l a
  hemm d l a := hemm .Right .Lower minusHalf d l 1 a
  her2k a l c := her2k .Lower .NoTrans (-1) a l 1 c
  gemm x y c := gemm .NoTrans .ConjTrans (-1) x y 1 c
  trsmU l a := lp.tileTrsm .Left .Lower .NoTrans .NonUnit 1 l a
  gemmU l a c := gemm .NoTrans .NoTrans (-1) l a 1 c
  sw := false

/-- Kernels of `call_U`, impl.h:131-217: the tile of the transposed panel is the first argument of gemm (impl.h:746-749), the tile of `a` is the first argument in
the update of the previous lines (impl.h:659-660). -/
def gsTasksU (lp : Lapack K) : GsTasks K where
  hegst a l := lp.tileHegst .Upper a l
  trsm l a := lp.tileTrsm .Left .Upper .ConjTrans .NonUnit 1 l a
  hemm d l a := hemm .Left .Upper minusHalf d l 1 a
  her2k a l c := her2k .Upper .ConjTrans (-1) a l 1 c
  gemm x y c := gemm .ConjTrans .NoTrans (-1) y x 1 c
  trsmU l a := lp.tileTrsm .Right .Upper .NoTrans .NonUnit 1 l a
  gemmU l a c := gemm .NoTrans .NoTrans (-1) a l 1 c
  sw := true

/-- The axis of `l_panels`. -/
def gsAxis : Uplo → Coord
  | .Lower => .Col
  | .Upper => .Row

/-- The kernels. -/
def gsTasks (lp : Lapack K) : Uplo → GsTasks K
  | .Lower => gsTasksL lp
  | .Upper => gsTasksU lp

/-- `generalized_to_standard` (distributed), eigensolver/gen_to_std.h:100-125. -/
def distGenToStd (lp : Lapack K) (u : Uplo) (dbg : Bool) (d : Distribution) : List (Instr (DSt K) (Blk K)) :=
  gsDist dbg (gsAxis u) (gsTasks lp u) d

end DLAF
