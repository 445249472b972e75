import Verif.Model.DistAlg
import Verif.Model.Inverse
/-
Model of the distributed triangular inverse, include/dlaf/inverse/triangular/impl.h: `call_L` 230-363, `call_U` 413-545, and of the function on a grid,
inverse/triangular.h:76-88, for matrices without offset.  CPU path (`replace_trtri` is false); the optional HDF5 dump of the matrix is not modelled.
Matrix 0 = A.  Panel 0 = `row_panels` in `call_L`, `col_panels` in `call_U`; panel 1 = the other one.

The two functions are the same program with rows and columns swapped: `ax` is the axis of the panel that is broadcast first, `Row` in `call_L`, `Col` in
`call_U`.  The loop runs over `k = nrtiles - 1, ..., 0`, so iteration `k` takes the workspaces number `nrtiles - 1 - k`.
-/
namespace DLAF
variable {K : Type*} [Field K] [StarRing K]

/-- The number of the panel with axis `c`. -/
def panOf (ax c : Coord) : Nat := if c = ax then 0 else 1

section
variable (dbg : Bool) (ax : Coord) (d : Distribution) (k : Int)

/-- How many iterations came before, impl.h:265 and 446. -/
def triIt : Int := d.col.nrTiles - 1 - k

/-- The tiles of line `k` up to the diagonal are put into the first panel, impl.h:278-291 and 459-472. -/
def triPrep0 : List (DSt K → Option (DSt K)) :=
  [(DSt.panel 0 (triIt d k)).upd fun v => v.setRange dbg 0 (k + 1)] ++
  (if k = 0 then [(DSt.panel 0 (triIt d k)).upd fun v => v.setDim dbg ((d.get ax).global_tile_size_of k)] else []) ++
  (if (d.get ax).rank_global_tile k = (d.get ax).rank then
    (irange 0 ((d.get ax.orth).next_local_tile_from_global_tile (k + 1))).map fun i =>
      DSt.link (DSt.panel 0 (triIt d k)) dbg i 0 (tileAt ax i ((d.get ax).next_local_tile_from_global_tile k)) else [])

/-- The first solves, with the diagonal tile of the first panel, impl.h:294-302 and 475-483. -/
def triSolve0 (f1 : Blk K → Blk K → Option (Blk K)) : List (DSt K → Option (DSt K)) :=
  if (d.get ax.orth).rank_global_tile k = (d.get ax.orth).rank then
    (irange ((d.get ax).next_local_tile_from_global_tile (k + 1)) (d.get ax).localNrTiles).map fun j => fun s =>
      ((DSt.panel 0 (triIt d k)).read dbg ((d.get ax.orth).next_local_tile_from_global_tile k) s).bind fun sa =>
        DSt.task 0 (tileAt ax ((d.get ax.orth).next_local_tile_from_global_tile k) j) (f1 sa.2) sa.1 else []

/-- The tiles from the diagonal on in the other direction are put into the second panel, impl.h:305-317 and 486-498.  The new width or height
is that of the columns in both functions. -/
def triPrep1 : List (DSt K → Option (DSt K)) :=
  [(DSt.panel 1 (triIt d k)).upd fun v => v.setRangeStart dbg k] ++
  (if k = d.col.nrTiles - 1 then [(DSt.panel 1 (triIt d k)).upd fun v => v.setDim dbg (d.col.global_tile_size_of k)] else []) ++
  (if (d.get ax.orth).rank_global_tile k = (d.get ax.orth).rank then
    (irange ((d.get ax).next_local_tile_from_global_tile k) (d.get ax).localNrTiles).map fun j =>
      DSt.link (DSt.panel 1 (triIt d k)) dbg j 0 (tileAt ax.orth j ((d.get ax.orth).next_local_tile_from_global_tile k)) else [])

/-- The other tiles before and after `k`, impl.h:320-332 and 501-513. -/
def triTrail : List (DSt K → Option (DSt K)) :=
  ((irange ((d.get ax).next_local_tile_from_global_tile (k + 1)) (d.get ax).localNrTiles).flatMap fun j =>
    (irange 0 ((d.get ax.orth).next_local_tile_from_global_tile k)).map fun i => tileAt ax i j).map fun z => fun s =>
      ((DSt.panel (panOf ax .Col) (triIt d k)).read dbg z.row s).bind fun sa => ((DSt.panel (panOf ax .Row) (triIt d k)).read dbg z.col sa.1).bind fun sb =>
        DSt.task 0 z (gemm .NoTrans .NoTrans 1 sa.2 sb.2 1) sb.1

/-- The second solves, with the diagonal tile of the second panel, impl.h:334-341 and 515-522. -/
def triSolve1 (f2 : Blk K → Blk K → Option (Blk K)) : List (DSt K → Option (DSt K)) :=
  if (d.get ax).rank_global_tile k = (d.get ax).rank then
    (irange 0 ((d.get ax.orth).next_local_tile_from_global_tile k)).map fun i => fun s =>
      ((DSt.panel 1 (triIt d k)).read dbg ((d.get ax).next_local_tile_from_global_tile k) s).bind fun sa =>
        DSt.task 0 (tileAt ax i ((d.get ax).next_local_tile_from_global_tile k)) (f2 sa.2) sa.1 else []

/-- `col_panel.reset(); row_panel.reset()` and the inverse of the diagonal tile, impl.h:343-361 and 524-542. -/
def triEnd (fd : Blk K → Option (Blk K)) : List (DSt K → Option (DSt K)) :=
  [(DSt.panel (panOf ax .Col) (triIt d k)).upd fun v => some v.reset, (DSt.panel (panOf ax .Row) (triIt d k)).upd fun v => some v.reset] ++
  (if d.row.rank_global_tile k = d.row.rank ∧ d.col.rank_global_tile k = d.col.rank then
    [DSt.task 0 ⟨d.row.local_tile_from_global_tile k, d.col.local_tile_from_global_tile k⟩ fd] else [])

/-- Iteration `k`, impl.h:266-362 and 447-544. -/
def triInvStep (f1 f2 : Blk K → Blk K → Option (Blk K)) (fd : Blk K → Option (Blk K)) : List (Instr (DSt K) (Blk K)) :=
  (if k < d.col.nrTiles - 1 then
    (triPrep0 dbg ax d k).map Instr.loc ++ bcastPanel dbg ax d ((d.get ax).rank_global_tile k) (DSt.panel 0 (triIt d k)) 0 (k + 1) else []) ++
  (triSolve0 dbg ax d k f1).map Instr.loc ++
  (if k > 0 then
    (triPrep1 dbg ax d k).map Instr.loc ++
    bcastPanel dbg ax.orth d ((d.get ax.orth).rank_global_tile k) (DSt.panel 1 (triIt d k)) k (d.get ax).nrTiles else []) ++
  (triTrail dbg ax d k).map Instr.loc ++ (triSolve1 dbg ax d k f2).map Instr.loc ++ (triEnd ax d k fd).map Instr.loc
end

/-- The loop, impl.h:265-363 and 446-545. -/
def triInv (dbg : Bool) (ax : Coord) (f1 f2 : Blk K → Blk K → Option (Blk K)) (fd : Blk K → Option (Blk K)) (d : Distribution) :
    List (Instr (DSt K) (Blk K)) :=
  (irange 0 d.col.nrTiles).reverse.flatMap fun k => triInvStep dbg ax d k f1 f2 fd

/-- `triangular_inverse` (distributed), inverse/triangular.h:76-88; kernels impl.h:44-105 and 107-170. -/
def distTriangularInverse (lp : Lapack K) (u : Uplo) (dg : Diag) (dbg : Bool) (d : Distribution) : List (Instr (DSt K) (Blk K)) :=
  match u with
  | .Lower => triInv dbg .Row (lp.tileTrsm .Right .Lower .NoTrans dg (-1)) (lp.tileTrsm .Left .Lower .NoTrans dg 1) (lp.tileTrtri .Lower dg) d
  | .Upper => triInv dbg .Col (lp.tileTrsm .Left .Upper .NoTrans dg (-1)) (lp.tileTrsm .Right .Upper .NoTrans dg 1) (lp.tileTrtri .Upper dg) d

/-- The state of a process at the start: its tiles and the workspaces, impl.h:257-259 and 438-440. -/
def distTriInvInit (u : Uplo) (d : Distribution) (a : Coord2 → Blk K) : Option (DSt K) :=
  match u with
  | .Lower => (mkPanels .Col d).bind fun pc => (mkPanels .Row d).map fun pr => ⟨fun _ => a, fun n => if n = 0 then pr else pc⟩
  | .Upper => (mkPanels .Col d).bind fun pc => (mkPanels .Row d).map fun pr => ⟨fun _ => a, fun n => if n = 0 then pc else pr⟩

end DLAF
