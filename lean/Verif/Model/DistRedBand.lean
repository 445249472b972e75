import Verif.Model.DistElem
import Verif.Model.RedBand
/-
Model of the distributed reduction of a Hermitian matrix to band form, include/dlaf/eigensolver/reduction_to_band/impl.h:1150-1516
(`ReductionToBand::call` with a grid, CPU) with `red2band::distributed::computePanelReflectors` (577-698), `hemmComputeX` (700-816),
`her2kUpdateTrailingMatrix` (818-865) and the helpers 64-205, 352-452, for matrices without offset and with one tile per block.

Simplifications:
* The workers of the panel run one after the other between two barriers (C43 and C46 show for the local code that their order does not matter).
* The two pipelines of the column communicator (impl.h:1172-1176, `mpi_col_chain` and `mpi_col_chain_panel`, distinct MPI communicators) are one
  communicator here; the collectives on it are then in program order, which is one of the orders of the two pipelines.
* The blocking all-reduces of the panel (`comm::sync::allReduceInPlace`) are modelled as the non-blocking ones.
* The trigger of the next panel (impl.h:1430-1502) only delays work and is not modelled; neither is the dump to a file.
* `V`, `W`, `X` and their transposed panels are what their tiles hold (Model/DistElem.lean), not their memory (C26).
-/
namespace DLAF
open scoped Classical
noncomputable section
variable {K : Type*}

/-- `broadcast(rank_root, panel, panelT, ...)` of a column panel and its row panel, communication/broadcast_panel.h:107-185; `xs` are the local
tiles of `panel`, `[st, en)` and `[sT, eT)` the ranges of the two panels, `sz` and `szT` the sizes of their tiles. -/
def bcastMirror {S : Type*} (d : Distribution) (root : Int) (R RT : ERef S K) (sz szT : Int → Nat × Nat) (xs : List Int) (st en sT eT : Int) :
    List (Instr S (Blk K)) :=
  let ch := Chan.col d.col.rank
  [.loc fun s => if d.row.size = d.col.size ∧ d.row.tileSize = d.col.tileSize ∧ st ≤ sT ∧ eT ≤ en then some s else none] ++
  if st = en then [] else
  bcastTiles .Col d root R sz xs ++
  (irange sT eT).flatMap fun k =>
    if d.col.rank_global_tile k = d.col.rank then
      let kT := d.col.local_tile_from_global_tile k
      if d.row.rank_global_tile k = d.row.rank then
        [.loc fun s => (R.read (d.row.local_tile_from_global_tile k) s).bind fun b => RT.write (szT kT) kT b s] ++
        if 1 < d.row.grid then bcastSend ch d.row.rank fun s => (RT.read kT s).map fun b => (s, b) else []
      else if 1 < d.row.grid then bcastRecv ch (d.row.rank_global_tile k) fun s b => RT.write (szT kT) kT b s
      else []
    else []

/-- The memory of one process: the tiles of `A` by local index, the tiles of `mat_taus` by local row index, the buffers of the all-reduces of
the panel (`x0_and_squares`, `w[0]`, impl.h:620, 659), the saved head of the reflector (impl.h:643), the panels of the iteration, and `T`. -/
structure RbSt (K : Type*) where
  a : Coord2 → Blk K
  tau : Int → Blk K
  y : K
  sq : EPanel K
  wv : EPanel K
  pV : EPanel K
  pVt : EPanel K
  pW : EPanel K
  pWt : EPanel K
  pX : EPanel K
  pXt : EPanel K
  pT : EPanel K

namespace RbSt
def rSq : ERef (RbSt K) K := ⟨fun s => s.sq, fun s p => { s with sq := p }⟩
def rWv : ERef (RbSt K) K := ⟨fun s => s.wv, fun s p => { s with wv := p }⟩
def rV : ERef (RbSt K) K := ⟨fun s => s.pV, fun s p => { s with pV := p }⟩
def rVt : ERef (RbSt K) K := ⟨fun s => s.pVt, fun s p => { s with pVt := p }⟩
def rW : ERef (RbSt K) K := ⟨fun s => s.pW, fun s p => { s with pW := p }⟩
def rWt : ERef (RbSt K) K := ⟨fun s => s.pWt, fun s p => { s with pWt := p }⟩
def rX : ERef (RbSt K) K := ⟨fun s => s.pX, fun s p => { s with pX := p }⟩
def rXt : ERef (RbSt K) K := ⟨fun s => s.pXt, fun s p => { s with pXt := p }⟩
def rT : ERef (RbSt K) K := ⟨fun s => s.pT, fun s p => { s with pT := p }⟩
end RbSt

namespace DistRed
variable [RCLike K]
section
/- `n`, `nb`, `band`: order and tile size of the matrix, band size; `E`: numbers of workers of the process, sign bits, contents of its workspaces;
`d`: distribution of the matrix; `dt`: distribution of the rows of `mat_taus`; `j`: the iteration (`j_sub`). -/
variable (n nb band : Nat) (E : RedEnv K) (d : Distribution) (dt : Dist1) (j : Nat)

/-- Column and row of `ij_offset`, impl.h:1273; `at_offset` has the same row. -/
def c0 : Nat := j * band
def r0 : Nat := (j + 1) * band
/-- `nrefls_tile`, impl.h:1285: height of tile `j` of `mat_taus_retiled`, which has `n - band - 1` rows and tiles of `band`. -/
def nr : Nat := min band (n - band - 1 - j * band)

/-- The local tiles of the panel and of the trailing matrix, along the rows: views.h:53-60, 155-157. -/
def rows : List Int := View.tiles d.row (r0 band j)
/-- The local tile column of the panel, views.h:53-56. -/
def bc : Int := View.begin' d.col (c0 band j)
/-- `j_sub_offset_`, views.h:147. -/
def cc : Nat := c0 band j % nb
/-- First row and height of the sub-tile of local tile row `i`, views.h:162-171. -/
def cut (i : Int) : Nat := (View.panelCut d.row (r0 band j) i).toNat
def hgt (i : Int) : Nat := (d.row.global_tile_size_of (d.row.global_tile_from_local_tile i) - View.panelCut d.row (r0 band j) i).toNat
/-- `rankHasHead`, impl.h:612: this process row has the first tile of the panel. -/
def head : Bool := View.hasTop d.row (r0 band j)
/-- `rank_v0.col()`, impl.h:1279. -/
def rootCol : Int := d.col.rank_global_tile (d.col.global_tile_from_global_element (c0 band j))

/-- Element of a tile of the panel. -/
def el (s : RbSt K) (i : Int) (r c : Nat) : K := (s.a ⟨i, bc band d j⟩).e (cut band d j i + r) (cc nb band j + c)

/-- A tile of the panel with new elements. -/
def updEl (i : Int) (f : Nat → Nat → K) (s : RbSt K) : RbSt K :=
  { s with a := set1 s.a ⟨i, bc band d j⟩ ⟨(s.a ⟨i, bc band d j⟩).rows, (s.a ⟨i, bc band d j⟩).cols, fun r c =>
      if (cut band d j i ≤ r ∧ r < cut band d j i + hgt band d j i) ∧ cc nb band j ≤ c ∧ c < cc nb band j + band then
        f (r - cut band d j i) (c - cc nb band j) else (s.a ⟨i, bc band d j⟩).e r c⟩ }

/-- Row of the sub-tile where the work starts: `first_element`, impl.h:168, 192, and the head tile of 89-96, 116-121. -/
def first (q : Nat) (i : Int) : Nat := if head band d j ∧ i = View.begin' d.row (r0 band j) then q else 0

/-- `splitTile` of the tiles of the panel, impl.h:588-594: they are inside of the tiles of `A`; the heads of the reflectors are in the first tile. -/
def checkPanel (s : RbSt K) : Option (RbSt K) :=
  if (∀ i ∈ rows band d j, cut band d j i + hgt band d j i ≤ (s.a ⟨i, bc band d j⟩).rows ∧ cc nb band j + band ≤ (s.a ⟨i, bc band d j⟩).cols) ∧
    (head band d j → nr n band j ≤ hgt band d j (View.begin' d.row (r0 band j)))
  then some s else none

/-- `computeX0AndSquares(has_head, tiles, q)`, impl.h:78-105, 620. -/
def x0sq (q : Nat) (s : RbSt K) : Option (RbSt K) :=
  let x0 := if head band d j then el nb band d j s (View.begin' d.row (r0 band j)) q q else 0
  let sq := (rows band d j).foldl (fun acc i => acc + ∑ r ∈ Finset.range (hgt band d j i - first band d j q i),
    star (el nb band d j s i (first band d j q i + r) q) * el nb band d j s i (first band d j q i + r) q) 0
  RbSt.rSq.write (2, 1) 0 ⟨2, 1, fun r _ => if r = 0 then x0 else sq⟩ s

/-- `taus({q, 0})` of tile `j` of `mat_taus_retiled`: row `j * band % nb + q` of tile `j * band / nb` of `mat_taus`. -/
def tauIdx : Int := dt.local_tile_from_global_tile ((c0 band j / nb : Nat) : Int)
def getTau (q : Nat) (s : RbSt K) : K := (s.tau (tauIdx nb band dt j)).e (cc nb band j + q) 0
def setTau (q : Nat) (v : K) (s : RbSt K) : RbSt K :=
  { s with tau := set1 s.tau (tauIdx nb band dt j) ⟨(s.tau (tauIdx nb band dt j)).rows, (s.tau (tauIdx nb band dt j)).cols, fun r c =>
      if r = cc nb band j + q ∧ c = 0 then v else (s.tau (tauIdx nb band dt j)).e r c⟩ }

/-- `scaleReflector`, impl.h:107-129, on one tile. -/
def scaleTile (q : Nat) (alpha : K) (s : RbSt K) (i : Int) : RbSt K :=
  updEl nb band d j i (fun r c => if c = q ∧ first band d j (q + 1) i ≤ r then alpha * el nb band d j s i r c else el nb band d j s i r c) s

/-- Writing the head of reflector `q`, impl.h:144-146, 651, 671-673. -/
def setHead (q : Nat) (v : K) (s : RbSt K) : RbSt K :=
  if head band d j then updEl nb band d j (View.begin' d.row (r0 band j)) (fun r c => if r = q ∧ c = q then v else
    el nb band d j s (View.begin' d.row (r0 band j)) r c) s else s

/-- `taus({q, 0}) = computeReflectorAndTau(has_head, tiles, q, x0_and_squares)`, impl.h:131-152, 637. -/
def reflTau (q : Nat) (s : RbSt K) : Option (RbSt K) :=
  (RbSt.rSq.read 0 s).bind fun b =>
    let x0 := b.e 0 0
    let sq := b.e 1 0
    if sq = 0 then some (setTau nb band dt j q 0 s) else
    let norm : K := (Real.sqrt (RCLike.re sq) : ℝ)
    let y := if E.signbit x0 then norm else -norm
    let s := setHead nb band d j q y s
    some (setTau nb band dt j q ((y - x0) / y) ((rows band d j).foldl (scaleTile nb band d j q (1 / (x0 - y))) s))

/-- `nworkers`, impl.h:596-602. -/
def nworkers : Nat := panelWorkers E.availP (rows band d j).length
/-- The tiles of worker `v`, impl.h:615-617. -/
def workerTiles (v : Nat) : List Int := (workerRange (rows band d j).length (nworkers band E d j) v).map fun x => (rows band d j).getD x 0

/-- The head is saved and set to one, the workers compute their part of `w` and worker 0 sums them up, impl.h:643-664 and 64-73, 154-178. -/
def wPhase (q : Nat) (s : RbSt K) : Option (RbSt K) :=
  let s1 : RbSt K := { setHead nb band d j q 1 s with y := el nb band d j s (View.begin' d.row (r0 band j)) q q }
  let w (v c : Nat) : K := (workerTiles band E d j v).foldl (fun acc i => acc + ∑ r ∈ Finset.range (hgt band d j i - first band d j q i),
    star (el nb band d j s1 i (first band d j q i + r) (q + 1 + c)) * el nb band d j s1 i (first band d j q i + r) q) 0
  RbSt.rWv.write (band - (q + 1), 1) 0 ⟨band - (q + 1), 1, fun c _ =>
    (upto 1 (nworkers band E d j)).foldl (fun x v => x + w v c) (w 0 c)⟩ s1

/-- `updateTrailingPanel`, impl.h:180-205, on one tile: `blas::ger` with `-conj(tau)`. -/
def updTile (q : Nat) (w : Blk K) (s : RbSt K) (i : Int) : RbSt K :=
  updEl nb band d j i (fun r c => if first band d j q i ≤ r ∧ q + 1 ≤ c then
      -(star (getTau nb band dt j q s)) * el nb band d j s i r q * star (w.e (c - (q + 1)) 0) + el nb band d j s i r c
    else el nb band d j s i r c) s

/-- The workers update their tiles, and the head is restored, impl.h:668-673. -/
def updPhase (q : Nat) (s : RbSt K) : Option (RbSt K) :=
  (RbSt.rWv.read 0 s).map fun w =>
    let s1 := ((List.range (nworkers band E d j)).flatMap (workerTiles band E d j)).foldl (updTile nb band d dt j q w) s
    setHead nb band d j q s1.y s1

/-- The loop over the reflectors of the panel from `q` on, impl.h:616-678; `fuel` is the number of iterations left. -/
def panelFrom : Nat → Nat → List (Instr (RbSt K) (Blk K))
  | 0, _ => []
  | fuel + 1, q =>
    [.loc (x0sq nb band d j q)] ++ allReduceTiles .Row d RbSt.rSq (fun _ => (2, 1)) [0] ++ [.loc (reflTau nb band E d dt j q)] ++
    [.dyn fun s =>
      if getTau nb band dt j q s = 0 then panelFrom fuel (q + 1)
      else if band - (q + 1) = 0 then []
      else [.loc (wPhase nb band E d j q)] ++ allReduceTiles .Row d RbSt.rWv (fun _ => (band - (q + 1), 1)) [0] ++
        [.loc (updPhase nb band E d dt j q)] ++ panelFrom fuel (q + 1)]

/-- Sizes of the tiles of the panels `V`, `W`, `X`: panel.h:338-349, impl.h:1291-1296. -/
def vSize (i : Int) : Nat × Nat := (hgt band d j i, nr n band j)
/-- Sizes of the tiles of the transposed panels (stored transposed, so as those of the column panels), panel.h:338-349. -/
def vtSize (l : Int) : Nat × Nat :=
  ((d.col.global_tile_size_of (d.col.global_tile_from_local_tile l) - View.panelCut d.col (r0 band j) l).toNat, nr n band j)
/-- Size of `T` and `W2`. -/
def tSize : Nat × Nat := (nr n band j, nr n band j)

/-- `setupReflectorPanelV(has_head, panel_view, nrefls, v, mat_a)`, impl.h:352-410, for the local tile row `i`: the tile with the head has at most
`nrefls` columns and becomes unit lower trapezoidal; the others are copied (or linked) with the width of the view. -/
def setV (i : Int) (s : RbSt K) : Option (RbSt K) :=
  if head band d j ∧ i = View.begin' d.row (r0 band j) then
    ((s.a ⟨i, bc band d j⟩).sub (cut band d j i) (cc nb band j) (hgt band d j i) (min (nr n band j) band)).bind fun t =>
      RbSt.rV.write (vSize n band d j i) i (lasetHH 0 t) s
  else ((s.a ⟨i, bc band d j⟩).sub (cut band d j i) (cc nb band j) (hgt band d j i) band).bind fun t =>
      RbSt.rV.write (vSize n band d j i) i t s

/-- The taus of the panel, a sub-tile of a tile of `mat_taus`. -/
def tausTile (s : RbSt K) : Blk K := ⟨nr n band j, 1, fun r _ => getTau nb band dt j r s⟩

/-- The local part of the T factor, factorization/qr/t_factor_impl.h:451-452. -/
def tLocal (s : RbSt K) : Option (RbSt K) :=
  ((rows band d j).mapM fun i => RbSt.rV.read i s).bind fun tiles =>
    (stepGemv E.availT tiles (tausTile n nb band dt j s) (Blk.zero (nr n band j) (nr n band j))
      ((List.range (E.availT - 1)).map fun w => getB (E.junk (4 * j + 1)) (w * band) 0 band (nr n band j))).bind fun t =>
        RbSt.rT.write (tSize n band j) 0 t s

/-- The end of the T factor, t_factor_impl.h:459. -/
def tFinish (s : RbSt K) : Option (RbSt K) :=
  (RbSt.rT.read 0 s).bind fun t => RbSt.rT.write (tSize n band j) 0 (copyDiagTrmv (tausTile n nb band dt j s) t) s

/-- `trmmComputeW`: `W = V T`, impl.h:412-433. -/
def setW (i : Int) (s : RbSt K) : Option (RbSt K) :=
  (RbSt.rT.read 0 s).bind fun t => (RbSt.rV.read i s).bind fun v =>
    (trmm3 .Right .Upper .NoTrans .NonUnit 1 t v ⟨(vSize n band d j i).1, (vSize n band d j i).2, E.junk (4 * j + 2)⟩).bind fun w =>
      RbSt.rW.write (vSize n band d j i) i w s

/-- Number of tile rows of the matrix, impl.h:1238. -/
def ntiles : Int := d.row.nrTiles
/-- Range of the transposed panels, `set_range_panelT`, impl.h:1239-1249. -/
def tStart : Int := if (r0 band j / nb : Nat) = ntiles d - 1 then ntiles d - 1 else (r0 band j / nb : Nat)
def tEnd : Int := ntiles d - 1
/-- Range of `xt` for the broadcast of `X`, impl.h:1400-1407. -/
def xtEnd : Int := if (r0 band j / nb : Nat) = ntiles d - 1 then ntiles d else ntiles d - 1

/-- Local tiles of the transposed panels, panel.h:127-133 (`iteratorLocal`). -/
def tTiles : List Int := irange (d.col.next_local_tile_from_global_tile (tStart nb band d j)) (d.col.next_local_tile_from_global_tile (tEnd d))

/-- `broadcast(rank_v0.col(), v, vt, mpi_row_chain, mpi_col_chain)`, impl.h:1324, 1340, 1411, with range `[.., eT)` of the transposed panel. -/
def mirror (R RT : ERef (RbSt K) K) (eT : Int) : List (Instr (RbSt K) (Blk K)) :=
  bcastMirror d (rootCol band d j) R RT (vSize n band d j) (vtSize n band d j) (rows band d j) (r0 band j / nb : Nat) (ntiles d) (tStart nb band d j) eT

/-- `set0(x)`, `set0(xt)`, impl.h:722-723. -/
def zeroX (i : Int) (s : RbSt K) : Option (RbSt K) :=
  RbSt.rX.write (vSize n band d j i) i (Blk.zero (vSize n band d j i).1 (vSize n band d j i).2) s
def zeroXt (l : Int) (s : RbSt K) : Option (RbSt K) :=
  RbSt.rXt.write (vtSize n band d j l) l (Blk.zero (vtSize n band d j l).1 (vtSize n band d j l).2) s

/-- The local tiles of the lower triangle of the trailing matrix: `limit`, impl.h:727-731, 836-840. -/
def limit (i : Int) : Int := d.col.next_local_tile_from_global_tile (d.row.global_tile_from_local_tile i + 1)
def hemmTiles : List Coord2 :=
  (rows band d j).flatMap fun i => (irange (View.begin' d.col (r0 band j)) (limit d i)).reverse.map fun l => ⟨i, l⟩
def her2kTiles : List Coord2 :=
  (rows band d j).flatMap fun i => (irange (View.begin' d.col (r0 band j)) (limit d i)).map fun l => ⟨i, l⟩

/-- Where the sub-tile of a tile of the trailing matrix starts and its size, `SubMatrixView`, views.h:107-126. -/
def aSpec (z : Coord2) : (Nat × Nat) × (Nat × Nat) :=
  let has := View.hasSub d ⟨(r0 band j : Nat), (r0 band j : Nat)⟩
  let r := View.matrixCut d.row (r0 band j) has z.row
  let c := View.matrixCut d.col (r0 band j) has z.col
  ((r.toNat, c.toNat),
   ((d.row.global_tile_size_of (d.row.global_tile_from_local_tile z.row) - r).toNat,
    (d.col.global_tile_size_of (d.col.global_tile_from_local_tile z.col) - c).toNat))

/-- The tasks of `hemmComputeX` for the tile `z` of `A`, impl.h:732-768. -/
def hemmTask (z : Coord2) (s : RbSt K) : Option (RbSt K) :=
  let gi := d.row.global_tile_from_local_tile z.row
  let gj := d.col.global_tile_from_local_tile z.col
  let p := aSpec band d j z
  ((s.a z).sub p.1.1 p.1.2 p.2.1 p.2.2).bind fun a =>
  if gi = gj then
    (RbSt.rW.read z.row s).bind fun w => (RbSt.rX.read z.row s).bind fun x => (hemm .Left .Lower 1 a w 1 x).bind fun x' =>
      RbSt.rX.write (vSize n band d j z.row) z.row x' s
  else
    (RbSt.rWt.read z.col s).bind fun wt => (RbSt.rX.read z.row s).bind fun x => (gemm .NoTrans .NoTrans 1 a wt 1 x).bind fun x' =>
    (RbSt.rX.write (vSize n band d j z.row) z.row x' s).bind fun s =>
      (RbSt.rW.read z.row s).bind fun w =>
      if d.row.rank_global_tile gj = d.row.rank then
        let i := d.row.local_tile_from_global_tile gj
        (RbSt.rX.read i s).bind fun x => (gemm .ConjTrans .NoTrans 1 a w 1 x).bind fun x' => RbSt.rX.write (vSize n band d j i) i x' s
      else
        (RbSt.rXt.read z.col s).bind fun x => (gemm .ConjTrans .NoTrans 1 a w 1 x).bind fun x' =>
          RbSt.rXt.write (vtSize n band d j z.col) z.col x' s

/-- The reduction of the column `l` of `xt` to the process row that owns the tile in `x`, impl.h:782-807: the owner contributes (and receives) its
tile of `x`, the others send their tile of `xt`. -/
def reduceXt (l : Int) : List (Instr (RbSt K) (Blk K)) :=
  let gk := d.col.global_tile_from_local_tile l
  let owner := d.row.rank_global_tile gk
  let ch := Chan.col d.col.rank
  let i := d.row.local_tile_from_global_tile gk
  if owner = d.row.rank then
    [.post ch fun s => (RbSt.rX.read i s).map fun b => (s, b),
     .take ch (.reduce owner) ((irange 0 d.row.grid).map ch.rankOf) fun s vs => (sumBlk vs).bind fun b => RbSt.rX.write (vSize n band d j i) i b s]
  else
    [.post ch fun s => (RbSt.rXt.read l s).map fun b => (s, b), .take ch (.reduce owner) [] fun s _ => some s]

/-- The reduction of the row `i` of `x` to the process column of the panel, impl.h:813-822. -/
def reduceX (i : Int) : List (Instr (RbSt K) (Blk K)) :=
  let ch := Chan.row d.row.rank
  if rootCol band d j = d.col.rank then
    [.post ch fun s => (RbSt.rX.read i s).map fun b => (s, b),
     .take ch (.reduce (rootCol band d j)) ((irange 0 d.col.grid).map ch.rankOf) fun s vs =>
        (sumBlk vs).bind fun b => RbSt.rX.write (vSize n band d j i) i b s]
  else
    [.post ch fun s => (RbSt.rX.read i s).map fun b => (s, b), .take ch (.reduce (rootCol band d j)) [] fun s _ => some s]

/-- `gemmComputeW2`: `W2 = Wᴴ X`, impl.h:504-528; `T` is reused for `W2`, impl.h:1376. -/
def zeroW2 (s : RbSt K) : Option (RbSt K) := RbSt.rT.write (tSize n band j) 0 (Blk.zero (nr n band j) (nr n band j)) s
def addW2 (i : Int) (s : RbSt K) : Option (RbSt K) :=
  (RbSt.rW.read i s).bind fun w => (RbSt.rX.read i s).bind fun x => (RbSt.rT.read 0 s).bind fun w2 =>
    (gemm .ConjTrans .NoTrans 1 w x 1 w2).bind fun t => RbSt.rT.write (tSize n band j) 0 t s

/-- `gemmUpdateX`: `X -= 1/2 V W2`, impl.h:435-452. -/
def updX (i : Int) (s : RbSt K) : Option (RbSt K) :=
  (RbSt.rV.read i s).bind fun v => (RbSt.rT.read 0 s).bind fun w2 => (RbSt.rX.read i s).bind fun x =>
    (gemm .NoTrans .NoTrans (-(1 / 2)) v w2 1 x).bind fun x' => RbSt.rX.write (vSize n band d j i) i x' s

/-- The tasks of `her2kUpdateTrailingMatrix` for the tile `z` of `A`, impl.h:841-862. -/
def her2kTask (z : Coord2) (s : RbSt K) : Option (RbSt K) :=
  let gi := d.row.global_tile_from_local_tile z.row
  let gj := d.col.global_tile_from_local_tile z.col
  let p := aSpec band d j z
  if gi = gj then
    (RbSt.rV.read z.row s).bind fun v => (RbSt.rX.read z.row s).bind fun x =>
      ((s.a z).onSub p.1.1 p.1.2 p.2.1 p.2.2 fun a => her2k .Lower .NoTrans (-1) v x 1 a).map fun t => { s with a := set1 s.a z t }
  else
    (RbSt.rX.read z.row s).bind fun x => (RbSt.rVt.read z.col s).bind fun vt => (RbSt.rV.read z.row s).bind fun v => (RbSt.rXt.read z.col s).bind fun xt =>
      ((s.a z).onSub p.1.1 p.1.2 p.2.1 p.2.2 fun a => (gemm .NoTrans .ConjTrans (-1) x vt 1 a).bind fun a => gemm .NoTrans .ConjTrans (-1) v xt 1 a).map
        fun t => { s with a := set1 s.a z t }

/-- The panel of an iteration: reflectors, `V` and `T`, impl.h:1303-1320 (the processes of the column of the panel). -/
def panelPart : List (Instr (RbSt K) (Blk K)) :=
  [.loc (checkPanel n nb band d j)] ++ panelFrom nb band E d dt j (nr n band j) 0 ++
  (rows band d j).map (fun i => .loc (setV n nb band d j i)) ++
  [.loc (tLocal n nb band E d dt j)] ++
  (if 1 < d.row.grid then allReduceTiles .Row d RbSt.rT (fun _ => tSize n band j) [0] else []) ++
  [.loc (tFinish n nb band dt j)]

/-- `X = At W`, impl.h:1361-1362. -/
def hemmPart : List (Instr (RbSt K) (Blk K)) :=
  (rows band d j).map (fun i => .loc (zeroX n band d j i)) ++
  (tTiles nb band d j).map (fun l => .loc (zeroXt n band d j l)) ++
  (hemmTiles band d j).map (fun z => .loc (hemmTask n band d j z)) ++
  (if 1 < d.row.grid then (tTiles nb band d j).flatMap (reduceXt n band d j) else []) ++
  (if 1 < d.col.grid then (rows band d j).flatMap (reduceX n band d j) else [])

/-- `W2` and the update of `X`, impl.h:1373-1386. -/
def xPart : List (Instr (RbSt K) (Blk K)) :=
  [.loc (zeroW2 n band j)] ++ (rows band d j).map (fun i => .loc (addW2 n band j i)) ++
  (if 1 < d.row.grid then allReduceTiles .Row d RbSt.rT (fun _ => tSize n band j) [0] else []) ++
  (rows band d j).map (fun i => .loc (updX n band d j i))

/-- The end of an iteration, impl.h:1507-1512. -/
def resetAll (s : RbSt K) : RbSt K :=
  RbSt.rV.reset (RbSt.rVt.reset (RbSt.rW.reset (RbSt.rWt.reset (RbSt.rX.reset (RbSt.rXt.reset (RbSt.rT.reset s))))))

/-- Iteration `j`, impl.h:1270-1513. -/
def step : List (Instr (RbSt K) (Blk K)) :=
  (if d.col.rank = rootCol band d j then panelPart n nb band E d dt j else []) ++
  if r0 band j < n then
    mirror n nb band d j RbSt.rV RbSt.rVt (tEnd d) ++
    (if d.col.rank = rootCol band d j then (rows band d j).map (fun i => .loc (setW n band E d j i)) else []) ++
    mirror n nb band d j RbSt.rW RbSt.rWt (tEnd d) ++
    hemmPart n nb band d j ++
    (if d.col.rank = rootCol band d j then xPart n band d j else []) ++
    [.loc fun s => some (RbSt.rXt.reset s)] ++
    mirror n nb band d j RbSt.rX RbSt.rXt (xtEnd nb band d j) ++
    (her2kTiles band d j).map (fun z => .loc (her2kTask band d j z)) ++
    [.loc fun s => some (resetAll s)]
  else []

end

/-- `reduction_to_band` with a grid on one process, impl.h:1150-1516; `pipelines` is `grid.num_pipelines()`.  The assertions of the interface
(reduction_to_band.h:83-95) are the caller's obligations in the theorem, except `2 ≤ band_size`. -/
def program (pipelines n nb band : Nat) (E : RedEnv K) (d : Distribution) (dt : Dist1) : List (Instr (RbSt K) (Blk K)) :=
  [.loc fun s => if 2 ≤ band ∧ 2 ≤ pipelines ∧ nb % band = 0 then some s else none] ++
  if n - band - 1 = 0 then [] else
  (upto 0 ((n - band - 1 - 1) / band + 1)).flatMap fun j => step n nb band E d dt j

end DistRed
end
end DLAF
