import Verif.Model.DistElem
import Verif.Model.BtRedBand
/-
Model of the distributed back-transformation of the reduction to band, include/dlaf/eigensolver/bt_reduction_to_band/impl.h:255-398
(`BackTransformationReductionToBand::call` with a grid, CPU) with the distributed T factor, factorization/qr/t_factor_impl.h:421-460, for matrices
without offset and with one tile per block.
-/
namespace DLAF
variable {K : Type*}

/-- The memory of one process: the tiles of `C` and of `V` by local index, the tiles of `mat_taus` by local row index, and the panels of
the current iteration (impl.h:286-301: `panelV`, `panelW`, `panelW2`, `panelT`). -/
structure DBtSt (K : Type*) where
  c : Coord2 → Blk K
  v : Coord2 → Blk K
  tau : Int → Blk K
  pV : EPanel K
  pW : EPanel K
  pW2 : EPanel K
  pT : EPanel K

namespace DBtSt
def rV : ERef (DBtSt K) K := ⟨fun s => s.pV, fun s p => { s with pV := p }⟩
def rW : ERef (DBtSt K) K := ⟨fun s => s.pW, fun s p => { s with pW := p }⟩
def rW2 : ERef (DBtSt K) K := ⟨fun s => s.pW2, fun s p => { s with pW2 := p }⟩
def rT : ERef (DBtSt K) K := ⟨fun s => s.pT, fun s p => { s with pT := p }⟩
end DBtSt

namespace DistBt
variable [Field K] [StarRing K]
section
/- `n` is the order of `V`, `mb` its tile size, `b` the band width, `avail` the number of workers of the process, `junk` what is in the
workspaces; `dv`, `dc`, `dt` are the distributions of `V`, `C` and of the rows of `mat_taus`; `k` the iteration. -/
variable (n mb b : Int) (avail : Nat) (junk : Int → Blk K) (dv dc : Distribution) (dt : Dist1) (k : Int)

/-- `nr_reflectors`, impl.h:307: width of tile `k` of `dist_t`, which has `n - b - 1` columns. -/
def nr : Nat := (min mb (n - b - 1 - k * mb)).toNat

/-- First row of the reflectors of the block, impl.h:309-310. -/
def off : Int := k * mb + b

/-- Sizes of the tiles of `panelV` and `panelW`: the first tile is cut, impl.h:320-329, panel.h:338-349. -/
def vSize (i : Int) : Nat × Nat :=
  ((dv.row.global_tile_size_of (dv.row.global_tile_from_local_tile i) - View.panelCut dv.row (off mb b k) i).toNat, nr n mb b k)

/-- Sizes of the tiles of `panelW2`. -/
def w2Size (j : Int) : Nat × Nat := (nr n mb b k, (dc.col.global_tile_size_of (dc.col.global_tile_from_local_tile j)).toNat)

/-- Process column of the block, impl.h:332. -/
def rootCol : Int := dv.col.rank_global_tile k

/-- The tile of `panelV` for the local tile row `i`, impl.h:335-352; the third case links the whole tile. -/
def setV (i : Int) (s : DBtSt K) : Option (DBtSt K) :=
  let idx : Coord2 := ⟨i, dv.col.next_local_tile_from_global_tile k⟩
  let jd := max 0 (dv.row.global_tile_from_local_tile i * mb - off mb b k)
  let cut := (View.panelCut dv.row (off mb b k) i).toNat
  let sz := vSize n mb b dv k i
  let sub := (s.v idx).sub cut 0 sz.1 (min (nr n mb b k) (s.v idx).cols)
  if jd < nr n mb b k then sub.bind fun t => DBtSt.rV.write sz i (lasetHH jd.toNat t) s
  else if jd < mb then sub.bind fun t => DBtSt.rV.write sz i t s
  else DBtSt.rV.write sz i (s.v idx) s

/-- Local index of `T` and of the taus of the block, impl.h:354-356. -/
def tIdx : Int := dv.col.local_tile_from_global_tile k

/-- The local part of the T factor, t_factor_impl.h:451-452: `T` is set to zero, and the local tiles of the panel added. -/
def tLocal (s : DBtSt K) : Option (DBtSt K) :=
  ((View.tiles dv.row (off mb b k)).mapM fun i => DBtSt.rV.read i s).bind fun tiles =>
    (stepGemv avail tiles (s.tau (dt.local_tile_from_global_tile k)) (Blk.zero (nr n mb b k) (nr n mb b k))
      ((List.range (avail - 1)).map fun w : Nat => ⟨mb.toNat, nr n mb b k, (junk w).e⟩)).bind fun t =>
        DBtSt.rT.write (nr n mb b k, nr n mb b k) (tIdx dv k) t s

/-- The end of the T factor, t_factor_impl.h:459. -/
def tFinish (s : DBtSt K) : Option (DBtSt K) :=
  (DBtSt.rT.read (tIdx dv k) s).bind fun t =>
    DBtSt.rT.write (nr n mb b k, nr n mb b k) (tIdx dv k) (copyDiagTrmv (s.tau (dt.local_tile_from_global_tile k)) t) s

/-- `trmmPanel`: `W = V Tᴴ`, impl.h:361-364. -/
def setW (i : Int) (s : DBtSt K) : Option (DBtSt K) :=
  (DBtSt.rT.read (tIdx dv k) s).bind fun t => (DBtSt.rV.read i s).bind fun v =>
    (trmm3 .Right .Upper .ConjTrans .NonUnit 1 t v ⟨(vSize n mb b dv k i).1, (vSize n mb b dv k i).2, (junk i).e⟩).bind fun w =>
      DBtSt.rW.write (vSize n mb b dv k i) i w s

/-- `set0(panelW2)`, impl.h:367. -/
def zeroW2 (j : Int) (s : DBtSt K) : Option (DBtSt K) :=
  DBtSt.rW2.write (w2Size n mb b dc k j) j (Blk.zero (w2Size n mb b dc k j).1 (w2Size n mb b dc k j).2) s

/-- The local tiles of the trailing rows of `C`, column by column, impl.h:310, 313, 372, 387. -/
def cTiles : List Coord2 :=
  (View.tiles dc.col 0).flatMap fun j => (View.tiles dc.row (off mb b k)).map fun i => ⟨i, j⟩

/-- Where the sub-tile of a tile of `C` starts and its size, impl.h:313, 373. -/
def cSpec (z : Coord2) : (Nat × Nat) × (Nat × Nat) :=
  let has := View.hasSub dc ⟨off mb b k, 0⟩
  let r0 := View.matrixCut dc.row (off mb b k) has z.row
  let c0 := View.matrixCut dc.col 0 has z.col
  ((r0.toNat, c0.toNat),
   ((dc.row.global_tile_size_of (dc.row.global_tile_from_local_tile z.row) - r0).toNat,
    (dc.col.global_tile_size_of (dc.col.global_tile_from_local_tile z.col) - c0).toNat))

/-- `gemmUpdateW2`: `W2 += Wᴴ C`, impl.h:371-375. -/
def addW2 (z : Coord2) (s : DBtSt K) : Option (DBtSt K) :=
  let p := cSpec mb b dc k z
  (DBtSt.rW.read z.row s).bind fun w => ((s.c z).sub p.1.1 p.1.2 p.2.1 p.2.2).bind fun c => (DBtSt.rW2.read z.col s).bind fun w2 =>
    (gemm .ConjTrans .NoTrans 1 w c 1 w2).bind fun d => DBtSt.rW2.write (w2Size n mb b dc k z.col) z.col d s

/-- `gemmTrailingMatrix`: `C -= V W2`, impl.h:386-390. -/
def subC (z : Coord2) (s : DBtSt K) : Option (DBtSt K) :=
  let p := cSpec mb b dc k z
  (DBtSt.rV.read z.row s).bind fun v => (DBtSt.rW2.read z.col s).bind fun w2 =>
    ((s.c z).onSub p.1.1 p.1.2 p.2.1 p.2.2 fun c => gemm .NoTrans .NoTrans (-1) v w2 1 c).map fun t => { s with c := set1 s.c z t }

/-- Iteration `k`, impl.h:305-397. -/
def step : List (Instr (DBtSt K) (Blk K)) :=
  let rows := View.tiles dv.row (off mb b k)
  let cols := View.tiles dc.col 0
  (if dv.col.rank = rootCol dv k then
    rows.map (fun i => .loc (setV n mb b dv k i)) ++
    [.loc (tLocal n mb b avail junk dv dt k)] ++
    (if 1 < dv.row.grid then allReduceTiles .Row dv DBtSt.rT (fun _ => (nr n mb b k, nr n mb b k)) [tIdx dv k] else []) ++
    [.loc (tFinish n mb b dv dt k)] ++
    rows.map (fun i => .loc (setW n mb b junk dv k i))
   else []) ++
  cols.map (fun j => .loc (zeroW2 n mb b dc k j)) ++
  bcastTiles .Col dv (rootCol dv k) DBtSt.rW (vSize n mb b dv k) rows ++
  (cTiles mb b dc k).map (fun z => .loc (addW2 n mb b dc k z)) ++
  (if 1 < dv.row.grid then allReduceTiles .Row dv DBtSt.rW2 (w2Size n mb b dc k) cols else []) ++
  bcastTiles .Col dv (rootCol dv k) DBtSt.rV (vSize n mb b dv k) rows ++
  (cTiles mb b dc k).map (fun z => .loc (subC mb b dc k z)) ++
  [.loc fun s => some (DBtSt.rT.reset (DBtSt.rW2.reset (DBtSt.rW.reset (DBtSt.rV.reset s))))]

end

/-- `BackTransformationReductionToBand::call` with a grid on one process, impl.h:255-398; the assertions of the interface are
bt_reduction_to_band.h:86-107 (the caller's obligations in the theorem). -/
def program (n mb b : Int) (avail : Nat) (junk : Int → Int → Blk K) (dv dc : Distribution) (dt : Dist1) :
    List (Instr (DBtSt K) (Blk K)) :=
  if dc.row.nrTiles = 0 ∨ dc.col.nrTiles = 0 then [] else
  if n - b - 1 ≤ 0 then [] else
  (irange 0 (ceilDiv (n - b - 1) mb)).reverse.flatMap fun k => step n mb b avail (junk k) dv dc dt k

end DistBt
end DLAF
