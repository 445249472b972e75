import Verif.Model.BtBandTridiag
import Verif.Model.DistElem
/-
Model of the distributed back-transformation from tridiagonal to band form, include/dlaf/eigensolver/bt_band_to_tridiag/impl.h:719-1029
(`BackTransformationT2B::call` with a grid, CPU) with `TileAccessHelper` (322-430) and `DistIndexing` (448-500), for matrices without offset and with one tile per
block.  The kernels are those of Model/BtBandTridiag.lean.

`mat_e_rt` (impl.h:740-741) is `mat_e` with tiles cut into `b` rows (retiling: C14): its tile `I` of a column is the rows `[I b, (I + 1) b)`, part of the tile of `mat_e`
with the row `I b`.

Simplifications: the two instances of every panel, which alternate, are one (whatever is read from a panel was written in the same iteration); what the panels for
`V`, `T`, `W` and `W2` contain before they are written is a parameter (`T2BEnv.junk*`); the MPI receive of the reflectors requires a message of the expected size.
-/
namespace DLAF
variable {K : Type*}

/-- The memory of one process: the tiles of `mat_e` and `mat_hh` by local index; the panels by the local index of their tile: `panel_hh`, the sub-tiles of `mat_v` and
`mat_w` in use, and, by the local tile column also, those of `mat_w2tmp` and `mat_w2`. -/
structure DT2BSt (K : Type*) where
  e : Coord2 → Blk K
  hh : Coord2 → Blk K
  pHH : Int → Blk K
  v : Int → Blk K
  w : Int → Blk K
  tmp : Int → Int → Blk K
  w2 : Int → Int → Blk K

namespace DistT2B

/-- The order of the blocks `(i_b, j_b)`, impl.h:805-823: the outer loop over `k`, and the inner loop, which ends with the first block that does not satisfy the condition (at the latest
after `n` blocks, because `i_b` grows). -/
def epochs (cplx : Bool) (n b : Nat) : List (Nat × Nat) :=
  (irange (1 - (t2bSteps 0 n b : Int)) ((((t2bSweeps cplx n - 1) / b : Nat) : Int) + 1)).reverse.flatMap fun k =>
    ((List.range n).map fun t => (k.natAbs + 2 * t, k.toNat + t)).takeWhile fun z => z.1 < z.2 + t2bSteps (z.2 * b) n b

section
/- `n` is the order, `b` the band width, `dh` and `de` are the distributions of `mat_hh` and `mat_e`, `i` and `j` are `i_b` and `j_b`. -/
variable (n b : Nat) (dh de : Distribution) (i j : Nat)

/-- `ij_g`, impl.h:826. -/
def tileRow : Int := dh.row.global_tile_from_global_element ((i * b : Nat) : Int)
@[inherit_doc tileRow] def tileCol : Int := dh.col.global_tile_from_global_element ((j * b : Nat) : Int)

/-- `rankHH`, impl.h:829. -/
def rankRow : Int := dh.row.rank_global_tile (tileRow b dh i)
@[inherit_doc rankRow] def rankCol : Int := dh.col.rank_global_tile (tileCol b dh j)

/-- `rankRowPartner`, impl.h:458-460. -/
def partner : Int := cmod (rankRow b dh i + 1) dh.row.grid

/-- The process row of tile row `I` of `mat_e_rt`. -/
def eRank (I : Nat) : Int := de.row.rank_global_tile (de.row.global_tile_from_global_element ((I * b : Nat) : Int))

/-- `affectsMultipleTiles`, impl.h:363; `mat_e_rt` has `ceil(n / b)` tile rows. -/
def acrossTiles : Bool := decide (¬ i + 1 = (n + b - 1) / b)

/-- `affectsMultipleRanks`, impl.h:365-366. -/
def acrossRanks : Bool := acrossTiles n b i && decide (eRank b de i ≠ eRank b de (i + 1))

/-- `isInvolved`, impl.h:462-466. -/
def involved : Bool :=
  decide (dh.row.rank = rankRow b dh i) || (decide (dh.row.rank = partner b dh i) && acrossRanks n b de i)

/-- `n_ws_per_block`, impl.h:455. -/
def wsPerBlock : Int := cdiv (cdiv dh.row.tileSize b + 1) 2 + 1

/-- `nlocal_ws`, impl.h:762-763: number of tiles of the panels. -/
def wsTiles : Int := max 1 (dh.row.localNrTiles * (ceilDiv (cdiv dh.row.tileSize b) 2 + 1))

/-- `wsIndexHH`, impl.h:468-485, and the assertion of the panel that it has that tile. -/
def slot : Option Int :=
  (if dh.row.rank = rankRow b dh i then
    let intra := 1 + cdiv (cmod i (cdiv dh.row.tileSize b)) 2
    if intra < wsPerBlock b dh then some (dh.row.local_tile_from_global_tile (tileRow b dh i) * wsPerBlock b dh + intra) else none
  else if dh.row.localNrTiles = 0 ∨ dh.col.localNrTiles = 0 then some 0
  else some (dh.row.local_tile_from_global_tile (tileRow b dh i + 1) * wsPerBlock b dh)).bind fun s =>
    if 0 ≤ s ∧ s < wsTiles b dh then some s else none

/-- Size of `specHHCompact`, impl.h:325-327. -/
def hhSize : Nat × Nat := (min b (n - i * b), min b (n - j * b))

/-- `splitTile(mat_hh.read(ij_g), helper.specHHCompact())`. -/
def readHH (s : DT2BSt K) : Option (Blk K) :=
  (s.hh ⟨dh.row.local_tile_from_global_tile (tileRow b dh i), dh.col.local_tile_from_global_tile (tileCol b dh j)⟩).sub
    (dh.row.tile_element_from_global_element ((i * b : Nat) : Int)).toNat (dh.col.tile_element_from_global_element ((j * b : Nat) : Int)).toNat
    (hhSize n b i j).1 (hhSize n b i j).2

/-- `splitTile(panel_hh.read(ij_hh_panel), helper.specHHCompact(true))`. -/
def readPanel (s : DT2BSt K) : Option (Blk K) := (slot b dh i).bind fun q => (s.pHH q).sub 0 0 (hhSize n b i j).1 (hhSize n b i j).2

/-- Receive a message of `h x w` elements into the upper left part of the tile of `panel_hh`, which has `b x b` elements. -/
def storePanel (h w : Nat) (s : DT2BSt K) (x : Blk K) : Option (DT2BSt K) :=
  (slot b dh i).bind fun q =>
    if x.rows = h ∧ x.cols = w ∧ h ≤ b ∧ w ≤ b then
      some { s with pHH := set1 s.pHH q ⟨b, b, fun r c => if r < h ∧ c < w then x.e r c else (s.pHH q).e r c⟩ }
    else none

/-- Broadcast on the row, impl.h:866-879. -/
def rowBcast : List (Instr (DT2BSt K) (Blk K)) :=
  if 1 < dh.col.grid ∧ dh.row.rank = rankRow b dh i then
    if dh.col.rank = rankCol b dh j then
      bcastSend (.row dh.row.rank) (rankCol b dh j) fun s => (readHH n b dh i j s).map fun x => (s, x)
    else
      bcastRecv (.row dh.row.rank) (rankCol b dh j) (storePanel b dh i (hhSize n b i j).1 (hhSize n b i j).2)
  else []

/-- Point-to-point message to the partner row, impl.h:887-902: like a broadcast between two processes. -/
def colSend : List (Instr (DT2BSt K) (Blk K)) :=
  if acrossRanks n b de i then
    let ch := Chan.duo 0 dh.col.rank (rankRow b dh i) (partner b dh i) 0
    if dh.row.rank = rankRow b dh i then
      bcastSend ch 0 fun s => (if dh.col.rank = rankCol b dh j then readHH n b dh i j s else readPanel n b dh i j s).map fun x => (s, x)
    else if dh.row.rank = partner b dh i then bcastRecv ch 0 (storePanel b dh i b b)
    else []
  else []

section
variable [Field K] [StarRing K] (E : T2BEnv K)

/-- `nrefls`, impl.h:833-840. -/
def nrefls : Nat := t2bRefls E.cplx n b ((t2bSweeps E.cplx n - 1) / b) (t2bSteps (j * b) n b) j (i - j)

/-- `rows_v_` and `rows_v_top_`, impl.h:338-339. -/
def rowsV : Nat := min (2 * b) (n - i * b) - 1
@[inherit_doc rowsV] def rowsTop : Nat := min (rowsV n b i) (b - 1)

/-- The parameters with `current_group_size`, impl.h:906. -/
def curEnv : T2BEnv K := { E with group := if acrossRanks n b de i then b else E.group }

/-- `V` and `W`, impl.h:909-916, 512-526. -/
def setVW (s : DT2BSt K) : Option (DT2BSt K) :=
  (slot b dh i).bind fun q =>
    (if dh.row.rank = rankRow b dh i ∧ dh.col.rank = rankCol b dh j then readHH n b dh i j s else readPanel n b dh i j s).bind fun hh =>
      (computeVW (curEnv n b de i E) b hh (getB (E.junkV j (i - j)) 0 0 (rowsV n b i) (nrefls n b i j E))
        (getB (E.junkT j (i - j)) 0 0 (nrefls n b i j E) (nrefls n b i j E)) (getB (E.junkW j (i - j)) 0 0 (rowsV n b i) (nrefls n b i j E))).map fun vw =>
          { s with v := set1 s.v q vw.1, w := set1 s.w q vw.2 }

/-- Width of local tile column `je` of `mat_e`. -/
def eCols (je : Int) : Nat := (de.col.global_tile_size_of (de.col.global_tile_from_local_tile je)).toNat

/-- The tile of `mat_e` with tile row `I` of `mat_e_rt`, and the first row in it, after `x0` rows. -/
def eTile (I : Nat) (je : Int) : Coord2 := ⟨de.row.local_tile_from_global_tile (de.row.global_tile_from_global_element ((I * b : Nat) : Int)), je⟩
@[inherit_doc eTile] def eRow (I x0 : Nat) : Nat := (de.row.tile_element_from_global_element ((I * b : Nat) : Int)).toNat + x0

/-- The tile `(I, je)` of `mat_e_rt` without its first `x0` rows. -/
def eRead (I x0 : Nat) (je : Int) (s : DT2BSt K) : Option (Blk K) :=
  (s.e (eTile b de I je)).sub (eRow b de I x0) 0 (min b (n - I * b) - x0) (eCols de je)

/-- A task on the tile `(I, je)` of `mat_e_rt` without its first `x0` rows. -/
def eOn (I x0 : Nat) (je : Int) (f : Blk K → Option (Blk K)) (s : DT2BSt K) : Option (DT2BSt K) :=
  ((s.e (eTile b de I je)).onSub (eRow b de I x0) 0 (min b (n - I * b) - x0) (eCols de je) f).map fun t => { s with e := set1 s.e (eTile b de I je) t }

/-- The contents of the tile of `mat_w2` before. -/
def junkW2 (je : Int) : Blk K := ⟨nrefls n b i j E, eCols de je, fun r c => E.junkW2 j (i - j) r (je.toNat + c)⟩

/-- One tile row, impl.h:927-936. -/
def updSingle (je : Int) (s : DT2BSt K) : Option (DT2BSt K) :=
  (slot b dh i).bind fun q => eOn n b de i 0 je (applySingle (curEnv n b de i E) (s.v q) (s.w q) (junkW2 n b de i j E je)) s

/-- Two tile rows on the same process row, impl.h:942-951. -/
def updDouble (je : Int) (s : DT2BSt K) : Option (DT2BSt K) :=
  (slot b dh i).bind fun q => (eRead n b de i 0 je s).bind fun et => (eRead n b de (i + 1) 0 je s).bind fun eb =>
    (applyDouble (curEnv n b de i E) (s.v q) (s.w q) (junkW2 n b de i j E je) (et, eb)).bind fun r =>
      (eOn n b de i 0 je (fun _ => some r.1) s).bind (eOn n b de (i + 1) 0 je fun _ => some r.2)

/-- `is_top_rank`, impl.h:954. -/
def isTop : Bool := decide (dh.row.rank = rankRow b dh i)

/-- `specHH(is_top_rank)`, impl.h:393-398. -/
def vSub (x : Blk K) : Option (Blk K) :=
  if isTop b dh i then x.sub 0 0 (rowsTop n b i) (nrefls n b i j E) else x.sub (rowsTop n b i) 0 (rowsV n b i - rowsTop n b i) (nrefls n b i j E)

/-- `idx_e` and `spec_e`, impl.h:962-965: the own tile row and the number of rows skipped. -/
def ownRow : Nat := if isTop b dh i then i else i + 1
@[inherit_doc ownRow] def skipRows : Nat := if isTop b dh i then 1 else 0

/-- `W2 = Vᴴ E`, the own part, impl.h:967-977. -/
def w2Own (je : Int) (s : DT2BSt K) : Option (DT2BSt K) :=
  (slot b dh i).bind fun q => (vSub n b dh i j E (s.v q)).bind fun v => (eRead n b de (ownRow b dh i) (skipRows b dh i) je s).bind fun e =>
    (gemm .ConjTrans .NoTrans 1 v e 0 (junkW2 n b de i j E je)).map fun t => { s with tmp := set1 s.tmp q (set1 (s.tmp q) je t) }

/-- The message of `schedule_sum_p2p`, p2p_allsum.h:64. -/
def w2Send (je : Int) (s : DT2BSt K) : Option (DT2BSt K × Blk K) :=
  (slot b dh i).map fun q => (s, s.tmp q je)

/-- The sum of the own part and that of the partner, p2p_allsum.h:66-69. -/
def w2Recv (je : Int) (s : DT2BSt K) (x : Blk K) : Option (DT2BSt K) :=
  (slot b dh i).bind fun q =>
    if x.rows = (s.tmp q je).rows ∧ x.cols = (s.tmp q je).cols then
      some { s with w2 := set1 s.w2 q (set1 (s.w2 q) je ⟨x.rows, x.cols, fun r c => x.e r c + (s.tmp q je).e r c⟩) }
    else none

/-- `E -= W W2` on the own tile row, impl.h:985-993. -/
def updOwn (je : Int) (s : DT2BSt K) : Option (DT2BSt K) :=
  (slot b dh i).bind fun q => (vSub n b dh i j E (s.w q)).bind fun w =>
    eOn n b de (ownRow b dh i) (skipRows b dh i) je (fun e => gemm .NoTrans .NoTrans (-1) w (s.w2 q je) 1 e) s

/-- `rank_partner`, impl.h:955-956. -/
def mate : Int := if isTop b dh i then partner b dh i else rankRow b dh i

/-- `schedule_sum_p2p`, impl.h:979-983, with its tag, impl.h:958. -/
def w2Sum (je : Int) : List (Instr (DT2BSt K) (Blk K)) :=
  let ch := Chan.duo 1 dh.col.rank (min dh.row.rank (mate b dh i)) (max dh.row.rank (mate b dh i)) (je + i * de.col.localNrTiles)
  [.post ch (w2Send b dh i je), .take ch .exchange [⟨mate b dh i, dh.col.rank⟩] (recvOne (w2Recv b dh i je))]

/-- Update of local tile column `je`, impl.h:919-997. -/
def update (je : Int) : List (Instr (DT2BSt K) (Blk K)) :=
  if acrossTiles n b i = false then [.loc (updSingle n b dh de i j E je)]
  else if acrossRanks n b de i = false then [.loc (updDouble n b dh de i j E je)]
  else [.loc (w2Own n b dh de i j E je)] ++ w2Sum b dh de i je ++ [.loc (updOwn n b dh de i j E je)]

/-- The block `(i, j)`, impl.h:824-1007. -/
def step : List (Instr (DT2BSt K) (Blk K)) :=
  if involved n b dh de i then
    rowBcast n b dh i j ++
    (if de.col.localNrTiles = 0 then [] else
      colSend n b dh de i j ++ [.loc (setVW n b dh de i j E)] ++ (irange 0 de.col.localNrTiles).flatMap (update n b dh de i j E))
  else []

end
end

variable [Field K] [StarRing K]

/-- `BackTransformationT2B::call` with a grid on one process, impl.h:719-1029, with the assertions of the interface on the band width, bt_band_to_tridiag.h:131-132 (the other ones are
obligations of the caller in the theorem); `pipelines` is the number of communicator pipelines of the grid (785). -/
def program (E : T2BEnv K) (pipelines b : Nat) (dh de : Distribution) : List (Instr (DT2BSt K) (Blk K)) :=
  if ¬ (2 ≤ b ∧ cmod dh.row.tileSize b = 0) then [.loc fun _ => none] else
  if dh.row.size = 0 ∨ dh.col.size = 0 ∨ de.row.size = 0 ∨ de.col.size = 0 then [] else
  if t2bSweeps E.cplx dh.row.size.toNat = 0 then [] else
  if pipelines < 2 then [.loc fun _ => none] else
  (epochs E.cplx dh.row.size.toNat b).flatMap fun z => step dh.row.size.toNat b dh de z.1 z.2 E

end DistT2B
end DLAF
