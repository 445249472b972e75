import Verif.Model.Views
import Verif.Model.TFactor
/-
Model of the back-transformation of the reduction of a band matrix to tridiagonal form on local memory,
include/dlaf/eigensolver/bt_band_to_tridiag/impl.h (`BackTransformationT2B<MC, CPU, T>::call`, 607-717) and bt_band_to_tridiag.h.
Matrices are their elements, tiles are windows (Model/Views.lean).  `none` is an assertion failure or an access outside of a tile.
The tasks are in program order (other schedules: C43).
-/
namespace DLAF
variable {K : Type*} [Field K] [StarRing K]

/-- `Tile::subTileReference({{r0, c0}, {rows, cols}})`, matrix/tile.h:287-307: the sub-tile has to lie in the tile. -/
def subTileO (t : Blk K) (r0 c0 rows cols : Nat) : Option (Blk K) :=
  if r0 + rows ≤ t.rows ∧ c0 + cols ≤ t.cols then some ⟨rows, cols, fun r c => t.e (r0 + r) (c0 + c)⟩ else none

/-- Overwrite the sub-tile at `(r0, c0)`. -/
def putTile (t : Blk K) (r0 c0 : Nat) (s : Blk K) : Blk K :=
  ⟨t.rows, t.cols, fun x y =>
    if r0 ≤ x ∧ x < r0 + s.rows ∧ c0 ≤ y ∧ y < c0 + s.cols then s.e (x - r0) (y - c0) else t.e x y⟩

/-- `setupVWellFormed`, impl.h:60-97.  `v` holds the previous contents of the tile.  The loop over the columns of `lacpy`, then the
two `laset`.  Guards: `tile_hh.ptr({1, j})`, `tile_v.ptr({1 + j, j})`, and the sizes given to `lacpy` are not negative. -/
def setupVWellFormed (b : Nat) (hh v : Blk K) : Option (Blk K) :=
  if v.cols ≤ hh.cols ∧ v.cols ≤ v.rows ∧ 0 < v.cols ∧ 0 < hh.rows then
    some ⟨v.rows, v.cols, fun r c =>
      if b < v.rows ∧ b ≤ r ∧ c ≤ r - b ∧ c < v.cols - 1 then 0
      else if r < c then 0
      else if r = c then 1
      else if r < 1 + c + min (v.rows - (1 + c)) (hh.rows - 1) then hh.e (r - c) c
      else v.e r c⟩
  else none

/-- Parameters: `lapack::larft(Forward, Columnwise, n, k, v, taus)` as a function to the elements of `T`; tune parameter
`bt_band_to_tridiag_hh_apply_group_size`; `isComplex_v<T>`; previous contents of the tiles of the panels for each block `(j, step)`. -/
structure T2BEnv (K : Type*) where
  larft : (n k : Nat) → (Nat → Nat → K) → (Nat → K) → Nat → Nat → K
  group : Nat
  cplx : Bool
  junkV : Nat → Nat → Elems K
  junkT : Nat → Nat → Elems K
  junkW : Nat → Nat → Elems K
  junkW2 : Nat → Nat → Elems K

/-- `computeTFactor`, impl.h:99-118; `larft` writes the upper triangle of `t` only. -/
def larftTile (E : T2BEnv K) (taus v t : Blk K) : Option (Blk K) :=
  if 0 < taus.rows ∧ v.cols ≤ taus.cols ∧ v.cols ≤ v.rows ∧ v.cols ≤ t.rows ∧ v.cols ≤ t.cols then
    some ⟨t.rows, t.cols, fun r c =>
      if r ≤ c ∧ c < v.cols then E.larft v.rows v.cols v.e (fun i => taus.e 0 i) r c else t.e r c⟩
  else none

/-- First column of each group: the values of `j` in `for (j = 0; j < cols; j += hhr_nb)`. -/
def groupStarts (cols group : Nat) : List Nat := (upto 0 (ceilDivN cols group)).map fun i => i * group

/-- `computeVT`, impl.h:120-135. -/
def computeVT (E : T2BEnv K) (b : Nat) (hh v t : Blk K) : Option (Blk K × Blk K) := do
  let v2 ← setupVWellFormed b hh v
  let t2 ← forM' (groupStarts v2.cols E.group) t fun t j => do
    let jb := min E.group (v2.cols - j)
    let ib := min (jb + b - 1) (v2.rows - j)
    let st ← subTileO t j j jb jb
    let shh ← subTileO hh 0 j 1 jb
    let sv ← subTileO v2 j j ib jb
    let r ← larftTile E shh sv st
    some (putTile t j j r)
  some (v2, t2)

/-- `computeVW`, impl.h:137-160. -/
def computeVW (E : T2BEnv K) (b : Nat) (hh v t w : Blk K) : Option (Blk K × Blk K) := do
  let vt ← computeVT E b hh v t
  let w2 ← forM' (groupStarts vt.1.cols E.group) w fun w j => do
    let jb := min E.group (vt.1.cols - j)
    let ib := min (jb + b - 1) (vt.1.rows - j)
    let st ← subTileO vt.2 j j jb jb
    let sv ← subTileO vt.1 j j ib jb
    let sw ← subTileO w j j ib jb
    let r ← trmm3 .Right .Upper .NoTrans .NonUnit 1 st sv sw
    some (putTile w j j r)
  some (vt.1, w2)

/-- `ApplyHHToSingleTileRow`, impl.h:162-203 (with its helper).  `w2` is written with `beta = 0` in each iteration. -/
def applySingle (E : T2BEnv K) (v w w2 e : Blk K) : Option (Blk K) :=
  forM' (groupStarts v.cols E.group).reverse e fun e j => do
    let jb := min E.group (v.cols - j)
    let ib := v.rows - j
    let sv ← subTileO v j j ib jb
    let sw ← subTileO w j j ib jb
    let sw2 ← subTileO w2 0 0 jb w2.cols
    let se ← subTileO e (j + 1) 0 (e.rows - (j + 1)) e.cols
    let w2' ← gemm .ConjTrans .NoTrans 1 sv se 0 sw2
    let e' ← gemm .NoTrans .NoTrans (-1) sw w2' 1 se
    some (putTile e (j + 1) 0 e')

/-- `ApplyHHToDoubleTileRow`, impl.h:231-295 (with its helper), on the top and the bottom tile. -/
def applyDouble (E : T2BEnv K) (v w w2 : Blk K) (e : Blk K × Blk K) : Option (Blk K × Blk K) :=
  forM' (groupStarts v.cols E.group).reverse e fun e j => do
    let jb := min E.group (v.cols - j)
    let set ← subTileO e.1 (j + 1) 0 (e.1.rows - (j + 1)) e.1.cols
    let seb ← subTileO e.2 0 0 (min e.2.rows (j + jb)) e.2.cols
    let svt ← subTileO v j j set.rows jb
    let svb ← subTileO v (e.1.rows - 1) j seb.rows jb
    let swt ← subTileO w j j set.rows jb
    let swb ← subTileO w (e.1.rows - 1) j seb.rows jb
    let sw2 ← subTileO w2 0 0 jb w2.cols
    let w2' ← gemm .ConjTrans .NoTrans 1 svt set 0 sw2
    let w2'' ← gemm .ConjTrans .NoTrans 1 svb seb 1 w2'
    let et ← gemm .NoTrans .NoTrans (-1) swt w2'' 1 set
    let eb ← gemm .NoTrans .NoTrans (-1) swb w2'' 1 seb
    some (putTile e.1 (j + 1) 0 et, putTile e.2 0 0 eb)

/-- `nrSweeps<T>`, band_to_tridiag/api.h:26-30 (also in Model/BandTridiag.lean). -/
def t2bSweeps (cplx : Bool) (n : Nat) : Nat := if cplx then n - 1 else n - 2

/-- `nrStepsForSweep`, band_to_tridiag/api.h:32-36. -/
def t2bSteps (sweep n b : Nat) : Nat := if sweep + 2 = n then 1 else (n - sweep - 2 + b - 1) / b

/-- `nrefls`, impl.h:660-667. -/
def t2bRefls (cplx : Bool) (n b jlast steps j step : Nat) : Nat :=
  let i := j + step
  let rows := n - i * b - 1
  min b (min (rows - (if cplx = true ∧ j = jlast ∧ step + 1 = steps then 0 else 1)) (min b (n - j * b)))

/-- Body of the loop over the steps, impl.h:652-712, with `TileAccessHelper` (322-368): block `(j, step)` of reflectors, applied to
the tile columns of `E`.  `hh` and `e` have tiles of height `b` after the retiling.  The guard: the sub-tiles of the panels given by
`specHH()` and `specT()` lie in their tiles (633-635, 505-509). -/
def t2bStep (E : T2BEnv K) (n m b nbe : Nat) (hh : Elems K) (jlast j : Nat) (C : Elems K) (step : Nat) : Option (Elems K) :=
  let i := j + step
  let nrefls := t2bRefls E.cplx n b jlast (t2bSteps (j * b) n b) j step
  let rowsV := min (2 * b) (n - i * b) - 1
  let hhC := getB hh (i * b) (j * b) (min b (n - i * b)) (min b (n - j * b))
  let top := min b (n - i * b)
  if ¬ (rowsV ≤ 2 * b - 1 ∧ nrefls ≤ top) then none else
  do
    let vw ← computeVW E b hhC (getB (E.junkV j step) 0 0 rowsV nrefls) (getB (E.junkT j step) 0 0 nrefls nrefls)
      (getB (E.junkW j step) 0 0 rowsV nrefls)
    forM' (pieces nbe m 0) C fun C q =>
      let w2 := getB (E.junkW2 j step) 0 q.1 nrefls q.2
      if i + 1 = (n + b - 1) / b then
        putO C (i * b) q.1 (applySingle E vw.1 vw.2 w2 (getB C (i * b) q.1 top q.2))
      else
        (applyDouble E vw.1 vw.2 w2 (getB C (i * b) q.1 top q.2,
          getB C ((i + 1) * b) q.1 (min b (n - (i + 1) * b)) q.2)).map fun r =>
            putB (putB C (i * b) q.1 r.1) ((i + 1) * b) q.1 r.2

/-- `BackTransformationT2B::call`, impl.h:607-717, with the preconditions of `bt_band_to_tridiagonal` on the band width,
bt_band_to_tridiag.h:71-72.  `n` is the order, `m` the number of columns of `E`, `nb` the tile size, `nbe` the tile width of `E`. -/
def btBandToTridiag (E : T2BEnv K) (n m nb nbe b : Nat) (hh C : Elems K) : Option (Elems K) :=
  if ¬ (2 ≤ b ∧ nb % b = 0) then none else
  if n = 0 ∨ m = 0 then some C else
  if n ≤ (if E.cplx then 1 else 2) then some C else
  let jlast := (t2bSweeps E.cplx n - 1) / b
  forM' (downto (jlast + 1) 0) C fun C j =>
    forM' (upto 0 (t2bSteps (j * b) n b)) C (t2bStep E n m b nbe hh jlast j)

end DLAF
