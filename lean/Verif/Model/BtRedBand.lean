import Verif.Model.Views
import Verif.Model.TFactor
/-
Model of the back-transformation of the reduction to band on local memory, include/dlaf/eigensolver/bt_reduction_to_band/impl.h
(`BackTransformationReductionToBand::call`, CPU).  Matrices are their elements, tiles and sub-tiles are windows (Model/Views.lean).
`none` is an assertion failure.
-/
namespace DLAF
variable {K : Type*} [Field K] [StarRing K]

/-- `laset(Upper, 0, 1)` on the columns of a tile from column `jd` on, bt_reduction_to_band/impl.h:50-60: above the diagonal
that starts at `(0, jd)` zeros, on it ones. -/
def lasetHH (jd : Nat) (t : Blk K) : Blk K :=
  ⟨t.rows, t.cols, fun r c => if c < jd then t.e r c else if r < c - jd then 0 else if r = c - jd then 1 else t.e r c⟩

/-- Tile of `panelV` for the rows `p`, impl.h:199-215.  `i` is the tile row; the difference of `j_diag` is clamped at 0 by
`std::max`, here by the subtraction of naturals. -/
def btTileV (n mb b nr k : Nat) (V : Elems K) (p : Nat × Nat) : Blk K :=
  let i := p.1 / mb
  let jd := i * mb - (k * mb + b)
  if jd < nr then lasetHH jd (getB V p.1 (k * mb) p.2 nr)
  else if jd < mb then getB V p.1 (k * mb) p.2 nr
  else getB V (i * mb) (k * mb) (min mb (n - i * mb)) (min mb (n - k * mb))

/-- One iteration of the loop over the blocks of reflectors, impl.h:172-249.  `n` is the order of `V` and the number of rows of
`C`, `mb` the block size, `nbc` the block width of `C`.  `junk` is the previous content of the panels. -/
def btStep (avail : Nat) (junk : Nat → Elems K) (n ncols mb nbc b : Nat) (V : Elems K) (taus : Nat → K) (C : Elems K)
    (k : Nat) : Option (Elems K) :=
  let total := n - b - 1
  let nr := min mb (total - k * mb)
  let ps := pieces mb n (k * mb + b)
  let vs := ps.map fun p => (p, btTileV n mb b nr k V p)
  do
    let t ← computeTFactor avail nr (vs.map fun v => v.2) ⟨nr, 1, fun r _ => taus (k * mb + r)⟩ (getB (junk k) 0 0 nr nr)
      ((List.range (avail - 1)).map fun w => getB (junk k) (w * mb) 0 mb nr)
    let ws ← vs.mapM fun v =>
      (trmm3 .Right .Upper .ConjTrans .NonUnit 1 t v.2 (getB (junk k) v.1.1 0 v.1.2 nr)).map fun w => (v.1, w)
    let w2 ← (pieces nbc ncols 0).mapM fun q =>
      (forM' ws (Blk.zero nr q.2) fun w2 w => gemm .ConjTrans .NoTrans 1 w.2 (getB C w.1.1 q.1 w.1.2 q.2) 1 w2).map
        fun b => (q, b)
    forM' w2 C fun C q => forM' vs C fun C v =>
      putO C v.1.1 q.1.1 (gemm .NoTrans .NoTrans (-1) v.2 q.2 1 (getB C v.1.1 q.1.1 v.1.2 q.1.2))

/-- `BackTransformationReductionToBand::call`, impl.h:132-250.  The number of blocks is `dist_t.nrTiles().cols()` (158, 170). -/
def btReductionToBand (avail : Nat) (junk : Nat → Elems K) (n ncols mb nbc b : Nat) (V : Elems K) (taus : Nat → K)
    (C : Elems K) : Option (Elems K) :=
  if n = 0 ∨ ncols = 0 then some C else
  if n ≤ b + 1 then some C else
  forM' (downto (ceilDivN (n - b - 1) mb) 0) C (btStep avail junk n ncols mb nbc b V taus)

end DLAF
