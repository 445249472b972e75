import Verif.Model.Kernels
import Verif.Model.Threads
/-
Model of the triangular factor of a block reflector, include/dlaf/factorization/qr/t_factor_impl.h (CPU backend).
A panel is the list of its local tiles.  `none` is an assertion failure.
-/
namespace DLAF
/-- `util::ceilDiv`, util_math.h:85-101. -/
def ceilDivN (n d : Nat) : Nat := (n + d - 1) / d

/-- `std::clamp(v, lo, hi)`. -/
def clampN (v lo hi : Nat) : Nat := if v < lo then lo else if hi < v then hi else v

/-- `split_tfactor_work(nrtiles)`, t_factor_impl.h:56-71: number of workers and tiles per worker, with `avail` =
`get_tfactor_num_workers()`. -/
def splitTFactorWork (avail nrtiles : Nat) : Nat × Nat :=
  let batch := ceilDivN nrtiles (clampN (ceilDivN nrtiles 1) 1 avail)
  (max 1 (ceilDivN nrtiles batch), batch)

variable {K : Type*} [Field K] [StarRing K]

/-- `tile::internal::set0`, lapack/tile.h:416-418. -/
def Blk.zero (rows cols : Nat) : Blk K := ⟨rows, cols, fun _ _ => 0⟩

/-- `lapack::lacpy(General, 1, k, taus.ptr(), 1, t.ptr(), t.ld() + 1)`, t_factor_impl.h:137-138, 170: the taus on the
diagonal. -/
def setDiag (k : Nat) (taus t : Blk K) : Blk K :=
  ⟨t.rows, t.cols, fun i c => if i = c ∧ c < k then taus.e c 0 else t.e i c⟩

/-- One iteration of `loop_gemv`, t_factor_impl.h:193-205: `T(0:j, j) += -tau V(:, 0:j)ᴴ V(:, j)` with `tau = T(j, j)`. -/
def gemvCol (v t : Blk K) (j : Nat) : Blk K :=
  ⟨t.rows, t.cols, fun i c =>
    if c = j ∧ i < j then -(t.e j j) * ∑ r ∈ Finset.range v.rows, star (v.e r i) * v.e r j + t.e i c else t.e i c⟩

/-- `loop_gemv`, t_factor_impl.h:184-206 (the assertions are in `stepGemv`). -/
def loopGemv (v t : Blk K) : Blk K := (List.range t.cols).foldl (gemvCol v) t

/-- One iteration of `loop_trmv`, t_factor_impl.h:215-222: `T(0:j, j) = T(0:j, 0:j) T(0:j, j)`, upper triangular. -/
def trmvCol (t : Blk K) (j : Nat) : Blk K :=
  ⟨t.rows, t.cols, fun i c =>
    if c = j ∧ i < j then ∑ l ∈ Finset.range j, (if i ≤ l then t.e i l else 0) * t.e l j else t.e i c⟩

/-- `loop_trmv`, t_factor_impl.h:208-223. -/
def loopTrmv (t : Blk K) : Blk K := (List.range t.cols).foldl trmvCol t

/-- The shared state of the bulk: slot 0 is `tile_t`, slot `w` is the workspace of worker `w`. -/
abbrev Slots (K : Type*) := Nat → Blk K

/-- An action on one slot. -/
def onSlot (w : Nat) (f : Blk K → Blk K) (s : Slots K) : Slots K := fun v => if v = w then f (s w) else s v

/-- The tiles of worker `w`: `hh_tiles[begin .. end)`, t_factor_impl.h:127-129, 141-144. -/
def workerTiles (tiles : List (Blk K)) (batch w : Nat) : List (Blk K) := (tiles.drop (w * batch)).take batch

/-- What worker `w` does before the barrier, t_factor_impl.h:131-144. -/
def gemvActs (tiles : List (Blk K)) (taus : Blk K) (k batch w : Nat) : List (Blk K → Blk K) :=
  (fun _ => Blk.zero k k) :: setDiag k taus :: (workerTiles tiles batch w).map loopGemv

/-- `tile::internal::add(T(1), ws, tile_t)`, t_factor_impl.h:152-154. -/
def addSlot (v : Nat) (s : Slots K) : Slots K :=
  onSlot 0 (fun t => ⟨t.rows, t.cols, fun i c => t.e i c + 1 * (s v).e i c⟩) s

/-- The code of the bulk, t_factor_impl.h:120-156. -/
def gemvCode (tiles : List (Blk K)) (taus : Blk K) (k nworkers batch : Nat) : Bulk.Code (Slots K) Nat
  | 0, _ => some (fun w => (gemvActs tiles taus k batch w).map (onSlot w), 1)
  | 1, _ => some (fun w => if w = 0 then (upto 1 nworkers).map addSlot else [], 2)
  | _, _ => none

/-- The slots at the start. -/
def gemvSlots (t : Blk K) (ws : Nat → Blk K) : Slots K := fun w => if w = 0 then t else ws (w - 1)

/-- Result of the bulk when the workers run one after the other between barriers. -/
def gemvBulk (tiles : List (Blk K)) (taus : Blk K) (k nworkers batch : Nat) (s : Slots K) : Slots K :=
  Bulk.runAll (fun w => if w = 0 then (upto 1 nworkers).map addSlot else []) nworkers
    (Bulk.runAll (fun w => (gemvActs tiles taus k batch w).map (onSlot w)) nworkers s)

/-- `step_gemv`, t_factor_impl.h:88-159.  Checked: the tiles and the taus have the width of `tile_t` (187-188; a wider `tile_t`
aborts), the workspaces exist and are large enough (104-108, 131-133). -/
def stepGemv (avail : Nat) (tiles : List (Blk K)) (taus t : Blk K) (ws : List (Blk K)) : Option (Blk K) :=
  if tiles = [] then some t else
  let p := splitTFactorWork avail tiles.length
  if t.rows = t.cols ∧ taus.rows = t.cols ∧ (tiles.all fun v => v.cols = t.cols) ∧ p.1 - 1 ≤ ws.length ∧
      ((ws.take (p.1 - 1)).all fun b => t.rows ≤ b.rows ∧ t.cols ≤ b.cols) then
    some (gemvBulk tiles taus t.cols p.1 p.2 (gemvSlots t fun w => ws.getD w (Blk.zero 0 0)) 0)
  else none

/-- `step_copy_diag_and_trmv`, t_factor_impl.h:161-181. -/
def copyDiagTrmv (taus t : Blk K) : Blk K := loopTrmv (setDiag t.cols taus t)

/-- `QR_Tfactor::call` (local), t_factor_impl.h:363-395; `width` is the width of the panel. -/
def computeTFactor (avail width : Nat) (tiles : List (Blk K)) (taus t : Blk K) (ws : List (Blk K)) : Option (Blk K) :=
  if width = 0 then some t else (stepGemv avail tiles taus t ws).map (copyDiagTrmv taus)

/-- `QR_Tfactor::call` (distributed), t_factor_impl.h:397-437, on all the ranks of the column communicator: each rank has its
own tiles, workspaces and number of workers; the in-place all-reduce (C41) gives every rank the sum of the tiles. -/
def computeTFactorDist (width : Nat) (ranks : List (Nat × List (Blk K) × List (Blk K))) (taus t : Blk K) :
    Option (Blk K) :=
  if width = 0 then some t else
    (ranks.mapM fun r => stepGemv r.1 r.2.1 taus (Blk.zero t.rows t.cols) r.2.2).map fun ts =>
      copyDiagTrmv taus (if ranks.length = 1 then ts.headD t
        else ⟨t.rows, t.cols, fun i c => (ts.map fun b => b.e i c).sum⟩)

end DLAF
