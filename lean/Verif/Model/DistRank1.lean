import Verif.Model.Rank1
import Verif.Model.DistPanel
import Verif.Model.Spmd
/-
Model of the distributed solver of the rank-one update problem, include/dlaf/eigensolver/tridiag_solver/merge.h `solveRank1ProblemDist`, 1268-1689, in exact arithmetic.

* `s` is `dist_sub`, the distribution of the diagonal block of `evecs` (merge.h:1286-1290) on the calling process.  Tiles of `evecs` are windows of the local elements of that block:
  the loops over local tiles and over the rows of a tile are loops over the local rows, columns are local columns (C02, C03, C10).
* `evals` is the vector of all `n` eigenvalues, which every process holds; its tile `i` (counted from `i_begin`) has the elements of tile `i` of the columns of `dist_sub`.
* The workers run one after the other between two barriers (C51 shows for the local version that their order does not matter); the broadcast of the eigenvalues, which runs at the
  same time as the rest, is completed at once (nothing after it touches `evals`).
* The blocking reductions are modelled as the non-blocking ones.  The memory of the workspaces is arbitrary before (their content is part of the state); the work space of `laed4`
  (`delta_ptr`) is a local value.
-/
namespace DLAF
open scoped Classical
noncomputable section

/-- What a process holds: `evals`, the local elements of `evecs`, `ws_cols` of every worker, the last of `ws_cols`, `ws_row`. -/
structure DR1St where
  evals : Nat → ℝ
  q : Nat → Nat → ℝ
  ws : Nat → Nat → ℝ
  weights : Nat → ℝ
  sums : Nat → ℝ

/-- Parameters, the same on all processes: number of non-deflated, `rho`, `d`, `z`, the permutations. `debug`: DLAF_ASSERT_HEAVY is enabled. -/
structure DR1Cfg where
  laed4 : Laed4
  debug : Bool
  k : Nat
  rho : ℝ
  d : Nat → ℝ
  z : Nat → ℝ
  i4 : List Nat
  i6 : List Nat
  i2 : List Nat

namespace DistR1
variable (g : DR1Cfg) (s : Distribution)

/-- `m_el_lc`, merge.h:1369. -/
def rows : Nat := s.row.localSize.toNat
/-- `n_el_lc`, merge.h:1370. -/
def cols : Nat := s.col.localSize.toNat
/-- `dist_sub.global_element_from_local_element<Coord::Col>(y)`. -/
def gCol (y : Nat) : Nat := (s.col.global_element_from_local_element y).toNat
/-- `dist_sub.global_element_from_local_element<Coord::Row>(x)`. -/
def gRow (x : Nat) : Nat := (s.row.global_element_from_local_element x).toNat
/-- `is_el`, the place of local row `x` in the order of the eigenvalues. -/
def is (x : Nat) : Nat := g.i4.getD (gRow s x) 0
/-- `js_el`, the place of local column `y`. -/
def js (y : Nat) : Nat := g.i6.getD (gCol s y) 0

/-- Number of workers, merge.h:1345-1354; `avail`: `get_tridiag_rank1_num_workers()`. -/
def workers (klc avail : Nat) : Nat := clampN (ceilDivN (rows s * klc) (2 * (s.row.tileSize.toNat * s.col.tileSize.toNat))) 1 avail

/-- Step 0a for local column `y`, merge.h:1384-1387. -/
def deflEval (y : Nat) (st : DR1St) : DR1St := { st with evals := fun e => if e = gCol s y then g.d (g.i6.getD (gCol s y) 0) else st.evals e }

/-- Step 0b, merge.h:1411-1412 (`ws_row` is set to zero). -/
def zeroSums (st : DR1St) : DR1St := { st with sums := fun y => if y < cols s then 0 else st.sums y }

/-- Steps 0a and 0b, merge.h:1378-1413; `n`: the size of the problem. -/
def start (n klc : Nat) (st : DR1St) : DR1St :=
  Bulk.runList (if g.k < n then (upto klc (cols s)).map (deflEval g s) else []) (zeroSums s st)

/-- Step 1 for local column `j`, merge.h:1430-1465: `laed4`, the eigenvalue, the non-deflated rows of the column. -/
def laed (j : Nat) (st : DR1St) : DR1St :=
  let r := g.laed4 g.k (js g s j) g.d g.z g.rho
  { st with
    evals := fun e => if e = gCol s j then r.1 else st.evals e
    q := fun x y => if y = j ∧ x < rows s ∧ is g s x < g.k then r.2 (is g s x) else st.q x y }

/-- Start of the weights of row `x`, worker `t`, merge.h:1485-1516. -/
def initVal (q : Nat → Nat → ℝ) (t x : Nat) : ℝ :=
  if t = 0 then
    if g.k ≤ is g s x then 0
    else if s.col.rank = s.col.rank_global_element (g.i2.getD (is g s x) 0) then
      q x (s.col.local_element_from_global_element (g.i2.getD (is g s x) 0 : Nat)).toNat
    else 1
  else 1

/-- Step 2a, merge.h:1485-1516. -/
def initW (t : Nat) (st : DR1St) : DR1St := { st with ws := fun u x => if u = t ∧ x < rows s then initVal g s st.q t x else st.ws u x }

/-- The factor of column `j` of the weight of row `x`, merge.h:1545-1558. -/
def fac (q : Nat → Nat → ℝ) (x j : Nat) : ℝ :=
  if g.k ≤ is g s x then 1 else if is g s x = js g s j then 1 else q x j / (g.d (is g s x) - g.d (js g s j))

/-- Step 2b for local column `j`, merge.h:1522-1562. -/
def wCol (t j : Nat) (st : DR1St) : DR1St := { st with ws := fun u x => if u = t ∧ x < rows s then st.ws t x * fac g s st.q x j else st.ws u x }

/-- Step 2c, reduction over the workers, merge.h:1569-1575. -/
def redW (nt : Nat) (st : DR1St) : DR1St :=
  { st with ws := fun u x => if u = 0 ∧ x < rows s then (upto 1 nt).foldl (fun a t => a * st.ws t x) (st.ws 0 x) else st.ws u x }

/-- Step 2c, the weights, merge.h:1583-1602. -/
def finW (st : DR1St) : Option DR1St :=
  if g.debug = true ∧ ∃ x < rows s, is g s x < g.k ∧ ¬ st.ws 0 x < 0 then none
  else some { st with weights := fun x => if x < rows s then copysign (Real.sqrt (-st.ws 0 x)) (g.z (is g s x)) else st.weights x }

/-- Step 3a for local column `j`, merge.h:1615-1650. -/
def colQ (j : Nat) (st : DR1St) : DR1St :=
  let v : Nat → ℝ := fun x => if is g s x < g.k then st.weights x / st.q x j else st.q x j
  { st with
    q := fun x y => if y = j ∧ x < rows s then v x else st.q x y
    sums := fun y => if y = j then st.sums j + ∑ x ∈ Finset.range (rows s), v x * v x else st.sums y }

/-- Step 3c for local column `j`, merge.h:1669-1685. -/
def normC (j : Nat) (st : DR1St) : DR1St :=
  { st with q := fun x y => if y = j ∧ x < rows s then 1 / Real.sqrt (st.sums j) * st.q x j else st.q x y }

/-- `nt` workers, each with its columns `begin, ..., end - 1` (merge.h:1390-1392). -/
def byWorkers (nt klc : Nat) (f : Nat → List Nat → List (DR1St → DR1St)) (st : DR1St) : DR1St :=
  Bulk.runAll (fun t => f t (workerRange klc nt t)) nt st

/-- A message: its length and content. -/
abbrev Msg := Nat × (Nat → ℝ)

/-- `bcast_evals`, merge.h:1292-1317, 1470-1475: tile `i`. -/
def bcastEval (i : Int) : List (Instr DR1St Msg) :=
  let b := (s.col.global_element_from_global_tile_and_tile_element i 0).toNat
  let len := (s.col.global_tile_size_of i).toNat
  if s.col.rank_global_tile i = s.col.rank then
    bcastSend (.row s.row.rank) (s.col.rank_global_tile i) fun st => some (st, (len, fun l => st.evals (b + l)))
  else
    bcastRecv (.row s.row.rank) (s.col.rank_global_tile i) fun st v =>
      if v.1 = len then some { st with evals := fun e => if b ≤ e ∧ e < b + len then v.2 (e - b) else st.evals e } else none

/-- `all_reduce_in_place` of the `len` first elements of a vector, merge.h:1319-1324; `op`: the operation on the list of contributions, in the order of the ranks. -/
def allReduce (ch : Chan) (grid : Int) (op : List ℝ → ℝ) (len : Nat) (get : DR1St → Nat → ℝ) (put : DR1St → (Nat → ℝ) → DR1St) : List (Instr DR1St Msg) :=
  [.post ch fun st => some (st, (len, get st)),
   .take ch .allReduce ((irange 0 grid).map ch.rankOf) fun st vs =>
     if ∀ v ∈ vs, v.1 = len then some (put st fun x => if x < len then op (vs.map fun v => v.2 x) else get st x) else none]

/-- `solveRank1ProblemDist` on one process; `n`: size of the problem, `klc`: its number of non-deflated columns. -/
def program (n klc avail : Nat) : List (Instr DR1St Msg) :=
  let nt := workers s klc avail
  [.loc fun st => some (byWorkers nt klc (fun _ J => J.map (laed g s)) (start g s n klc st))] ++
  (if 1 < s.col.grid then (irange 0 s.col.nrTiles).flatMap (bcastEval s) else []) ++
  if g.k ≤ 2 then []
  else
    [.loc fun st => some (redW s nt (byWorkers nt klc (fun t J => J.map (wCol g s t)) (Bulk.runAll (fun t => [initW g s t]) nt st)))] ++
    (if 1 < s.col.grid then allReduce (.row s.row.rank) s.col.grid List.prod (rows s) (fun st => st.ws 0) (fun st w => { st with ws := fun u => if u = 0 then w else st.ws u }) else []) ++
    [.loc fun st => (finW g s st).map (byWorkers nt klc fun _ J => J.map (colQ g s))] ++
    (if 1 < s.row.grid then allReduce (.col s.col.rank) s.row.grid List.sum klc (fun st => st.sums) (fun st w => { st with sums := w }) else []) ++
    [.loc fun st => some (byWorkers nt klc (fun _ J => J.map (normC s)) st)]

end DistR1
end
end DLAF
