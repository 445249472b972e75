import Verif.Model.BtRedBand
import Mathlib.Analysis.RCLike.Basic
/-
Model of the reduction of a Hermitian matrix to band form on local memory,
include/dlaf/eigensolver/reduction_to_band/impl.h (`ReductionToBand::call`, 993-1160, CPU).
The matrix is its elements, tiles and sub-tiles are windows (Model/Views.lean); `K` is `ℝ` or `ℂ`.
`none` is an assertion failure or an access outside of a tile.
-/
namespace DLAF
open scoped Classical
noncomputable section
variable {K : Type*} [RCLike K]

/-- Shared state of the workers of `computePanelReflectors`: the elements of the matrix, the taus, the vectors `w` (one per
worker) and the saved head of the reflector (variable `y` of the worker with the head, impl.h:325-332). -/
structure PanelSt (K : Type*) where
  a : Elems K
  taus : Nat → K
  w : Nat → Nat → K
  y : K

/-- Parameters of a panel: sub-tiles as first row and height, first column, width, number of reflectors, and the sign bit of
the real part (impl.h:141). -/
structure PanelCfg (K : Type*) where
  ps : List (Nat × Nat)
  c0 : Nat
  cols : Nat
  nrefls : Nat
  signbit : K → Bool

/-- First row of the panel. -/
def PanelCfg.r0 (g : PanelCfg K) : Nat := (g.ps.headD (0, 0)).1

/-- `blas::dot(rows, ptr, 1, ptr, 1)` on the rows `p` of column `c`. -/
def dotCol (a : Elems K) (p : Nat × Nat) (c : Nat) : K := ∑ r ∈ Finset.range p.2, star (a (p.1 + r) c) * a (p.1 + r) c

/-- `computeX0AndSquares(true, panel, j)`, impl.h:78-105. -/
def x0AndSquares (g : PanelCfg K) (a : Elems K) (j : Nat) : K × K :=
  match g.ps with
  | [] => (0, 0)
  | p :: ps => (a (p.1 + j) (g.c0 + j),
      ps.foldl (fun s q => s + dotCol a q (g.c0 + j)) (dotCol a (p.1 + j, p.2 - j) (g.c0 + j)))

/-- `blas::scal` on the rows `p` of column `c`. -/
def scalCol (alpha : K) (c : Nat) (a : Elems K) (p : Nat × Nat) : Elems K := fun x y =>
  if y = c ∧ p.1 ≤ x ∧ x < p.1 + p.2 then alpha * a x y else a x y

/-- `scaleReflector(true, panel, j, alpha, 0, panel.size())`, impl.h:107-129. -/
def scaleReflector (g : PanelCfg K) (alpha : K) (a : Elems K) (j : Nat) : Elems K :=
  match g.ps with
  | [] => a
  | p :: ps => ps.foldl (scalCol alpha (g.c0 + j)) (scalCol alpha (g.c0 + j) a (p.1 + (j + 1), p.2 - (j + 1)))

/-- `taus({j, 0}) = computeReflectorAndTau(true, tiles, j, computeX0AndSquares(true, tiles, j))`, impl.h:131-152, 303-306. -/
def reflTau (g : PanelCfg K) (j : Nat) (s : PanelSt K) : PanelSt K :=
  let q := x0AndSquares g s.a j
  if q.2 = 0 then { s with taus := fun i => if i = j then 0 else s.taus i } else
  let norm : K := (Real.sqrt (RCLike.re q.2) : ℝ)
  let y := if g.signbit q.1 then norm else -norm
  { s with
    a := scaleReflector g (1 / (q.1 - y)) (fun x c => if x = g.r0 + j ∧ c = g.c0 + j then y else s.a x c) j
    taus := fun i => if i = j then (y - q.1) / y else s.taus i }

/-- Saving the head and setting it to one, impl.h:325-332. -/
def takeHead (g : PanelCfg K) (j : Nat) (s : PanelSt K) : PanelSt K :=
  { s with y := s.a (g.r0 + j) (g.c0 + j), a := fun x c => if x = g.r0 + j ∧ c = g.c0 + j then 1 else s.a x c }

/-- `w[index] = vector(pt_cols, 0)`, impl.h:335. -/
def zeroW (v : Nat) (s : PanelSt K) : PanelSt K := { s with w := fun u => if u = v then fun _ => 0 else s.w u }

/-- The part of tile `i` below the rows already reduced: `first_element`, impl.h:167-171, 191-196. -/
def tailPiece (g : PanelCfg K) (j i : Nat) : Nat × Nat :=
  let p := g.ps.getD i (0, 0)
  if i = 0 then (p.1 + j, p.2 - j) else p

/-- One iteration of `computeWTrailingPanel`, impl.h:164-176: `w += Pᴴ v`. -/
def accW (g : PanelCfg K) (j v i : Nat) (s : PanelSt K) : PanelSt K :=
  let p := tailPiece g j i
  { s with w := fun u => if u = v then fun c =>
      (∑ r ∈ Finset.range p.2, star (s.a (p.1 + r) (g.c0 + j + 1 + c)) * s.a (p.1 + r) (g.c0 + j)) + s.w v c else s.w u }

/-- `reduceColumnVectors(w)`, impl.h:64-73. -/
def reduceW (nworkers : Nat) (s : PanelSt K) : PanelSt K :=
  { s with w := fun u => if u = 0 then fun c => (upto 1 nworkers).foldl (fun x i => x + s.w i c) (s.w 0 c) else s.w u }

/-- One iteration of `updateTrailingPanel`, impl.h:189-204: `blas::ger`, `P -= conj(tau) v wᴴ`. -/
def updTile (g : PanelCfg K) (j i : Nat) (s : PanelSt K) : PanelSt K :=
  let p := tailPiece g j i
  { s with a := fun x c =>
      if (p.1 ≤ x ∧ x < p.1 + p.2) ∧ g.c0 + j + 1 ≤ c ∧ c < g.c0 + g.cols then
        -(star (s.taus j)) * s.a x (g.c0 + j) * star (s.w 0 (c - (g.c0 + j + 1))) + s.a x c
      else s.a x c }

/-- `tiles[begin]({j, j}) = y.value()`, impl.h:352-354. -/
def putHead (g : PanelCfg K) (j : Nat) (s : PanelSt K) : PanelSt K :=
  { s with a := fun x c => if x = g.r0 + j ∧ c = g.c0 + j then s.y else s.a x c }

/-- Number of workers, impl.h:270-276. -/
def panelWorkers (avail ntiles : Nat) : Nat := clampN (ceilDivN ntiles 1) 1 avail

/-- Tiles of a worker, impl.h:289-291. -/
def workerRange (ntiles nworkers v : Nat) : List Nat :=
  upto (v * ceilDivN ntiles nworkers) (min (v * ceilDivN ntiles nworkers + ceilDivN ntiles nworkers) ntiles)

/-- Actions of the workers between the barriers, impl.h:303-306, 325-336. -/
def actsW (g : PanelCfg K) (nworkers j v : Nat) : List (PanelSt K → PanelSt K) :=
  (if v = 0 then [takeHead g j] else []) ++ zeroW v :: (workerRange g.ps.length nworkers v).map (accW g j v)
/-- impl.h:340-342. -/
def actsReduce (nworkers v : Nat) : List (PanelSt K → PanelSt K) := if v = 0 then [reduceW nworkers] else []
/-- impl.h:346. -/
def actsUpd (g : PanelCfg K) (nworkers j v : Nat) : List (PanelSt K → PanelSt K) :=
  (workerRange g.ps.length nworkers v).map (updTile g j)
/-- impl.h:351-354 and, in the next iteration, 303-306 (the worker with the head is worker 0: `begin == 0`). -/
def actsHead (g : PanelCfg K) (j v : Nat) : List (PanelSt K → PanelSt K) :=
  if v = 0 then putHead g j :: (if j + 1 < g.nrefls then [reflTau g (j + 1)] else []) else []

/-- Control points of the bulk: start, the four barriers of iteration `j`, end. -/
inductive PanelCtl
  | start | tau (j : Nat) | wDone (j : Nat) | wSum (j : Nat) | upd (j : Nat) | fin

/-- From the start of iteration `j` to its first barrier. -/
def panelTop (g : PanelCfg K) (j : Nat) : Option ((Nat → List (PanelSt K → PanelSt K)) × PanelCtl) :=
  if j < g.nrefls then some (fun v => if v = 0 then [reflTau g j] else [], .tau j) else none

/-- The code of the bulk, impl.h:283-355.  Each worker reads `taus({j, 0})` after the first barrier (310); nobody writes it
afterwards, so that all take the same branch. -/
def panelCode (g : PanelCfg K) (nworkers : Nat) : Bulk.Code (PanelSt K) PanelCtl
  | .start, _ => panelTop g 0
  | .tau j, s =>
    if s.taus j = 0 then panelTop g (j + 1)
    else if g.cols ≤ j + 1 then none
    else some (actsW g nworkers j, .wDone j)
  | .wDone j, _ => some (actsReduce nworkers, .wSum j)
  | .wSum j, _ => some (actsUpd g nworkers j, .upd j)
  | .upd j, _ => some (actsHead g j, if j + 1 < g.nrefls then .tau (j + 1) else .fin)
  | .fin, _ => none

/-- The trailing update of iteration `j`, worker after worker between the barriers. -/
def panelTrail (g : PanelCfg K) (nworkers j : Nat) (s : PanelSt K) : PanelSt K :=
  putHead g j (Bulk.runAll (actsUpd g nworkers j) nworkers (reduceW nworkers
    (Bulk.runAll (actsW g nworkers j) nworkers s)))

/-- The loop of the bulk from iteration `j` on, impl.h:301-355; `fuel` is the number of iterations left. -/
def panelFrom (g : PanelCfg K) (nworkers : Nat) : Nat → Nat → PanelSt K → PanelSt K
  | 0, _, s => s
  | fuel + 1, j, s =>
    let s1 := reflTau g j s
    if s1.taus j = 0 then panelFrom g nworkers fuel (j + 1) s1
    else if g.cols ≤ j + 1 then s1
    else panelFrom g nworkers fuel (j + 1) (panelTrail g nworkers j s1)

/-- `computePanelReflectors`, impl.h:250-356.  The head of every reflector must be in the first tile. -/
def computePanelReflectors (avail : Nat) (g : PanelCfg K) (s : PanelSt K) : Option (PanelSt K) :=
  if g.nrefls ≤ (g.ps.headD (0, 0)).2 then some (panelFrom g (panelWorkers avail g.ps.length) g.nrefls 0 s) else none

/-- `setupReflectorPanelV`, impl.h:358-410, with the head: columns `c0 ..` of `A` to the panel `V` of width `nrefls`.
The other tiles have the width of the view, `cols`; the copy (or the panel) asserts that this is the width of `V`. -/
def setupPanelV (ps : List (Nat × Nat)) (c0 cols nrefls : Nat) (A V : Elems K) : Option (Elems K) :=
  match ps with
  | [] => some V
  | p :: ps => forM' ps (putB V p.1 0 (lasetHH 0 (getB A p.1 c0 p.2 (min nrefls cols)))) fun V p =>
      if cols = nrefls then some (putB V p.1 0 (getB A p.1 c0 p.2 cols)) else none

/-- `trmmComputeW`, impl.h:412-433. -/
def trmmComputeW (ps : List (Nat × Nat)) (k : Nat) (t : Blk K) (V W : Elems K) : Option (Elems K) :=
  forM' ps W fun W p =>
    putO W p.1 0 (trmm3 .Right .Upper .NoTrans .NonUnit 1 t (getB V p.1 0 p.2 k) (getB W p.1 0 p.2 k))

/-- The task of `hemmComputeX` for a tile `(p, q)` of `A`, impl.h:472-499. -/
def hemmTask (k : Nat) (A W : Elems K) (X : Elems K) (p q : Nat × Nat) : Option (Elems K) :=
  if p = q then
    putO X p.1 0 (hemm .Left .Lower 1 (getB A p.1 q.1 p.2 q.2) (getB W p.1 0 p.2 k) 1 (getB X p.1 0 p.2 k))
  else do
    let X ← putO X p.1 0 (gemm .NoTrans .NoTrans 1 (getB A p.1 q.1 p.2 q.2) (getB W q.1 0 q.2 k) 1 (getB X p.1 0 p.2 k))
    putO X q.1 0 (gemm .ConjTrans .NoTrans 1 (getB A p.1 q.1 p.2 q.2) (getB W p.1 0 p.2 k) 1 (getB X q.1 0 q.2 k))

/-- `hemmComputeX`, impl.h:454-502: `set0` on the panel, tile rows from the first to the last, tile columns from the diagonal
to the first. -/
def hemmComputeX (ps : List (Nat × Nat)) (k : Nat) (A W X : Elems K) : Option (Elems K) :=
  forM' (upto 0 ps.length) (ps.foldl (fun X p => putB X p.1 0 (Blk.zero p.2 k)) X) fun X i =>
    forM' (downto (i + 1) 0) X fun X j => hemmTask k A W X (ps.getD i (0, 0)) (ps.getD j (0, 0))

/-- `gemmComputeW2`, impl.h:504-528. -/
def gemmComputeW2 (ps : List (Nat × Nat)) (k : Nat) (W X : Elems K) : Option (Blk K) :=
  forM' ps (Blk.zero k k) fun w2 p =>
    gemm .ConjTrans .NoTrans 1 (getB W p.1 0 p.2 k) (getB X p.1 0 p.2 k) 1 w2

/-- `gemmUpdateX`, impl.h:435-452. -/
def gemmUpdateX (ps : List (Nat × Nat)) (k : Nat) (w2 : Blk K) (V X : Elems K) : Option (Elems K) :=
  forM' ps X fun X p =>
    putO X p.1 0 (gemm .NoTrans .NoTrans (-(1 / 2)) (getB V p.1 0 p.2 k) w2 1 (getB X p.1 0 p.2 k))

/-- The task of `her2kUpdateTrailingMatrix` for a tile `(p, q)` of `A`, impl.h:546-568. -/
def her2kTask (k : Nat) (V X : Elems K) (A : Elems K) (p q : Nat × Nat) : Option (Elems K) :=
  if p = q then
    putO A p.1 q.1 (her2k .Lower .NoTrans (-1) (getB V p.1 0 p.2 k) (getB X p.1 0 p.2 k) 1 (getB A p.1 q.1 p.2 q.2))
  else do
    let A ← putO A p.1 q.1 (gemm .NoTrans .ConjTrans (-1) (getB X p.1 0 p.2 k) (getB V q.1 0 q.2 k) 1
      (getB A p.1 q.1 p.2 q.2))
    putO A p.1 q.1 (gemm .NoTrans .ConjTrans (-1) (getB V p.1 0 p.2 k) (getB X q.1 0 q.2 k) 1 (getB A p.1 q.1 p.2 q.2))

/-- `her2kUpdateTrailingMatrix`, impl.h:530-571. -/
def her2kUpdate (ps : List (Nat × Nat)) (k : Nat) (V X A : Elems K) : Option (Elems K) :=
  forM' (upto 0 ps.length) A fun A i =>
    forM' (upto 0 (i + 1)) A fun A j => her2kTask k V X A (ps.getD i (0, 0)) (ps.getD j (0, 0))

/-- What the environment of the call provides: numbers of workers, sign bits, previous contents of work spaces. -/
structure RedEnv (K : Type*) where
  availT : Nat
  availP : Nat
  signbit : K → Bool
  junk : Nat → Elems K

/-- One iteration of the loop over the panels, impl.h:1062-1157. -/
def redBandStep (E : RedEnv K) (n nb band : Nat) (s : Elems K × (Nat → K)) (jsub : Nat) :
    Option (Elems K × (Nat → K)) :=
  let c0 := jsub * band
  let r0 := (jsub + 1) * band
  let k := min band (n - band - 1 - c0)
  let ps := pieces nb n r0
  do
    let st ← computePanelReflectors E.availP ⟨ps, c0, band, k, E.signbit⟩ ⟨s.1, fun i => s.2 (c0 + i), fun _ _ => 0, 0⟩
    let taus := fun i => if c0 ≤ i ∧ i < c0 + k then st.taus (i - c0) else s.2 i
    let V ← setupPanelV ps c0 band k st.a (E.junk (4 * jsub))
    let t ← computeTFactor E.availT k (ps.map fun p => getB V p.1 0 p.2 k) ⟨k, 1, fun r _ => taus (c0 + r)⟩
      (getB (E.junk (4 * jsub + 1)) 0 0 k k)
      ((List.range (E.availT - 1)).map fun w => getB (E.junk (4 * jsub + 1)) (w * band) 0 band k)
    if r0 < n then do
      let W ← trmmComputeW ps k t V (E.junk (4 * jsub + 2))
      let X ← hemmComputeX ps k st.a W (E.junk (4 * jsub + 3))
      let w2 ← gemmComputeW2 ps k W X
      let X ← gemmUpdateX ps k w2 V X
      let A ← her2kUpdate ps k V X st.a
      return (A, taus)
    else return (st.a, taus)

/-- `reduction_to_band` (local), reduction_to_band.h:41-52 and impl.h:993-1160: elements of the matrix and taus. -/
def reductionToBand (E : RedEnv K) (n nb band : Nat) (A : Elems K) (taus : Nat → K) : Option (Elems K × (Nat → K)) :=
  if ¬ (2 ≤ band ∧ nb % band = 0) then none else
  if n - band - 1 = 0 then some (A, taus) else
  forM' (upto 0 ((n - band - 1 - 1) / band + 1)) (A, taus) (redBandStep E n nb band)

end
end DLAF
