import Verif.Model.Rank1
import Verif.Model.Deflate
import Verif.Model.MatWin
/-
Model of the local divide and conquer eigensolver for symmetric tridiagonal matrices, in exact arithmetic:
include/dlaf/eigensolver/tridiag_solver/impl.h (`TridiagSolver::call`) and merge.h (`mergeSubproblems`).
Vectors and matrices of the work space are their elements; `m` is the size of the matrix, `nb` the tile size.  A range of tiles of a
column vector is an array (C34).  The tasks run in the order in which they are submitted (C43: any schedule gives this result).
-/
namespace DLAF
open scoped Classical
noncomputable section

/-- `WorkSpace`, `WorkSpaceHost`, `WorkSpaceHostMirror` (CPU), merge.h:115-166, impl.h:193-217.  `d1` is the matrix `evals`, `e2` is `evecs`. -/
structure DcSt where
  d0 : Nat → ℝ
  d1 : Nat → ℝ
  z0 : Nat → ℝ
  z1 : Nat → ℝ
  c : Nat → ColType
  i1 : Nat → Nat
  i2 : Nat → Nat
  i3 : Nat → Nat
  i4 : Nat → Nat
  i5 : Nat → Nat
  e0 : Elems ℝ
  e1 : Elems ℝ
  e2 : Elems ℝ

/-- What is not this code: LAPACK's `laed4` and `stedc` (order, diagonal, off-diagonal; result eigenvalues and eigenvectors),
`std::numeric_limits<T>::epsilon()`, the number of worker threads, and contents of memory when allocated. -/
structure DcPar where
  laed4 : Laed4
  stedc : (n : Nat) → (Nat → ℝ) → (Nat → ℝ) → (Nat → ℝ) × (Nat → Nat → ℝ)
  eps : ℝ
  avail : Nat
  junk : Nat → Nat → ℝ

/-! ### windows -/

/-- The part `[off, off + n)` as an array. -/
def winL {α : Type} (f : Nat → α) (off n : Nat) : List α := (List.range n).map fun i => f (off + i)
/-- Overwrite from `off` on. -/
def putL {α : Type} (f : Nat → α) (off : Nat) (l : List α) : Nat → α := fun x => if off ≤ x then l.getD (x - off) (f x) else f x
/-- The array from `off` on. -/
def shF {α : Type} (f : Nat → α) (off : Nat) : Nat → α := fun i => f (off + i)
/-- Overwrite `[off, off + n)`. -/
def putF {α : Type} (f : Nat → α) (off n : Nat) (g : Nat → α) : Nat → α := fun x =>
  if off ≤ x ∧ x < off + n then g (x - off) else f x
/-- The diagonal block at `off`. -/
def shE (M : Elems ℝ) (off : Nat) : Elems ℝ := fun x y => M (off + x) (off + y)
/-- Overwrite the diagonal block of order `n` at `off`. -/
def putE (M : Elems ℝ) (off n : Nat) (g : Elems ℝ) : Elems ℝ := fun x y =>
  if (off ≤ x ∧ x < off + n) ∧ (off ≤ y ∧ y < off + n) then g (x - off) (y - off) else M x y

/-- Size of tile `i`. -/
def tileN (nb m i : Nat) : Nat := min nb (m - i * nb)
/-- `problemSize`, index_manipulation.h:30-35 (C34_problem_size). -/
def probN (nb m ib ie : Nat) : Nat := (ie - ib - 1) * nb + tileN nb m (ie - 1)

/-! ### merge -/

/-- `assembleZVec`, merge.h:190-208, with `assembleRank1UpdateVectorTile`, kernels.h:88-108; entry `x` is in tile `x / nb`. -/
def assembleZ (nb m ib is ie : Nat) (rho : ℝ) (e0 : Elems ℝ) (z : Nat → ℝ) : Nat → ℝ := fun x =>
  if ib ≤ x / nb ∧ x / nb < ie ∧ x < m then
    (if x / nb < is then (if rho < 0 then -1 else 1) * e0 ((is - 1) * nb + (tileN nb m (is - 1) - 1)) x / Real.sqrt 2
     else e0 (is * nb + 0) x / Real.sqrt 2)
  else z x

/-- `maxVectorElement`, merge.h:225-247: largest absolute value (of the maxima of the tiles, C38). -/
def maxAbs (l : List ℝ) : ℝ := l.foldl (fun a x => max a |x|) 0

/-- `calcTolerance`, merge.h:252-270. -/
def dcTol (eps : ℝ) (d z : List ℝ) : ℝ := 8 * eps * max (maxAbs d) (maxAbs z)

/-- `initColTypes`, merge.h:668-684. -/
def initTypes (nb m ib is ie : Nat) (c : Nat → ColType) : Nat → ColType := fun x =>
  if ib ≤ x / nb ∧ x / nb < ie ∧ x < m then (if x / nb < is then .UpperHalf else .LowerHalf) else c x

/-- `initIndex`, index_manipulation.h:39-56 (C34_init). -/
def initIdx (nb m ib ie : Nat) (f : Nat → Nat) : Nat → Nat := fun x =>
  if ib ≤ x / nb ∧ x / nb < ie ∧ x < m then (x / nb - ib) * nb + x % nb else f x

/-- `addIndex`, index_manipulation.h:60-81. -/
def addIdx (nb m ib ie val : Nat) (f : Nat → Nat) : Nat → Nat := fun x =>
  if ib ≤ x / nb ∧ x / nb < ie ∧ x < m then f x + val else f x

/-- The index of the two sub-problems, merge.h:1126-1135. -/
def joinIdx (nb m ib is ie : Nat) (i1 : Nat → Nat) : Nat → Nat :=
  let i1 := if is = ib + 1 then initIdx nb m ib is i1 else i1
  let i1 := if is + 1 = ie then initIdx nb m is ie i1 else i1
  addIdx nb m is ie (probN nb m ib is) i1

/-- `permutations::permute<Coord::Col>`, on the range of tiles (C36_local). -/
def permCols (off n : Nat) (perm : List Nat) (src dst : Elems ℝ) : Elems ℝ :=
  putE dst off n fun x y => shE src off x (perm.getD y 0)

/-- First part, merge.h:1103-1152: rank-one vector, order, deflation, rotations.  Result: state, `i2`. -/
def dcStep1 (P : DcPar) (nb m ib is ie : Nat) (rho : ℝ) (s : DcSt) : Option (DcSt × List Nat) := do
  let off := ib * nb
  let n := probN nb m ib ie
  let z0 := assembleZ nb m ib is ie rho s.e0 s.z0
  let tol := dcTol P.eps (winL s.d0 off n) (winL z0 off n)
  let c := initTypes nb m ib is ie s.c
  let i1 := joinIdx nb m ib is ie s.i1
  let i2 ← sortIndex (probN nb m ib is) (winL s.d0 off n) (winL i1 off n)
  let df ← applyDeflation (2 * |rho|) tol n i2 (shF s.d0 off) (shF z0 off) (shF c off)
  some
    ({ s with
        i1 := i1
        d0 := putF s.d0 off n df.d
        z0 := putF z0 off n df.z
        c := putF c off n df.c
        e0 := putE s.e0 off n (applyRots n df.rots (shE s.e0 off)) }, i2)

/-- Second part, merge.h:1173-1206: partition, permutation, rank-one problem. -/
def dcStep2 (P : DcPar) (nb m ib ie : Nat) (rho : ℝ) (s : DcSt) (i2 : List Nat) : Option (DcSt × Partition) := do
  let off := ib * nb
  let n := probN nb m ib ie
  let p ← stablePartition (winL s.c off n) (winL s.d0 off n) i2 (winL s.i3 off n) (winL s.i5 off n)
  let d1 ← applyIndex p.index_sorted (winL s.d0 off n)
  let z1 ← applyIndex p.index_sorted (winL s.z0 off n)
  let inv ← invertIndex p.index_sorted i2
  let i4 ← applyIndex p.index_sorted_coltype inv
  let d0' := putL s.d0 off d1
  let r ← solveRank1 ⟨P.laed4, n, p.k, 2 * |rho|, shF (putL s.d1 off d1) off, i4, P.junk⟩ P.avail (ie - ib)
    ⟨shF d0' off, shF (putL s.z1 off z1) off, shE s.e2 off, P.junk⟩
  some
    ({ s with
        i3 := putL s.i3 off p.index_sorted
        i5 := putL s.i5 off p.index_sorted_coltype
        i4 := putL s.i4 off i4
        i2 := putL s.i2 off inv
        e1 := permCols off n p.index_sorted_coltype s.e0 s.e1
        d1 := putL s.d1 off d1
        d0 := putF d0' off n r.evals
        z1 := putF (putL s.z1 off z1) off n r.z
        e2 := putE s.e2 off n r.q }, p)

/-- `multiplyEigenvectors`, merge.h:974-1085. -/
def multEvecs (nb off n n1 n2 : Nat) (p : Partition) (e0 e1 e2 : Elems ℝ) : Option (Elems ℝ) := do
  let nuh := p.n_udl.getD (ev_sort_order .UpperHalf) 0
  let nde := p.n_udl.getD (ev_sort_order .Dense) 0
  let nlh := p.n_udl.getD (ev_sort_order .LowerHalf) 0
  let a := nuh + nde
  let b := nde + nlh
  let c1 ← gemmWin nb 1 e1 off off e2 off off 0 e0 off off n1 p.k a
  let c2 ← gemmWin nb 1 e1 (off + n1) (off + nuh) e2 (off + nuh) off 0 c1 (off + n1) off n2 p.k b
  some (copyWin nb e1 c2 off (off + p.k) n (n - p.k))

/-- Third part, merge.h:1212-1223: product and final order. -/
def dcStep3 (nb m ib is ie : Nat) (s : DcSt) (p : Partition) : Option DcSt := do
  let off := ib * nb
  let n := probN nb m ib ie
  let e0 ← multEvecs nb off n (probN nb m ib is) (probN nb m is ie) p s.e0 s.e1 s.e2
  let i1 := initIdx nb m ib ie s.i1
  let i2 ← sortIndex p.k (winL s.d0 off n) (winL i1 off n)
  some
    { s with
      e0 := e0
      i2 := putL s.i2 off i2
      i1 := putL i1 off i2 }

/-- `mergeSubproblems`, merge.h:1087-1224. -/
def mergeSub (P : DcPar) (nb m ib is ie : Nat) (rho : ℝ) (s : DcSt) : Option DcSt := do
  let (s, i2) ← dcStep1 P nb m ib is ie rho s
  let (s, p) ← dcStep2 P nb m ib ie rho s i2
  dcStep3 nb m ib is ie s p

/-! ### driver -/

/-- `splitIntervalInTheMiddleRecursively`, impl.h:50-60 (with `b + 1 = e` as test; here also empty intervals end). -/
def splitIv (b e : Nat) : List (Nat × Nat × Nat) :=
  if e ≤ b + 1 then [] else
  splitIv b (ceilDivN (b + e) 2) ++ splitIv (ceilDivN (b + e) 2) e ++ [(b, ceilDivN (b + e) 2, e)]
termination_by e - b
decreasing_by all_goals (unfold ceilDivN; omega)

/-- `cuppensDecomp` for the split before tile `i`, kernels.h:73-86: the diagonal. -/
def cuppens (nb m : Nat) (e : Nat → ℝ) (i : Nat) (d : Nat → ℝ) : Nat → ℝ :=
  let top := (i - 1) * nb + (tileN nb m (i - 1) - 1)
  let d := setF d top (d top - |e top|)
  setF d (i * nb) (d (i * nb) - |e top|)

/-- `cuppensDecomposition`, impl.h:78-100: `offdiag_vals[i - 1]`. -/
def offdiag (nb m : Nat) (e : Nat → ℝ) (i : Nat) : ℝ := e ((i - 1) * nb + (tileN nb m (i - 1) - 1))

/-- `solveLeaf`, impl.h:103-110: tile `i`; eigenvalues in the first column of `tridiag`, eigenvectors in the diagonal tile. -/
def solveLeaf (P : DcPar) (nb m : Nat) (e : Nat → ℝ) (i : Nat) (x : (Nat → ℝ) × Elems ℝ) : (Nat → ℝ) × Elems ℝ :=
  let r := P.stedc (tileN nb m i) (shF x.1 (i * nb)) (shF e (i * nb))
  (putF x.1 (i * nb) (tileN nb m i) r.1, putE x.2 (i * nb) (tileN nb m i) r.2)

/-- `TridiagSolver::call` (local), impl.h:177-246: `w` is what evals (`d1`), evecs (`e2`) and the work space contained.  Result: eigenvalues and
eigenvectors. -/
def dcSolve (P : DcPar) (w : DcSt) (m nb : Nat) (d e : Nat → ℝ) : Option ((Nat → ℝ) × (Nat → Nat → ℝ)) :=
  let nt := ceilDivN m nb
  if m = 0 then some (w.d1, w.e2)
  else if nt = 1 then
    let r := solveLeaf P nb m e 0 (d, w.e2)
    some (putF w.d1 0 m r.1, r.2)
  else do
    let dd := (upto 1 nt).foldl (fun d i => cuppens nb m e i d) d
    let lf := (upto 0 nt).foldl (fun x i => solveLeaf P nb m e i x) (dd, fun x y => if x < m ∧ y < m then 0 else w.e0 x y)
    let s ← forM' (splitIv 0 nt) { w with d0 := putF w.d0 0 m lf.1, e0 := lf.2 } fun s t =>
      mergeSub P nb m t.1 t.2.1 t.2.2 (offdiag nb m e t.2.1) s
    let ev ← applyIndex (winL s.i2 0 m) (winL s.d0 0 m)
    some (putL s.d1 0 ev, permCols 0 m (winL s.i2 0 m) s.e0 s.e2)

end
end DLAF
