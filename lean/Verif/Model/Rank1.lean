import Verif.Spec.Rank1
import Verif.Model.Threads
import Verif.Model.RedBand
/-
Model of the solver of the rank-one update problem of the divide and conquer method, include/dlaf/eigensolver/tridiag_solver/merge.h
`solveRank1Problem` (local, 797-974), in exact arithmetic.  `laed4` is LAPACK's.  Indices are relative to the range of tiles; tiles are
windows of the elements and columns of `evecs` are contiguous (C34).
-/
namespace DLAF
open scoped Classical
noncomputable section

/-- Shared state of the workers: `evals`, `z`, the elements of `evecs` and the work spaces `ws_vecs` (one per worker). -/
structure R1St where
  evals : Nat → ℝ
  z : Nat → ℝ
  q : Elems ℝ
  ws : Nat → Nat → ℝ

/-- Parameters: size, number of non-deflated, `rho`, `d`, the permutation `i2` (argument name of the function), contents of memory when
allocated. -/
structure R1Cfg where
  laed4 : Laed4
  n : Nat
  k : Nat
  rho : ℝ
  d : Nat → ℝ
  perm : List Nat
  junk : Nat → Nat → ℝ

/-- `std::copysign`, for a second argument that is not zero. -/
def copysign (x y : ℝ) : ℝ := if y < 0 then -|x| else |x|

/-- Allocation of the work spaces, merge.h:840-844. -/
def r1Init (g : R1Cfg) (s : R1St) : R1St := { s with ws := g.junk }

/-- `laed4` for column `i`, merge.h:856-864: writes `evals[i]` and the first `k` entries of column `i`. -/
def r1Laed (g : R1Cfg) (i : Nat) (s : R1St) : R1St :=
  let r := g.laed4 g.k i g.d s.z g.rho
  { s with
    evals := fun j => if j = i then r.1 else s.evals j
    q := fun x y => if y = i ∧ x < g.k then r.2 x else s.q x y }

/-- Permutation of the rows of column `j` if `k == 2`, merge.h:870-885, by worker `t`. -/
def r1Perm2 (g : R1Cfg) (t j : Nat) (s : R1St) : R1St :=
  { s with
    ws := fun u => if u = t then fun i => if i < g.k then s.q i j else s.ws t i else s.ws u
    q := fun x y =>
      if y = j then
        (if x < g.n ∧ g.perm.getD x 0 < g.k then s.q (g.perm.getD x 0) j else if x < g.k then 0 else s.q x j)
      else s.q x y }

/-- Start of the weights, merge.h:898-909. -/
def r1InitW (g : R1Cfg) (t : Nat) (s : R1St) : R1St :=
  { s with ws := fun u => if u = t then fun i => if i < g.k then (if t = 0 then s.q i i else 1) else s.ws t i else s.ws u }

/-- `compute_w({i, j})`, merge.h:912-920. -/
def r1CompW (g : R1Cfg) (t i j : Nat) (s : R1St) : R1St :=
  { s with ws := fun u => if u = t then fun l => if l = i then s.ws t i * (s.q i j / (g.d i - g.d j)) else s.ws t l else s.ws u }

/-- Reduction and final weight `i`, merge.h:934-940. -/
def r1FinW (nthreads i : Nat) (s : R1St) : R1St :=
  let w := (upto 1 nthreads).foldl (fun x t => x * s.ws t i) (s.ws 0 i)
  { s with
    ws := fun u => if u = 0 then fun l => if l = i then w else s.ws 0 l else s.ws u
    z := fun l => if l = i then copysign (Real.sqrt (-w)) (s.z i) else s.z l }

/-- Eigenvector `j`, merge.h:952-969. -/
def r1ColQ (g : R1Cfg) (t j : Nat) (s : R1St) : R1St :=
  let v : Nat → ℝ := fun i => s.z i / s.q i j
  let nrm := Real.sqrt (∑ i ∈ Finset.range g.k, v i ^ 2)
  { s with
    ws := fun u => if u = t then fun i => if i < g.k then v i else s.ws t i else s.ws u
    q := fun x y => if y = j ∧ x < g.k then v (g.perm.getD x 0) / nrm else s.q x y }

/-- Number of workers, merge.h:813-818. -/
def r1Workers (avail nrtiles : Nat) : Nat := clampN (ceilDivN nrtiles 2) 1 avail

/-- Control points: start and the barriers. -/
inductive R1Ctl
  | start | alloc | laed | weights | final | fin

/-- Actions of worker `t` after each barrier; its columns are `begin, ..., end - 1` (merge.h:835-837, the same as `workerRange`). -/
def r1ActsLaed (g : R1Cfg) (nt t : Nat) : List (R1St → R1St) :=
  (workerRange g.k nt t).map (r1Laed g) ++ (if g.k = 2 then (workerRange g.k nt t).map (r1Perm2 g t) else [])
/-- merge.h:893-928. -/
def r1ActsW (g : R1Cfg) (nt t : Nat) : List (R1St → R1St) :=
  r1InitW g t :: (workerRange g.k nt t).flatMap fun j => (upto 0 j ++ upto (j + 1) g.k).map fun i => r1CompW g t i j
/-- merge.h:932-941. -/
def r1ActsFin (g : R1Cfg) (nt t : Nat) : List (R1St → R1St) := if t = 0 then (upto 0 g.k).map (r1FinW nt) else []
/-- merge.h:945-971. -/
def r1ActsQ (g : R1Cfg) (nt t : Nat) : List (R1St → R1St) := (workerRange g.k nt t).map (r1ColQ g t)

/-- The code of the bulk, merge.h:827-972. -/
def r1Code (g : R1Cfg) (nt : Nat) : Bulk.Code R1St R1Ctl
  | .start, _ => some (fun t => if t = 0 then [r1Init g] else [], .alloc)
  | .alloc, _ => some (r1ActsLaed g nt, if g.k ≤ 2 then .fin else .laed)
  | .laed, _ => some (r1ActsW g nt, .weights)
  | .weights, _ => some (r1ActsFin g nt, .final)
  | .final, _ => some (r1ActsQ g nt, .fin)
  | .fin, _ => none

/-- The bulk, worker after worker between the barriers (that every schedule has this result is C51_every_schedule). -/
def r1Run (g : R1Cfg) (nt : Nat) (s : R1St) : R1St :=
  let s := Bulk.runAll (r1ActsLaed g nt) nt (r1Init g s)
  if g.k ≤ 2 then s else
  Bulk.runAll (r1ActsQ g nt) nt (Bulk.runAll (r1ActsFin g nt) nt (Bulk.runAll (r1ActsW g nt) nt s))

/-- `solveRank1Problem` on `nrtiles` tiles; `none`: the work space is read out of bounds (merge.h:967, `ii ≥ k`). -/
def solveRank1 (g : R1Cfg) (avail nrtiles : Nat) (s : R1St) : Option R1St :=
  if 2 < g.k ∧ ∃ i < g.k, g.k ≤ g.perm.getD i 0 then none else some (r1Run g (r1Workers avail nrtiles) s)

end
end DLAF
