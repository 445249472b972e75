import Verif.Model.SemThreads
import Verif.Model.Views
import Mathlib.Analysis.RCLike.Basic
/-
Model of the reduction of a Hermitian band matrix to tridiagonal form on local memory,
include/dlaf/eigensolver/band_to_tridiag/mc.h (`BandToTridiag<MC, CPU, T>::call_L`, 664-868) and band_to_tridiag/api.h.
`K` is `ℝ` or `ℂ`.  The band is kept in a flat memory (`BandBlock`, mc.h:182-436, here without `dist`).
-/
namespace DLAF
open scoped Classical
noncomputable section
variable {K : Type*} [RCLike K]

/-- Shared state: memory of the `BandBlock`; `tau` and `v` of each worker (mc.h:476-575); the matrix of reflectors and the two
columns of the tridiagonal matrix.  The work space `w` of a worker is written completely by each kernel before it reads it, so
that it is a local variable of the kernels here.  `sweep_` and `step_` of a worker, which `start_sweep` sets to the sweep and zero
and each `do_step` increments, are parameters of the actions of the task that holds the worker. -/
structure BtSt (K : Type*) where
  mem : Nat → K
  tau : Nat → K
  v : Nat → Nat → K
  refl : Elems K
  d : Nat → ℝ
  e : Nat → ℝ

/-- Parameters: `lapack::larfg(n, alpha, x, incx, tau)` as a function of `n` and the vector `(alpha, x)` with results `beta`, `tau`
and the tail of `v`; order, tile size and band width; `isComplex_v<T>`; `get_num_threads("default")`; the matrix. -/
structure BtEnv (K : Type*) where
  larfg : (n : Nat) → (Fin n → K) → K × K × (Nat → K)
  size : Nat
  nb : Nat
  b : Nat
  cplx : Bool
  threads : Nat
  a : Elems K

/-- `ld_`, mc.h:191. -/
def BtEnv.ld (E : BtEnv K) : Nat := 2 * E.b - 1

/-- `BandBlock::ptr(offset, j)` as an index of the memory, mc.h:232-242. -/
def BtEnv.ptr (E : BtEnv K) (offset j : Nat) : Nat := j * (E.ld + 1) + offset

/-- Overwrite the elements `(r, c)`, `r < m`, `c < n`, that satisfy `sel`, of the column-major matrix at `p` with leading dimension
`ld` (at least `m`). -/
def putW (mem : Nat → K) (p ld m n : Nat) (sel : Nat → Nat → Prop) (g : Nat → Nat → K) : Nat → K := fun a =>
  if p ≤ a ∧ (a - p) % ld < m ∧ (a - p) / ld < n ∧ sel ((a - p) % ld) ((a - p) / ld) then g ((a - p) % ld) ((a - p) / ld)
  else mem a

/-- Every element. -/
def all2 : Nat → Nat → Prop := fun _ _ => True
/-- Lower triangle. -/
def lower2 : Nat → Nat → Prop := fun r c => c ≤ r
/-- Upper triangle. -/
def upper2 : Nat → Nat → Prop := fun r c => r ≤ c

/-- What a worker sees: the memory of the band and its own `tau` and `v`. -/
structure Wk (K : Type*) where
  mem : Nat → K
  tau : K
  v : Nat → K

/-- Worker `w` performs `f`. -/
def onWorker (w : Nat) (f : Wk K → Wk K) (s : BtSt K) : BtSt K :=
  let x := f ⟨s.mem, s.tau w, s.v w⟩
  { s with
    mem := x.mem
    tau := fun i => if i = w then x.tau else s.tau i
    v := fun i => if i = w then x.v else s.v i }

/-- `HH_reflector(n, tau, v, vec)`, mc.h:54-68. -/
def hhReflector (E : BtEnv K) (n p : Nat) (s : Wk K) : Wk K :=
  let q := E.larfg n fun i => s.mem (p + i.val)
  { mem := fun a => if a = p then q.1 else if p < a ∧ a < p + n then 0 else s.mem a
    tau := q.2.1
    v := fun x => if x = 0 then 1 else if x < n then q.2.2 x else s.v x }

/-- `apply_HH_left_right_herm(n, tau, v, a, lda, w)`, mc.h:70-87.  `hemv` and `her2` are taken to act on a Hermitian matrix with a
real diagonal (they ignore the imaginary part of it and set it to zero). -/
def applyHerm (n : Nat) (tau : K) (v : Nat → K) (p ld : Nat) (mem : Nat → K) : Nat → K :=
  let a := fun r c => if c ≤ r then mem (p + r + c * ld) else star (mem (p + c + r * ld))
  let w0 := fun r => tau * ∑ c ∈ Finset.range n, a r c * v c
  let tmp := -(∑ r ∈ Finset.range n, star (w0 r) * v r) * tau / 2
  let w := fun r => tmp * v r + w0 r
  putW mem p ld n n lower2 fun r c => mem (p + r + c * ld) - w r * star (v c) - v r * star (w c)

/-- `apply_HH_left(m, n, tau, v, a, lda, w)`, mc.h:89-103. -/
def applyLeft (m n : Nat) (tau : K) (v : Nat → K) (p ld : Nat) (mem : Nat → K) : Nat → K :=
  let w := fun c => ∑ r ∈ Finset.range m, star (mem (p + r + c * ld)) * v r
  putW mem p ld m n all2 fun r c => mem (p + r + c * ld) - star tau * v r * star (w c)

/-- `apply_HH_right(m, n, tau, v, a, lda, w)`, mc.h:105-119. -/
def applyRight (m n : Nat) (tau : K) (v : Nat → K) (p ld : Nat) (mem : Nat → K) : Nat → K :=
  let w := fun r => ∑ c ∈ Finset.range n, mem (p + r + c * ld) * v c
  putW mem p ld m n all2 fun r c => mem (p + r + c * ld) - tau * w r * star (v c)

/-- `BandBlock::copy_diag(k * nb, mat_a.read({k, k}))`, mc.h:248-278 (CPU): the tile has `cols` columns. -/
def copyDiag (E : BtEnv K) (k : Nat) (s : BtSt K) : BtSt K :=
  let j := k * E.nb
  let cols := min E.nb (E.size - j)
  let index := cols - E.b
  let m1 := putW s.mem (E.ptr (E.b + 1) j) (E.ld + 1) (E.b - 1) cols all2 fun _ _ => 0
  let m2 := if 0 < index then putW m1 (E.ptr 0 j) (E.ld + 1) (E.b + 1) index all2 fun r c => E.a (j + (c + r)) (j + c) else m1
  let sz := min E.b cols
  { s with mem := putW m2 (E.ptr 0 (j + index)) E.ld sz sz lower2 fun r c => E.a (j + (index + r)) (j + (index + c)) }

/-- `BandBlock::copy_off_diag(k * nb, mat_a.read({k + 1, k}))`, mc.h:317-352 (CPU). -/
def copyOffDiag (E : BtEnv K) (k : Nat) (s : BtSt K) : BtSt K :=
  let j := k * E.nb
  let rows := min E.nb (E.size - (k + 1) * E.nb)
  let index := E.nb - E.b
  let sz := min E.b rows
  let dest := E.ptr E.b (j + index)
  let m1 := putW s.mem dest E.ld sz sz upper2 fun r c => E.a ((k + 1) * E.nb + r) (j + (index + c))
  let m2 := if sz < E.b then
    putW m1 (dest + E.ld * sz) E.ld rows (E.b - sz) all2 fun r c => E.a ((k + 1) * E.nb + r) (j + (index + sz + c)) else m1
  { s with mem := m2 }

/-- Number of releases of the first semaphore after the copy of tile column `k`, mc.h:741-756. -/
def copyReleases (E : BtEnv K) (nt k : Nat) : Nat :=
  if k < nt - 1 then E.nb / E.b else (E.size - k * E.nb + E.b - 1) / E.b + 1

/-- `SweepWorker::start_sweep(sweep, a)`, mc.h:484-486, 505-511, of worker `w`. -/
def startSweep (E : BtEnv K) (w sw : Nat) (s : BtSt K) : BtSt K :=
  onWorker w (hhReflector E (min (E.size - sw - 1) E.b) (E.ptr 1 sw)) s

/-- `first_row_HHR()`, mc.h:540-542. -/
def firstRow (E : BtEnv K) (sw step : Nat) : Nat := 1 + sw + step * E.b

/-- `size_HHR()`, mc.h:544-546. -/
def sizeHHR (E : BtEnv K) (sw step : Nat) : Nat := min E.b (E.size - firstRow E sw step)

/-- `do_step_full(a)`, mc.h:513-529, in step `step` of sweep `sw`. -/
def stepFull (E : BtEnv K) (sw step : Nat) (s : Wk K) : Wk K :=
  let j := firstRow E sw step
  let n := sizeHHR E sw step
  let m := min E.b (E.size - E.b - j)
  let s1 := { s with mem := applyHerm n s.tau s.v (E.ptr 0 j) E.ld s.mem }
  let s2 := if 0 < m then { s1 with mem := applyRight m n s1.tau s1.v (E.ptr n j) E.ld s1.mem } else s1
  if 1 < m then
    let s3 := hhReflector E m (E.ptr n j) s2
    { s3 with mem := applyLeft m (n - 1) s3.tau s3.v (E.ptr (n - 1) (j + 1)) E.ld s3.mem }
  else s2

/-- `SweepWorker::do_step(a)`, mc.h:495-497, of worker `w` in step `step` of sweep `sw`. -/
def doStep (E : BtEnv K) (w sw step : Nat) (s : BtSt K) : BtSt K := onWorker w (stepFull E sw step) s

/-- `compact_copy_to_tile(tiles_v[i_el / nb], (i_el % nb, j_el_tl))` in step `step` of sweep `sweep`, mc.h:488-493, 774-779; the tiles
are column `sweep / nb` of the matrix of reflectors from row `sweep / nb` on (828-840). -/
def copyRefl (E : BtEnv K) (w sweep step : Nat) (s : BtSt K) : BtSt K :=
  let jel := sweep % E.nb
  let iel := jel / E.b * E.b + step * E.b
  let r0 := (sweep / E.nb + iel / E.nb) * E.nb + iel % E.nb
  let c0 := sweep / E.nb * E.nb + jel
  { s with refl := fun x y =>
      if y = c0 ∧ x = r0 then s.tau w
      else if y = c0 ∧ r0 < x ∧ x < r0 + sizeHHR E sweep step then s.v w (x - r0)
      else s.refl x y }

/-- `copy_tridiag_task(start, n_d, n_e, tile)`, mc.h:787-803, on the tile of row `row` of the tridiagonal matrix (first row of the
tile). -/
def copyTridiag (E : BtEnv K) (start nd ne row : Nat) (s : BtSt K) : BtSt K :=
  { s with
    d := fun i => if row ≤ i ∧ i < row + nd then RCLike.re (s.mem (E.ptr 0 start + (i - row) * (E.ld + 1))) else s.d i
    e := fun i => if row ≤ i ∧ i < row + ne then RCLike.re (s.mem (E.ptr 1 start + (i - row) * (E.ld + 1))) else s.e i }

/-- `nrSweeps`, api.h:26-30 (zero if the difference is negative: the loop over the sweeps is empty). -/
def nrSweeps (cplx : Bool) (size : Nat) : Nat := if cplx then size - 1 else size - 2

/-- `nrStepsForSweep`, api.h:32-36. -/
def nrSteps (sweep size b : Nat) : Nat := if sweep + 2 = size then 1 else (size - sweep - 2 + b - 1) / b

/-- `max_workers`, mc.h:761-762. -/
def maxWorkers (E : BtEnv K) : Nat := min ((E.size + (2 * E.b - 1) - 1) / (2 * E.b - 1)) (2 * E.threads)

/-- Number of tiles. -/
def BtEnv.nt (E : BtEnv K) : Nat := (E.size + E.nb - 1) / E.nb

/-- Task of sweep `sw`, mc.h:772-784, 805-849: wait for the worker (its previous sweep is `max_workers` before); `init_sweep` or
`init_sweep_copy_tridiag`; then the steps (four instructions each) and the last release.  Semaphore `sw` is the one created by
the previous sweep (or by the copy), `sw + 1` the one for the next sweep. -/
def sweepInstr (E : BtEnv K) (t0 sw q : Nat) : Sem.Instr (BtSt K) :=
  let w := sw % maxWorkers E
  if q = 0 then (if maxWorkers E ≤ sw then .wait (t0 + (sw - maxWorkers E)) else .act fun s => s)
  else if q = 1 then .acquire sw
  else if q = 2 then .act (startSweep E w sw)
  else if q = 3 then .act (if (sw + 1) % E.nb = 0 then copyTridiag E (sw - (E.nb - 1)) E.nb E.nb (sw / E.nb * E.nb) else fun s => s)
  else if q = 4 + 4 * nrSteps sw E.size E.b then .release (sw + 1) 1
  else if q % 4 = 0 then .act (copyRefl E w sw ((q - 4) / 4))
  else if q % 4 = 1 then .acquire sw
  else if q % 4 = 2 then .act (doStep E w sw ((q - 4) / 4))
  else .release (sw + 1) 1

/-- Task of the copy of tile column `k`, mc.h:741-757: the two copies, then after those of the previous columns the releases. -/
def copyInstr (E : BtEnv K) (k q : Nat) : Sem.Instr (BtSt K) :=
  if q = 0 then .act (copyDiag E k)
  else if q = 1 then .act (if k < E.nt - 1 then copyOffDiag E k else fun s => s)
  else if q = 2 then (if k = 0 then .act fun s => s else .wait (k - 1))
  else .release 0 (copyReleases E E.nt k)

/-- `copy_tridiag(i, dep)`, mc.h:851-858. -/
def lastCopy (E : BtEnv K) (i : Nat) (s : BtSt K) : BtSt K :=
  let tile := (i - 1) / E.nb
  let start := tile * E.nb
  copyTridiag E start (min E.nb (E.size - start)) (min E.nb (E.size - 1 - start)) start s

/-- The tasks in the order of their creation: copies, sweeps, the acquisition of the last semaphore (mc.h:860-862), the copies of
the last elements (864-869; for real types two, if the last tile has one row).  Two copies to the same tile of the tridiagonal
matrix are in the order of their creation (`mat_trid.readwrite`). -/
def bandProg (E : BtEnv K) : Sem.Prog (BtSt K) where
  n := E.nt + nrSweeps E.cplx E.size + 3
  len t := if t < E.nt then 4
    else if t < E.nt + nrSweeps E.cplx E.size then 5 + 4 * nrSteps (t - E.nt) E.size E.b
    else if t = E.nt + nrSweeps E.cplx E.size then 1 else 3
  instr t q := if t < E.nt then copyInstr E t q
    else if t < E.nt + nrSweeps E.cplx E.size then sweepInstr E E.nt (t - E.nt) q
    else if t = E.nt + nrSweeps E.cplx E.size then .acquire (nrSweeps E.cplx E.size)
    else if q = 0 then .wait (E.nt + nrSweeps E.cplx E.size)
    else if q = 1 then (if t = E.nt + nrSweeps E.cplx E.size + 2 ∧ (E.size - 1 - 1) / E.nb = (E.size - 1) / E.nb then
      .wait (E.nt + nrSweeps E.cplx E.size + 1) else .act fun s => s)
    else if t = E.nt + nrSweeps E.cplx E.size + 1 then
      .act (if E.cplx = false ∧ (E.size - 1) % E.nb = 0 then lastCopy E (E.size - 1) else fun s => s)
    else .act (lastCopy E E.size)

/-- The preconditions of `band_to_tridiagonal`, band_to_tridiag.h:75-80 (of those that a square local matrix can violate); with
size zero nothing happens (mc.h:724-726). -/
def bandOK (E : BtEnv K) : Prop := E.nb % E.b = 0 ∧ 2 ≤ E.b

end

end DLAF
