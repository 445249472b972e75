import Verif.Model.BandTridiag
import Verif.Spec.SemThreads
import Verif.Spec.RedBand
/- Reduction of a band matrix to tridiagonal form: `larfg`, the tridiagonal matrix, the stored reflectors, memory cells. -/
namespace DLAF
open scoped Classical
variable {K : Type*} [RCLike K]

/-- Contract of LAPACK's `larfg`: for every vector `x` with `n` elements it returns `beta`, `tau` and `v` (with `v 0 = 1`) such that
`H = I - tau v vᴴ` is unitary, `beta` is real and `Hᴴ x = beta e_0`. -/
def LarfgSpec (larfg : (n : Nat) → (Fin n → K) → K × K × (Nat → K)) : Prop := ∀ n x, 0 < n →
  star (larfg n x).1 = (larfg n x).1 ∧
  (reflector n (fun i => if i = 0 then 1 else (larfg n x).2.2 i) (larfg n x).2.1).conjTranspose *
    reflector n (fun i => if i = 0 then 1 else (larfg n x).2.2 i) (larfg n x).2.1 = 1 ∧
  (reflector n (fun i => if i = 0 then 1 else (larfg n x).2.2 i) (larfg n x).2.1).conjTranspose.mulVec x =
    fun i : Fin n => if (i : Nat) = 0 then (larfg n x).1 else 0

/-- The symmetric tridiagonal matrix with diagonal `d` and off-diagonal `e`. -/
noncomputable def triM (n : Nat) (d e : Nat → ℝ) : Matrix (Fin n) (Fin n) K := fun x y =>
  if (x : Nat) = y then (d x : K) else if (x : Nat) = y + 1 then (e y : K) else if (y : Nat) = x + 1 then (e x : K) else 0

/-- Number of sweeps, documentation in band_to_tridiag.h:33-38: the last sweep is `m - 3` (real) or `m - 2` (complex). -/
def lastSweep (cplx : Bool) (m : Nat) : Nat := if cplx then m - 1 else m - 2

/-- Number of reflectors of a sweep, documentation in band_to_tridiag.h:39. -/
def reflsOf (b m sw : Nat) : Nat := if sw + 2 = m then 1 else (m - sw - 2 + b - 1) / b

/-- The vector of reflector `(sw, st)`, documentation in band_to_tridiag.h:40-46. -/
def hhVec (m b : Nat) (V : Nat → Nat → K) (sw st : Nat) : Nat → K := fun x =>
  let start := 1 + sw + st * b
  let pos := (sw / b + st) * b
  if x < start then 0 else if x = start then 1 else if x < start + min b (m - start) then V (pos + (x - start)) sw else 0

/-- `HHT(sw, st)`: the reflector with its tau, `V(pos, sw)`. -/
def hht (m b : Nat) (V : Nat → Nat → K) (sw st : Nat) : Matrix (Fin m) (Fin m) K :=
  reflector m (hhVec m b V sw st) (V ((sw / b + st) * b) sw)

/-- `HHT(sw, 0) HHT(sw, 1) ... HHT(sw, k - 1)`. -/
def hhSweep (m b : Nat) (V : Nat → Nat → K) (sw k : Nat) : Matrix (Fin m) (Fin m) K :=
  ((List.range k).map fun st => hht m b V sw st).prod

/-- The product of all the reflectors of the sweeps before `sw`, sweep after sweep. -/
def hhSweeps (m b : Nat) (V : Nat → Nat → K) (sw : Nat) : Matrix (Fin m) (Fin m) K :=
  ((List.range sw).map fun s => hhSweep m b V s (reflsOf b m s)).prod

/-- `Q` as documented in band_to_tridiag.h:32-46. -/
def hhQ (cplx : Bool) (m b : Nat) (V : Nat → Nat → K) : Matrix (Fin m) (Fin m) K := hhSweeps m b V (lastSweep cplx m)

/-- Memory cells: elements of the compact band, workers, elements of the matrix of reflectors, rows of the tridiagonal matrix. -/
inductive BtCell
  | mem (a : Nat)
  | worker (w : Nat)
  | refl (x y : Nat)
  | trid (i : Nat)

/-- Content of a cell. -/
def BtCell.Val (K : Type*) : BtCell → Type _
  | .mem _ => K
  | .worker _ => K × (Nat → K)
  | .refl _ _ => K
  | .trid _ => ULift (ℝ × ℝ)

/-- Content of a cell. -/
def btView : (c : BtCell) → BtSt K → c.Val K
  | .mem a, s => s.mem a
  | .worker w, s => (s.tau w, s.v w)
  | .refl x y, s => s.refl x y
  | .trid i, s => ULift.up (s.d i, s.e i)

/-- The cells of columns `lo ≤ y < hi` of the compact band. -/
def bandCols (b lo hi : Nat) : BtCell → Prop
  | .mem a => lo ≤ a / (2 * b) ∧ a / (2 * b) < hi
  | _ => False

/-- One worker. -/
def isWorker (w : Nat) (c : BtCell) : Prop := c = .worker w

/-- Rows of the tridiagonal matrix. -/
def tridRows (lo hi : Nat) : BtCell → Prop
  | .trid i => lo ≤ i ∧ i < hi
  | _ => False

/-- Rows of one column of the matrix of reflectors. -/
def reflCol (lo hi y : Nat) : BtCell → Prop
  | .refl x y' => lo ≤ x ∧ x < hi ∧ y' = y
  | _ => False

/-- Cells that the instruction `q` of task `t` touches. -/
def btFoot (E : BtEnv K) (t q : Nat) : BtCell → Prop :=
  let S := nrSweeps E.cplx E.size
  if t < E.nt then (if q < 2 then bandCols E.b (t * E.nb) (min ((t + 1) * E.nb) E.size) else fun _ => False)
  else if t < E.nt + S then
    let sw := t - E.nt
    let w := sw % maxWorkers E
    if q = 2 then fun c => isWorker w c ∨ bandCols E.b sw (sw + 1) c
    else if q = 3 then (if (sw + 1) % E.nb = 0 then
      fun c => bandCols E.b (sw + 1 - E.nb) (sw + 1) c ∨ tridRows (sw + 1 - E.nb) (sw + 1) c else fun _ => False)
    else if q < 4 then fun _ => False
    else
      let st := (q - 4) / 4
      if q % 4 = 0 ∧ st < nrSteps sw E.size E.b then
        fun c => isWorker w c ∨ reflCol ((sw / E.b + st) * E.b) ((sw / E.b + st) * E.b + min E.b (E.size - (1 + sw + st * E.b))) sw c
      else if q % 4 = 2 then fun c => isWorker w c ∨ bandCols E.b (1 + sw + st * E.b) (min (1 + sw + st * E.b + E.b) E.size) c
      else fun _ => False
  else if q = 2 ∧ t = E.nt + S + 1 ∧ E.cplx = false ∧ (E.size - 1) % E.nb = 0 then
    fun c => bandCols E.b ((E.size - 1 - 1) / E.nb * E.nb) (max (E.size - 1) 1) c ∨
      tridRows ((E.size - 1 - 1) / E.nb * E.nb) (max (E.size - 1) 1) c
  else if q = 2 ∧ t = E.nt + S + 2 then
    fun c => bandCols E.b ((E.size - 1) / E.nb * E.nb) E.size c ∨ tridRows ((E.size - 1) / E.nb * E.nb) E.size c
  else fun _ => False

end DLAF
