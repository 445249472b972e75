import Verif.Model.RedBand
import Verif.Model.BandTridiag
import Verif.Model.BtBandTridiag
import Verif.Model.BtRedBand
import Verif.Model.Tridiag
/-
Model of the Hermitian eigensolver on local memory, include/dlaf/eigensolver/eigensolver.h:36-68 and
eigensolver/eigensolver/impl.h:37-59.  The second stage (band to tridiagonal) is a concurrent program, so that the call is a relation
between the input and its possible outcomes.
-/
namespace DLAF
open scoped Classical
noncomputable section
variable {K : Type*} [RCLike K]

/-- What the preconditions ask about a matrix: size, block size, tile size, `local_matrix`. -/
structure MShape where
  rows : Nat
  cols : Nat
  brows : Nat
  bcols : Nat
  trows : Nat
  tcols : Nat
  isLocal : Bool

/-- `square_size`, util_matrix.h:30-32. -/
def MShape.squareSize (m : MShape) : Prop := m.rows = m.cols
/-- `square_block_size`, util_matrix.h:36-38. -/
def MShape.squareBlock (m : MShape) : Prop := m.brows = m.bcols
/-- `single_tile_per_block`, util_matrix.h:48-50. -/
def MShape.singleTile (m : MShape) : Prop := m.trows = m.brows ∧ m.tcols = m.bcols

/-- The assertions of `hermitian_eigensolver`, eigensolver.h:40-62. -/
def eigPre (mat evals evecs : MShape) (ibegin iend : Int) : Prop :=
  mat.isLocal = true ∧ evals.isLocal = true ∧ evecs.isLocal = true ∧ mat.squareSize ∧ mat.singleTile ∧ mat.squareBlock ∧
  evals.rows = evecs.rows ∧ evals.singleTile ∧ evals.brows = evecs.brows ∧
  (evecs.rows = mat.rows ∧ evecs.cols = mat.cols) ∧ evecs.squareSize ∧ evecs.singleTile ∧ evecs.squareBlock ∧
  (evecs.brows = mat.brows ∧ evecs.bcols = mat.bcols) ∧ ibegin = 0 ∧ ibegin ≤ iend ∧ iend ≤ mat.rows

/-- Contents of the three matrices. -/
structure EigSt (K : Type*) where
  a : Elems K
  evals : Nat → ℝ
  evecs : Elems K

/-- What the environment of the call provides: the tune parameter `eigensolver_min_band`; the environments of the stages (numbers of
workers, previous contents of work spaces, LAPACK routines); `tri n nb d e`: the result of `TridiagSolver::call` for the tridiagonal
matrix with diagonal `d` and off-diagonal `e` (eigenvalues and eigenvectors), `none` if it aborts. -/
structure EigEnv (K : Type*) where
  bmin : Int
  red : RedEnv K
  taus0 : Nat → K
  larfg : (n : Nat) → (Fin n → K) → K × K × (Nat → K)
  cplx : Bool
  threads : Nat
  mem0 : BtSt K
  tri : (n nb : Nat) → (Nat → ℝ) → (Nat → ℝ) → Option ((Nat → ℝ) × Elems ℝ)
  t2b : T2BEnv K
  availBt : Nat
  junkBt : Nat → Elems K

/-- `band_to_tridiagonal<Backend::MC>(Lower, b, a)`: the outcome is `none` if an assertion fails or if a schedule gets stuck before all
tasks have ended, and otherwise the state at the end of a schedule. -/
def bandOutcome (E : EigEnv K) (n nb b : Nat) (a : Elems K) (o : Option (BtSt K)) : Prop :=
  let B : BtEnv K := ⟨E.larfg, n, nb, b, E.cplx, E.threads, a⟩
  if ¬ bandOK B then o = none
  else if n = 0 then o = some E.mem0
  else ∃ k l, Sem.Steps (bandProg B) (Sem.start E.mem0) k l ∧
    ((Sem.Done (bandProg B) k ∧ o = some k.s) ∨ ((¬ Sem.Done (bandProg B) k ∧ ¬ ∃ k', Sem.Step (bandProg B) k k') ∧ o = none))

/-- `tridiagonal_eigensolver`, tridiag_solver.h:47-70 (of its assertions only `evals.size().cols() == 1` is not implied by those of
`hermitian_eigensolver`), tridiag_solver/impl.h:177-183 and, for complex types, 245-258 (`castToComplex`). -/
def triStage (E : EigEnv K) (n nb : Nat) (evals : MShape) (t : BtSt K) (s : EigSt K) : Option (EigSt K) :=
  if evals.cols ≠ 1 then none
  else if n = 0 then some s
  else (E.tri n nb t.d t.e).map fun r =>
    { s with
      evals := fun i => if i < n then r.1 i else s.evals i
      evecs := fun x y => if x < n ∧ y < n then ((r.2 x y : ℝ) : K) else s.evecs x y }

/-- The two back-transformations of the first `m` columns of the eigenvectors, eigensolver/impl.h:53-57. -/
def btStages (E : EigEnv K) (n nb b m : Nat) (t : BtSt K) (taus : Nat → K) (s : EigSt K) : Option (EigSt K) := do
  let c1 ← btBandToTridiag { E.t2b with cplx := E.cplx } n m nb nb b t.refl s.evecs
  let c2 ← btReductionToBand E.availBt E.junkBt n m nb nb b s.a taus c1
  some { s with evecs := c2 }

/-- `hermitian_eigensolver` with `Eigensolver::call`, eigensolver/impl.h:37-59: `hermEig … s o` says that `o` is a possible outcome
(`none`: an assertion fails). -/
def hermEig (E : EigEnv K) (uplo : Uplo) (mat evals evecs : MShape) (ibegin iend : Int) (s : EigSt K)
    (o : Option (EigSt K)) : Prop :=
  if ¬ eigPre mat evals evecs ibegin iend then o = none else
  match getBandSize E.bmin mat.brows with
  | none => o = none
  | some b =>
    if uplo ≠ .Lower then o = none else
    match reductionToBand E.red mat.rows mat.brows b.toNat s.a E.taus0 with
    | none => o = none
    | some (a', taus) => ∃ o1, bandOutcome E mat.rows mat.brows b.toNat a' o1 ∧
      match o1 with
      | none => o = none
      | some t => o = (triStage E mat.rows mat.brows evals t { s with a := a' }).bind
          (btStages E mat.rows mat.brows b.toNat iend.toNat t taus)

end
end DLAF
