import Verif.Model.Eigensolver
import Verif.Spec.BandTridiag
import Verif.Spec.BtBandTridiag
/- Eigensolver: what is asked of the tridiagonal eigensolver, and of the result. -/
namespace DLAF
open scoped Classical
variable {K : Type*} [RCLike K]

/-- The diagonal matrix of the first `m` values. -/
noncomputable def diagM (m : Nat) (lam : Nat → ℝ) : Matrix (Fin m) (Fin m) K := Matrix.diagonal fun i => ((lam i : ℝ) : K)

/-- A solver for symmetric tridiagonal matrices: for every matrix it returns the eigenvalues in ascending order and an orthogonal
matrix with eigenvectors as columns. -/
def TridiagSpec (tri : (n nb : Nat) → (Nat → ℝ) → (Nat → ℝ) → Option ((Nat → ℝ) × (Nat → Nat → ℝ))) : Prop :=
  ∀ n nb d e, 0 < n → 0 < nb → ∃ lam Z, tri n nb d e = some (lam, Z) ∧
    (∀ i j, i ≤ j → j < n → lam i ≤ lam j) ∧ (toM n n Z).transpose * toM n n Z = 1 ∧
    (triM n d e : Matrix (Fin n) (Fin n) ℝ) * toM n n Z = toM n n Z * diagM n lam

/-- What the environment has to provide: at least one worker in each pool, a sign bit that is that of the real part, LAPACK's contracts
for `larfg` and `larft`, a positive group size, and real arithmetic if the type is not complex. -/
structure EigEnv.Good (E : EigEnv K) : Prop where
  bmin : 2 ≤ E.bmin
  availT : 0 < E.red.availT
  availP : 0 < E.red.availP
  sign : GoodSign E.red.signbit
  larfg : LarfgSpec E.larfg
  threads : 0 < E.threads
  larft : LarftSpec E.t2b.larft
  group : 0 < E.t2b.group
  availBt : 0 < E.availBt
  real : E.cplx = false → ∀ x : K, star x = x

end DLAF
