import Verif.Model.GenEigensolver
import Verif.Spec.Eigensolver
import Verif.Spec.Kernels
/- Generalized eigensolver. -/
namespace DLAF
open scoped Classical
variable {K : Type*} [RCLike K]

/-- A positive real number, as an element of `K`. -/
def posReal (x : K) : Prop := ∃ r : ℝ, 0 < r ∧ x = (r : K)

/-- The lower triangular matrix of order `n` with the elements of `B`. -/
noncomputable def lowM (n : Nat) (B : Nat → Nat → K) : Matrix (Fin n) (Fin n) K := fun x y => if (y : Nat) ≤ x then B x y else 0

/-- The Hermitian matrix given by the lower triangle of `B` is positive definite. -/
def PosDefE (n : Nat) (B : Nat → Nat → K) : Prop :=
  (∀ x < n, star (B x x) = B x x) ∧
  ∀ v : Fin n → K, v ≠ 0 → 0 < RCLike.re (∑ x, ∑ y, star (v x) * hermM n B x y * v y)

end DLAF
