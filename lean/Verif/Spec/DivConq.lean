import Verif.Model.DivConq
import Verif.Spec.Eigensolver
/- Divide and conquer: what is asked of LAPACK's `stedc`. -/
namespace DLAF

/-- LAPACK's documentation of `stedc` (`compz = 'I'`), in exact arithmetic: eigenvalues in ascending order and orthonormal eigenvectors of the
symmetric tridiagonal matrix. -/
def StedcSpec (stedc : (n : Nat) → (Nat → ℝ) → (Nat → ℝ) → (Nat → ℝ) × (Nat → Nat → ℝ)) : Prop :=
  ∀ n d e, 0 < n → (∀ i j, i ≤ j → j < n → (stedc n d e).1 i ≤ (stedc n d e).1 j) ∧
    (toM n n (stedc n d e).2).transpose * toM n n (stedc n d e).2 = 1 ∧
    (triM n d e : Matrix (Fin n) (Fin n) ℝ) * toM n n (stedc n d e).2 = toM n n (stedc n d e).2 * diagM n (stedc n d e).1

end DLAF
