import Verif.Model.Deflate
import Verif.Lemmas.LapackExists
import Mathlib.Analysis.CStarAlgebra.Matrix
/- Deflation of a rank-one update problem: what is asked of the result. -/
namespace DLAF
open scoped Matrix.Norms.L2Operator
open Matrix

/-- Columns of type upper half are zero from row `n1` on, columns of type lower half are zero before row `n1`. -/
def ZeroBy (n n1 : Nat) (c : Nat → ColType) (Q : Elems ℝ) : Prop :=
  ∀ x < n, ∀ y < n, (c y = .UpperHalf → n1 ≤ x → Q x y = 0) ∧ (c y = .LowerHalf → x < n1 → Q x y = 0)

/-- What deflation must do to `diag(d) + rho z zᵀ` and the matrix `Q` of its basis, `idx` being an order of ascending `d`:
`d`, `z`, `Q` are transformed with one orthogonal matrix `G` (so the spectrum and the subspaces are kept), `Gᵀ diag(d) G` being diagonal
up to `2 (n-1) tol` in the operator norm; at least one entry is not deflated, those not deflated are strictly ascending along `idx`, and have
`|rho z| > tol` if they are two or more; those deflated have `|rho z| ≤ tol`; and the types of the columns describe the zeros of `Q'`. -/
structure Deflates (rho tol : ℝ) (n : Nat) (idx : List Nat) (d z : Nat → ℝ) (c : Nat → ColType) (d' z' : Nat → ℝ) (c' : Nat → ColType)
    (rot : Elems ℝ → Elems ℝ) : Prop where
  orth : ∃ G : Matrix (Fin n) (Fin n) ℝ, G.transpose * G = 1 ∧ (∀ Q, toM n n (rot Q) = toM n n Q * G) ∧
    (∀ y : Fin n, z' y = ∑ x : Fin n, z x * G x y) ∧
    ‖G.transpose * diagonal (fun x : Fin n => d x) * G - diagonal (fun x : Fin n => d' x)‖ ≤ 2 * tol * ((n : ℝ) - 1)
  some : ∃ i < n, c' i ≠ .Deflated
  asc : ∀ i j, i < j → j < n → c' (idx.getD i 0) ≠ .Deflated → c' (idx.getD j 0) ≠ .Deflated → d' (idx.getD i 0) < d' (idx.getD j 0)
  big : ∀ i < n, ∀ j < n, i ≠ j → c' i ≠ .Deflated → c' j ≠ .Deflated → tol < |rho * z' i|
  small : ∀ i < n, c' i = .Deflated → |rho * z' i| ≤ tol
  zero : ∀ n1 Q, ZeroBy n n1 c Q → ZeroBy n n1 c' (rot Q)

end DLAF
