import Verif.Spec.DivConq
import Verif.Spec.DistMultEvecs
import Verif.Spec.Spmd
/- Specification: the leaves of the divide & conquer algorithm. -/
namespace DLAF

/-- The diagonal of a tridiagonal matrix of order `n` (diagonal `d`, off-diagonal `e`) torn at all multiples of `nb`: `|e|` is subtracted on both sides of each cut. -/
noncomputable def tornDiag (nb n : Nat) (d e : Nat → ℝ) (x : Nat) : ℝ :=
  d x - (if x % nb = 0 ∧ 0 < x then |e (x - 1)| else 0) - (if (x + 1) % nb = 0 ∧ x + 1 < n then |e x| else 0)

/-- `lam` and `Q` solve all the diagonal blocks of the torn matrix. -/
def LeavesSolved (nb n : Nat) (d e lam : Nat → ℝ) (Q : Nat → Nat → ℝ) : Prop :=
  (∀ x y, x / nb ≠ y / nb → Q x y = 0) ∧
  ∀ i, i * nb < n → ∀ s, s = min nb (n - i * nb) →
    (∀ a b, a ≤ b → b < s → lam (i * nb + a) ≤ lam (i * nb + b)) ∧
    (toM s s fun x y => Q (i * nb + x) (i * nb + y)).transpose * (toM s s fun x y => Q (i * nb + x) (i * nb + y)) = 1 ∧
    (triM s (fun x => tornDiag nb n d e (i * nb + x)) fun x => e (i * nb + x)) * (toM s s fun x y => Q (i * nb + x) (i * nb + y)) =
      (toM s s fun x y => Q (i * nb + x) (i * nb + y)) * diagM s fun x => lam (i * nb + x)

end DLAF
