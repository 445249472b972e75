import Mathlib.Data.Matrix.Mul
import Mathlib.Data.Real.Basic
import Mathlib.Data.Real.Star
import Mathlib.Tactic.TypeStar
/- Rank-one updates of diagonal matrices: the matrix, and LAPACK's `laed4`. -/
namespace DLAF

/-- `diag(d) + rho z zᵀ` of order `k`. -/
def rank1M (k : Nat) (d z : Nat → ℝ) (rho : ℝ) : Matrix (Fin k) (Fin k) ℝ :=
  Matrix.of fun i j => (if i = j then d i else 0) + rho * z i * z j

/-- The secular function, whose roots are the eigenvalues of `diag(d) + rho z zᵀ` (distinct `d`, nonzero `z`). -/
noncomputable def secular (k : Nat) (d z : Nat → ℝ) (rho lam : ℝ) : ℝ := 1 + rho * ∑ j ∈ Finset.range k, z j ^ 2 / (d j - lam)

/-- `laed4(k, i, d, z, delta, rho, lam)`: result `lam`, `delta`. -/
abbrev Laed4 := (k i : Nat) → (d z : Nat → ℝ) → (rho : ℝ) → ℝ × (Nat → ℝ)

/-- The input that `laed4` asks for: `d` strictly ascending, `rho > 0`, `z` without zeros. -/
def SecularInput (k : Nat) (d z : Nat → ℝ) (rho : ℝ) : Prop :=
  0 < rho ∧ (∀ i j, i < j → j < k → d i < d j) ∧ ∀ j < k, z j ≠ 0

/-- LAPACK's documentation of `laed4` (and `laed5`), in exact arithmetic: eigenvalue `i` of `diag(d) + rho z zᵀ`, in the interval
between `d i` and `d (i + 1)`; `delta j = d j - lam` if `k > 2`, the normalized eigenvector if `k = 2`, one if `k = 1`. -/
structure Laed4Spec (laed4 : Laed4) : Prop where
  one : ∀ d z rho, (laed4 1 0 d z rho).1 = d 0 + rho * z 0 ^ 2 ∧ (laed4 1 0 d z rho).2 0 = 1
  root : ∀ k i d z rho, 2 ≤ k → i < k → SecularInput k d z rho → d i < (laed4 k i d z rho).1 ∧
    (i + 1 < k → (laed4 k i d z rho).1 < d (i + 1)) ∧ secular k d z rho (laed4 k i d z rho).1 = 0
  two : ∀ i d z rho, i < 2 → SecularInput 2 d z rho →
    (laed4 2 i d z rho).2 0 ^ 2 + (laed4 2 i d z rho).2 1 ^ 2 = 1 ∧
    ∀ j < 2, d j * (laed4 2 i d z rho).2 j +
      rho * z j * (z 0 * (laed4 2 i d z rho).2 0 + z 1 * (laed4 2 i d z rho).2 1) =
      (laed4 2 i d z rho).1 * (laed4 2 i d z rho).2 j
  delta : ∀ k i d z rho, 3 ≤ k → i < k → SecularInput k d z rho → ∀ j < k,
    (laed4 k i d z rho).2 j = d j - (laed4 k i d z rho).1

end DLAF
