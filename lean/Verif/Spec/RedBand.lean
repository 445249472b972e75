import Verif.Spec.Householder
import Mathlib.Analysis.RCLike.Basic
/- Hermitian matrices given by their lower triangle, and their band. -/
namespace DLAF
open scoped Classical
variable {K : Type*} [RCLike K]

/-- The Hermitian matrix given by the lower triangle of `A`. -/
noncomputable def lowE (A : Nat → Nat → K) : Nat → Nat → K := fun x z => if z ≤ x then A x z else star (A z x)

/-- The Hermitian matrix of order `n` given by the lower triangle of `A`. -/
noncomputable def hermM (n : Nat) (A : Nat → Nat → K) : Matrix (Fin n) (Fin n) K := fun x y => lowE A x y

/-- The elements of `A` with zeros below the `band`-th subdiagonal, in the first `m` columns. -/
noncomputable def bandLow (band m : Nat) (A : Nat → Nat → K) : Nat → Nat → K := fun x y =>
  if y < m ∧ y + band < x then 0 else A x y

/-- What a sign bit has to satisfy; for a zero real part it may be either (signed zeros). -/
def GoodSign (sb : K → Bool) : Prop := ∀ x, (0 < RCLike.re x → sb x = false) ∧ (RCLike.re x < 0 → sb x = true)

end DLAF
