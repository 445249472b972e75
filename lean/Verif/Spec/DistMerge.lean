import Verif.Model.DistMerge
import Verif.Spec.DistMatrix
import Verif.Spec.Rank1
import Verif.Props.IndexVectors
import Verif.Lemmas.LapackExists
/- The steps 2 to 4 of the distributed merge: what is asked of the input. -/
namespace DLAF
namespace DistMerge

/-- The input of the steps 2 to 4: `n = n1 + n2` columns from element `ib * nb`, sorted by `perm`; the eigenvalues of the non-deflated columns are distinct and ascending, their entries of `z`
are not zero. -/
structure MergeIn (P : Params2) (M : MgPar) (nb ib n1 n2 : Nat) : Prop where
  square : SquareDist P
  tile : P.row.tile = nb
  fits : ((ib * nb + (n1 + n2) : Nat) : Int) ≤ P.row.size
  types_len : M.types.length = n1 + n2
  d_len : M.d.length = n1 + n2
  z_len : M.z.length = n1 + n2
  out1_len : M.out1.length = n1 + n2
  out2_len : M.out2.length = n1 + n2
  perm : C34.IsPerm (n1 + n2) M.perm
  rho : 0 < M.rho
  asc : (M.perm.filter fun i => M.types[i]? ≠ some .Deflated).Pairwise fun i j => M.d.getD i 0 < M.d.getD j 0
  z_ne : ∀ i < n1 + n2, M.types[i]? ≠ some .Deflated → M.z.getD i 0 ≠ 0

/-- The rank-one vector with zeros in the deflated entries. -/
noncomputable def zKept (M : MgPar) (i : Nat) : ℝ := if M.types[i]? = some .Deflated then 0 else M.z.getD i 0

/-- The window of a matrix. -/
def win (A : Nat → Nat → ℝ) (off : Nat) : Nat → Nat → ℝ := fun i j => A (off + i) (off + j)

/-- Columns of the upper half are zero below row `n1`, those of the lower half above it; `A` is the matrix before the merge. -/
structure HalfBlocks (M : MgPar) (off n1 n2 : Nat) (A : Nat → Nat → ℝ) : Prop where
  upper : ∀ i < n1 + n2, n1 ≤ i → ∀ j, M.types[j]? = some .UpperHalf → A (off + i) (off + j) = 0
  lower : ∀ i < n1, ∀ j, M.types[j]? = some .LowerHalf → A (off + i) (off + j) = 0

/-- A matrix with `V` in the window. -/
def withWin (off n : Nat) (V A : Nat → Nat → ℝ) : Nat → Nat → ℝ := fun x y =>
  if (off ≤ x ∧ x < off + n) ∧ (off ≤ y ∧ y < off + n) then V (x - off) (y - off) else A x y

end DistMerge
end DLAF
