import Verif.Model.Eigensolver
import Verif.Model.Cholesky
import Verif.Model.GenToStd
import Verif.Model.Triangular
/-
Model of the generalized Hermitian eigensolver on local memory, include/dlaf/eigensolver/gen_eigensolver.h:29-66 and
gen_eigensolver/impl.h:29-53.
-/
namespace DLAF
open scoped Classical
noncomputable section
variable {K : Type*} [RCLike K]

/-- The tiles of a local `n × m` matrix with tiles of size `nb`. -/
def cutTiles (nb n m : Nat) (A : Elems K) : Tiles K := fun z =>
  getB A (z.1 * nb) (z.2 * nb) (min nb (n - z.1 * nb)) (min nb (m - z.2 * nb))

/-- The elements of the matrix whose `n × m` part is in the tiles `t`. -/
def glueTiles (nb n m : Nat) (A : Elems K) (t : Tiles K) : Elems K := fun x y =>
  if x < n ∧ y < m then (t (x / nb, y / nb)).e (x % nb) (y % nb) else A x y

/-- The assertions of `hermitian_generalized_eigensolver`, gen_eigensolver.h:36-61: those of `hermitian_eigensolver` and those on
`mat_b`. -/
def genPre (a b evals evecs : MShape) (ibegin iend : Int) : Prop :=
  eigPre a evals evecs ibegin iend ∧ b.isLocal = true ∧ b.squareSize ∧ b.singleTile ∧ b.squareBlock ∧
  (a.rows = b.rows ∧ a.cols = b.cols) ∧ (a.brows = b.brows ∧ a.bcols = b.bcols)

/-- `GenEigensolver::call`, gen_eigensolver/impl.h:29-53: `o` is a possible outcome (`none`: an assertion fails, or the Cholesky
factorization does).  `bm` are the elements of `mat_b`. -/
def genEig (E : EigEnv K) (lp : Lapack K) (uplo : Uplo) (factorize : Bool) (a b evals evecs : MShape) (ibegin iend : Int)
    (s : EigSt K) (bm : Elems K) (o : Option (EigSt K × Elems K)) : Prop :=
  let n := a.rows
  let nb := a.brows
  let nt := ceilDivN n nb
  if ¬ genPre a b evals evecs ibegin iend then o = none else
  match (if factorize then (cholesky_factorization lp uplo nt (cutTiles nb n n bm)).map (glueTiles nb n n bm) else some bm) with
  | none => o = none
  | some b' =>
    match (generalized_to_standard lp uplo nt (cutTiles nb n n b') (cutTiles nb n n s.a)).map (glueTiles nb n n s.a) with
    | none => o = none
    | some a' => ∃ o1, hermEig E uplo a evals evecs ibegin iend { s with a := a' } o1 ∧
      match o1 with
      | none => o = none
      | some s1 => o = (Solver.triangular_solver lp .Left uplo .ConjTrans .NonUnit 1 (-1) nt (ceilDivN iend.toNat nb)
          (cutTiles nb n n b') (cutTiles nb n iend.toNat s1.evecs)).map fun t =>
            ({ s1 with evecs := glueTiles nb n iend.toNat s1.evecs t }, b')

end
end DLAF
