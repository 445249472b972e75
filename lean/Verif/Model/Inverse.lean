import Verif.Model.Kernels
/-
Model of the local triangular inverse, include/dlaf/inverse/triangular{.h,/impl.h}, and of the inverse from the Cholesky
factor, include/dlaf/inverse/cholesky{.h,/impl.h}.  CPU path: `replace_trtri` and `replace_lauum` are false.
-/
namespace DLAF
variable {K : Type*} [Field K] [StarRing K]

/-- Body of the loop over `k` of `Triangular::call_L` (local), inverse/triangular/impl.h:199-227; kernels 44-105. -/
def trinvStepL (lp : Lapack K) (d : Diag) (nt : Nat) (m : Tiles K) (k : Nat) : Option (Tiles K) := do
  let m ← forM' (upto (k + 1) nt) m fun m i => do
    let m ← m.write (i, k) (lp.tileTrsm .Right .Lower .NoTrans d (-1) (m (k, k)) (m (i, k)))
    forM' (upto 0 k) m fun m j => m.write (i, j) (gemm .NoTrans .NoTrans 1 (m (i, k)) (m (k, j)) 1 (m (i, j)))
  let m ← forM' (upto 0 k) m fun m j =>
    m.write (k, j) (lp.tileTrsm .Left .Lower .NoTrans d 1 (m (k, k)) (m (k, j)))
  m.write (k, k) (lp.tileTrtri .Lower d (m (k, k)))

/-- `Triangular::call_L` (local), inverse/triangular/impl.h:182-228. -/
def trinvL (lp : Lapack K) (d : Diag) (nt : Nat) (m : Tiles K) : Option (Tiles K) :=
  forM' (downto nt 0) m fun m k => trinvStepL lp d nt m k

/-- Body of the loop over `k` of `Triangular::call_U` (local), inverse/triangular/impl.h:381-410; kernels 107-170. -/
def trinvStepU (lp : Lapack K) (d : Diag) (nt : Nat) (m : Tiles K) (k : Nat) : Option (Tiles K) := do
  let m ← forM' (upto (k + 1) nt) m fun m j => do
    let m ← m.write (k, j) (lp.tileTrsm .Left .Upper .NoTrans d (-1) (m (k, k)) (m (k, j)))
    forM' (upto 0 k) m fun m i => m.write (i, j) (gemm .NoTrans .NoTrans 1 (m (i, k)) (m (k, j)) 1 (m (i, j)))
  let m ← forM' (upto 0 k) m fun m i =>
    m.write (i, k) (lp.tileTrsm .Right .Upper .NoTrans d 1 (m (k, k)) (m (i, k)))
  m.write (k, k) (lp.tileTrtri .Upper d (m (k, k)))

/-- `Triangular::call_U` (local), inverse/triangular/impl.h:365-411. -/
def trinvU (lp : Lapack K) (d : Diag) (nt : Nat) (m : Tiles K) : Option (Tiles K) :=
  forM' (downto nt 0) m fun m k => trinvStepU lp d nt m k

/-- `triangular_inverse` (local), inverse/triangular.h:38-47. -/
def triangular_inverse (lp : Lapack K) (u : Uplo) (d : Diag) (nt : Nat) (m : Tiles K) : Option (Tiles K) :=
  match u with
  | .Lower => trinvL lp d nt m
  | .Upper => trinvU lp d nt m

/-- Body of the loop over `k` of `AssembleCholeskyInverse::call_L` (local), inverse/cholesky/impl.h:195-221; kernels
44-107. -/
def assembleStepL (lp : Lapack K) (m : Tiles K) (k : Nat) : Option (Tiles K) := do
  let m ← forM' (upto 0 k) m fun m i => do
    let m ← forM' (upto 0 i) m fun m j =>
      m.write (i, j) (gemm .ConjTrans .NoTrans 1 (m (k, i)) (m (k, j)) 1 (m (i, j)))
    m.write (i, i) (herk .Lower .ConjTrans 1 (m (k, i)) 1 (m (i, i)))
  let m ← forM' (upto 0 k) m fun m j => m.write (k, j) (trmm .Left .Lower .ConjTrans .NonUnit 1 (m (k, k)) (m (k, j)))
  m.write (k, k) (lp.tileLauum .Lower (m (k, k)))

/-- `AssembleCholeskyInverse::call_L` (local), inverse/cholesky/impl.h:179-222. -/
def assembleL (lp : Lapack K) (nt : Nat) (m : Tiles K) : Option (Tiles K) :=
  forM' (upto 0 nt) m fun m k => assembleStepL lp m k

/-- Body of the loop over `k` of `AssembleCholeskyInverse::call_U` (local), inverse/cholesky/impl.h:376-403; kernels
109-171. -/
def assembleStepU (lp : Lapack K) (m : Tiles K) (k : Nat) : Option (Tiles K) := do
  let m ← forM' (upto 0 k) m fun m j => do
    let m ← forM' (upto 0 j) m fun m i =>
      m.write (i, j) (gemm .NoTrans .ConjTrans 1 (m (i, k)) (m (j, k)) 1 (m (i, j)))
    m.write (j, j) (herk .Upper .NoTrans 1 (m (j, k)) 1 (m (j, j)))
  let m ← forM' (upto 0 k) m fun m i => m.write (i, k) (trmm .Right .Upper .ConjTrans .NonUnit 1 (m (k, k)) (m (i, k)))
  m.write (k, k) (lp.tileLauum .Upper (m (k, k)))

/-- `AssembleCholeskyInverse::call_U` (local), inverse/cholesky/impl.h:360-404. -/
def assembleU (lp : Lapack K) (nt : Nat) (m : Tiles K) : Option (Tiles K) :=
  forM' (upto 0 nt) m fun m k => assembleStepU lp m k

/-- `inverse_from_cholesky_factor` (local), inverse/cholesky.h:37-51. -/
def inverse_from_cholesky_factor (lp : Lapack K) (u : Uplo) (nt : Nat) (m : Tiles K) : Option (Tiles K) :=
  match u with
  | .Lower => (trinvL lp .NonUnit nt m).bind fun m => assembleL lp nt m
  | .Upper => (trinvU lp .NonUnit nt m).bind fun m => assembleU lp nt m

end DLAF
