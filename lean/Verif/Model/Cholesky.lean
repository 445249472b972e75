import Verif.Model.Kernels
/- Model of the local Cholesky factorization, include/dlaf/factorization/cholesky/impl.h. -/
namespace DLAF
variable {K : Type*} [Field K] [StarRing K]

/-- `cholesky_l` tasks, impl.h:45-95. -/
def potrfL (k : Lapack K) (a : Blk K) : Option (Blk K) := k.tilePotrf .Lower a
def trsmL (k : Lapack K) (kk a : Blk K) : Option (Blk K) := k.tileTrsm .Right .Lower .ConjTrans .NonUnit 1 kk a
def herkL (p a : Blk K) : Option (Blk K) := herk .Lower .NoTrans (-1) p 1 a
def gemmL (p q a : Blk K) : Option (Blk K) := gemm .NoTrans .ConjTrans (-1) p q 1 a

/-- `cholesky_u` tasks, impl.h:97-147. -/
def potrfU (k : Lapack K) (a : Blk K) : Option (Blk K) := k.tilePotrf .Upper a
def trsmU (k : Lapack K) (kk a : Blk K) : Option (Blk K) := k.tileTrsm .Left .Upper .ConjTrans .NonUnit 1 kk a
def herkU (p a : Blk K) : Option (Blk K) := herk .Upper .ConjTrans (-1) p 1 a
def gemmU (p q a : Blk K) : Option (Blk K) := gemm .ConjTrans .NoTrans (-1) p q 1 a

/-- One iteration of `call_L` (local), impl.h:158-188. -/
def cholStepL (lp : Lapack K) (nt : Nat) (m : Tiles K) (k : Nat) : Option (Tiles K) := do
  let m ← m.write (k, k) (potrfL lp (m (k, k)))
  let m ← forM' (upto (k + 1) nt) m fun m i => m.write (i, k) (trsmL lp (m (k, k)) (m (i, k)))
  forM' (upto (k + 1) nt) m fun m j => do
    let m ← m.write (j, j) (herkL (m (j, k)) (m (j, j)))
    forM' (upto (j + 1) nt) m fun m i => m.write (i, j) (gemmL (m (i, k)) (m (j, k)) (m (i, j)))

/-- `call_L` (local), impl.h:149-189. -/
def cholL (lp : Lapack K) (nt : Nat) (m : Tiles K) : Option (Tiles K) :=
  forM' (upto 0 nt) m (cholStepL lp nt)

/-- One iteration of `call_U` (local), impl.h:324-347. -/
def cholStepU (lp : Lapack K) (nt : Nat) (m : Tiles K) (k : Nat) : Option (Tiles K) := do
  let m ← m.write (k, k) (potrfU lp (m (k, k)))
  let m ← forM' (upto (k + 1) nt) m fun m j => m.write (k, j) (trsmU lp (m (k, k)) (m (k, j)))
  forM' (upto (k + 1) nt) m fun m i => do
    let m ← m.write (i, i) (herkU (m (k, i)) (m (i, i)))
    forM' (upto (i + 1) nt) m fun m j => m.write (i, j) (gemmU (m (k, i)) (m (k, j)) (m (i, j)))

/-- `call_U` (local), impl.h:315-348. -/
def cholU (lp : Lapack K) (nt : Nat) (m : Tiles K) : Option (Tiles K) :=
  forM' (upto 0 nt) m (cholStepU lp nt)

/-- `cholesky_factorization(uplo, mat_a)`, cholesky.h:41-52.  The size assertions are those of the theorem's
hypotheses (square matrix, square tiles). -/
def cholesky_factorization (lp : Lapack K) (u : Uplo) (nt : Nat) (m : Tiles K) : Option (Tiles K) :=
  match u with
  | .Lower => cholL lp nt m
  | .Upper => cholU lp nt m

end DLAF
