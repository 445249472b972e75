import Verif.Model.Kernels
/-
Model of the local triangular solver, include/dlaf/solver/triangular/impl.h, and of the local triangular
multiplication, include/dlaf/multiplication/triangular/impl.h.
`a` is the matrix `mat_a`, which is only read; the state is `mat_b`, with `m × n` tiles.
-/
namespace DLAF
variable {K : Type*} [Field K] [StarRing K]

namespace Solver
/- `beta` is `static_cast<T>(-1.0) / alpha`.  For `alpha = 0` this is not a number of the field: it is then an
arbitrary parameter. -/

/-- `call_LLN`, impl.h:237-264; kernels 41-63. -/
def call_LLN (lp : Lapack K) (d : Diag) (alpha beta : K) (m n : Nat) (a b : Tiles K) : Option (Tiles K) :=
  forM' (upto 0 m) b fun b k => forM' (upto 0 n) b fun b j => do
    let b ← b.write (k, j) (lp.tileTrsm .Left .Lower .NoTrans d alpha (a (k, k)) (b (k, j)))
    forM' (upto (k + 1) m) b fun b i => b.write (i, j) (gemm .NoTrans .NoTrans beta (a (i, k)) (b (k, j)) 1 (b (i, j)))

/-- `call_LLT`, impl.h:267-295; kernels 66-88. -/
def call_LLT (lp : Lapack K) (o : BlasOp) (d : Diag) (alpha beta : K) (m n : Nat) (a b : Tiles K) : Option (Tiles K) :=
  forM' (downto m 0) b fun b k => forM' (downto n 0) b fun b j => do
    let b ← b.write (k, j) (lp.tileTrsm .Left .Lower o d alpha (a (k, k)) (b (k, j)))
    forM' (downto k 0) b fun b i => b.write (i, j) (gemm o .NoTrans beta (a (k, i)) (b (k, j)) 1 (b (i, j)))

/-- `call_LUN`, impl.h:298-323; kernels 90-113. -/
def call_LUN (lp : Lapack K) (d : Diag) (alpha beta : K) (m n : Nat) (a b : Tiles K) : Option (Tiles K) :=
  forM' (downto m 0) b fun b k => forM' (downto n 0) b fun b j => do
    let b ← b.write (k, j) (lp.tileTrsm .Left .Upper .NoTrans d alpha (a (k, k)) (b (k, j)))
    forM' (downto k 0) b fun b i => b.write (i, j) (gemm .NoTrans .NoTrans beta (a (i, k)) (b (k, j)) 1 (b (i, j)))

/-- `call_LUT`, impl.h:326-354; kernels 115-137. -/
def call_LUT (lp : Lapack K) (o : BlasOp) (d : Diag) (alpha beta : K) (m n : Nat) (a b : Tiles K) : Option (Tiles K) :=
  forM' (upto 0 m) b fun b k => forM' (upto 0 n) b fun b j => do
    let b ← b.write (k, j) (lp.tileTrsm .Left .Upper o d alpha (a (k, k)) (b (k, j)))
    forM' (upto (k + 1) m) b fun b i => b.write (i, j) (gemm o .NoTrans beta (a (k, i)) (b (k, j)) 1 (b (i, j)))

/-- `call_RLN`, impl.h:357-384; kernels 139-162. -/
def call_RLN (lp : Lapack K) (d : Diag) (alpha beta : K) (m n : Nat) (a b : Tiles K) : Option (Tiles K) :=
  forM' (downto n 0) b fun b k => forM' (downto m 0) b fun b i => do
    let b ← b.write (i, k) (lp.tileTrsm .Right .Lower .NoTrans d alpha (a (k, k)) (b (i, k)))
    forM' (downto k 0) b fun b j => b.write (i, j) (gemm .NoTrans .NoTrans beta (b (i, k)) (a (k, j)) 1 (b (i, j)))

/-- `call_RLT`, impl.h:387-416; kernels 164-186. -/
def call_RLT (lp : Lapack K) (o : BlasOp) (d : Diag) (alpha beta : K) (m n : Nat) (a b : Tiles K) : Option (Tiles K) :=
  forM' (upto 0 n) b fun b k => forM' (upto 0 m) b fun b i => do
    let b ← b.write (i, k) (lp.tileTrsm .Right .Lower o d alpha (a (k, k)) (b (i, k)))
    forM' (upto (k + 1) n) b fun b j => b.write (i, j) (gemm .NoTrans o beta (b (i, k)) (a (j, k)) 1 (b (i, j)))

/-- `call_RUN`, impl.h:419-446; kernels 188-211. -/
def call_RUN (lp : Lapack K) (d : Diag) (alpha beta : K) (m n : Nat) (a b : Tiles K) : Option (Tiles K) :=
  forM' (upto 0 n) b fun b k => forM' (upto 0 m) b fun b i => do
    let b ← b.write (i, k) (lp.tileTrsm .Right .Upper .NoTrans d alpha (a (k, k)) (b (i, k)))
    forM' (upto (k + 1) n) b fun b j => b.write (i, j) (gemm .NoTrans .NoTrans beta (b (i, k)) (a (k, j)) 1 (b (i, j)))

/-- `call_RUT`, impl.h:449-478; kernels 213-235. -/
def call_RUT (lp : Lapack K) (o : BlasOp) (d : Diag) (alpha beta : K) (m n : Nat) (a b : Tiles K) : Option (Tiles K) :=
  forM' (downto n 0) b fun b k => forM' (downto m 0) b fun b i => do
    let b ← b.write (i, k) (lp.tileTrsm .Right .Upper o d alpha (a (k, k)) (b (i, k)))
    forM' (downto k 0) b fun b j => b.write (i, j) (gemm .NoTrans o beta (b (i, k)) (a (j, k)) 1 (b (i, j)))

/-- `triangular_solver(side, uplo, op, diag, alpha, mat_a, mat_b)`, solver/triangular.h:30-82.  The assertions on
the sizes are hypotheses of the theorems. -/
def triangular_solver (lp : Lapack K) (s : Side) (u : Uplo) (o : BlasOp) (d : Diag) (alpha beta : K) (m n : Nat)
    (a b : Tiles K) : Option (Tiles K) :=
  match s, u, o with
  | .Left, .Lower, .NoTrans => call_LLN lp d alpha beta m n a b
  | .Left, .Lower, o => call_LLT lp o d alpha beta m n a b
  | .Left, .Upper, .NoTrans => call_LUN lp d alpha beta m n a b
  | .Left, .Upper, o => call_LUT lp o d alpha beta m n a b
  | .Right, .Lower, .NoTrans => call_RLN lp d alpha beta m n a b
  | .Right, .Lower, o => call_RLT lp o d alpha beta m n a b
  | .Right, .Upper, .NoTrans => call_RUN lp d alpha beta m n a b
  | .Right, .Upper, o => call_RUT lp o d alpha beta m n a b
end Solver

namespace Mult

/-- `call_LLN`, impl.h:202-224; kernels 38-57. -/
def call_LLN (d : Diag) (alpha : K) (m n : Nat) (a b : Tiles K) : Option (Tiles K) :=
  forM' (downto m 0) b fun b k => forM' (upto 0 n) b fun b j => do
    let b ← forM' (upto (k + 1) m) b fun b i =>
      b.write (i, j) (gemm .NoTrans .NoTrans alpha (a (i, k)) (b (k, j)) 1 (b (i, j)))
    b.write (k, j) (trmm .Left .Lower .NoTrans d alpha (a (k, k)) (b (k, j)))

/-- `call_LLT`, impl.h:226-249; kernels 59-78. -/
def call_LLT (o : BlasOp) (d : Diag) (alpha : K) (m n : Nat) (a b : Tiles K) : Option (Tiles K) :=
  forM' (upto 0 m) b fun b k => forM' (upto 0 n) b fun b j => do
    let b ← forM' (downto k 0) b fun b i =>
      b.write (i, j) (gemm o .NoTrans alpha (a (k, i)) (b (k, j)) 1 (b (i, j)))
    b.write (k, j) (trmm .Left .Lower o d alpha (a (k, k)) (b (k, j)))

/-- `call_LUN`, impl.h:251-273; kernels 80-99. -/
def call_LUN (d : Diag) (alpha : K) (m n : Nat) (a b : Tiles K) : Option (Tiles K) :=
  forM' (upto 0 m) b fun b k => forM' (upto 0 n) b fun b j => do
    let b ← forM' (upto 0 k) b fun b i =>
      b.write (i, j) (gemm .NoTrans .NoTrans alpha (a (i, k)) (b (k, j)) 1 (b (i, j)))
    b.write (k, j) (trmm .Left .Upper .NoTrans d alpha (a (k, k)) (b (k, j)))

/-- `call_LUT`, impl.h:275-298; kernels 101-120. -/
def call_LUT (o : BlasOp) (d : Diag) (alpha : K) (m n : Nat) (a b : Tiles K) : Option (Tiles K) :=
  forM' (downto m 0) b fun b k => forM' (downto n 0) b fun b j => do
    let b ← forM' (upto (k + 1) m) b fun b i =>
      b.write (i, j) (gemm o .NoTrans alpha (a (k, i)) (b (k, j)) 1 (b (i, j)))
    b.write (k, j) (trmm .Left .Upper o d alpha (a (k, k)) (b (k, j)))

/-- `call_RLN`, impl.h:300-323; kernels 122-141. -/
def call_RLN (d : Diag) (alpha : K) (m n : Nat) (a b : Tiles K) : Option (Tiles K) :=
  forM' (upto 0 n) b fun b k => forM' (upto 0 m) b fun b i => do
    let b ← forM' (downto k 0) b fun b j =>
      b.write (i, j) (gemm .NoTrans .NoTrans alpha (b (i, k)) (a (k, j)) 1 (b (i, j)))
    b.write (i, k) (trmm .Right .Lower .NoTrans d alpha (a (k, k)) (b (i, k)))

/-- `call_RLT`, impl.h:325-348; kernels 143-162. -/
def call_RLT (o : BlasOp) (d : Diag) (alpha : K) (m n : Nat) (a b : Tiles K) : Option (Tiles K) :=
  forM' (downto n 0) b fun b k => forM' (downto m 0) b fun b i => do
    let b ← forM' (upto (k + 1) n) b fun b j =>
      b.write (i, j) (gemm .NoTrans o alpha (b (i, k)) (a (j, k)) 1 (b (i, j)))
    b.write (i, k) (trmm .Right .Lower o d alpha (a (k, k)) (b (i, k)))

/-- `call_RUN`, impl.h:350-373; kernels 164-183. -/
def call_RUN (d : Diag) (alpha : K) (m n : Nat) (a b : Tiles K) : Option (Tiles K) :=
  forM' (downto n 0) b fun b k => forM' (downto m 0) b fun b i => do
    let b ← forM' (upto (k + 1) n) b fun b j =>
      b.write (i, j) (gemm .NoTrans .NoTrans alpha (b (i, k)) (a (k, j)) 1 (b (i, j)))
    b.write (i, k) (trmm .Right .Upper .NoTrans d alpha (a (k, k)) (b (i, k)))

/-- `call_RUT`, impl.h:375-398; kernels 185-204. -/
def call_RUT (o : BlasOp) (d : Diag) (alpha : K) (m n : Nat) (a b : Tiles K) : Option (Tiles K) :=
  forM' (upto 0 n) b fun b k => forM' (upto 0 m) b fun b i => do
    let b ← forM' (downto k 0) b fun b j =>
      b.write (i, j) (gemm .NoTrans o alpha (b (i, k)) (a (j, k)) 1 (b (i, j)))
    b.write (i, k) (trmm .Right .Upper o d alpha (a (k, k)) (b (i, k)))

/-- `triangular_multiplication(side, uplo, op, diag, alpha, mat_a, mat_b)`, multiplication/triangular.h:48-101. -/
def triangular_multiplication (s : Side) (u : Uplo) (o : BlasOp) (d : Diag) (alpha : K) (m n : Nat)
    (a b : Tiles K) : Option (Tiles K) :=
  match s, u, o with
  | .Left, .Lower, .NoTrans => call_LLN d alpha m n a b
  | .Left, .Lower, o => call_LLT o d alpha m n a b
  | .Left, .Upper, .NoTrans => call_LUN d alpha m n a b
  | .Left, .Upper, o => call_LUT o d alpha m n a b
  | .Right, .Lower, .NoTrans => call_RLN d alpha m n a b
  | .Right, .Lower, o => call_RLT o d alpha m n a b
  | .Right, .Upper, .NoTrans => call_RUN d alpha m n a b
  | .Right, .Upper, o => call_RUT o d alpha m n a b
end Mult
end DLAF
