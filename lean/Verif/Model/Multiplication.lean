import Verif.Model.Kernels
/-
Model of the local Hermitian and general matrix multiplications: include/dlaf/multiplication/hermitian{.h,/impl.h} and
include/dlaf/multiplication/general{.h,/impl.h}.  `a` and `b` are only read; the state is `mat_c`.
-/
namespace DLAF
variable {K : Type*} [Field K] [StarRing K]

/-- `common::iterate_range2d(sz)`, common/range2d.h:76-192: column-major. -/
def tiles2d (m n : Nat) : List (Nat × Nat) := (upto 0 n).flatMap fun j => (upto 0 m).map fun i => (i, j)

/-- `tile::scal`, blas/tile_extensions.h:101-106: a gemm with an inner dimension of 0. -/
def blkScal (beta : K) (c : Blk K) : Blk K := ⟨c.rows, c.cols, fun r q => beta * c.e r q⟩

/-- One update of tile `w` with factor `beta_ij`, which is 1 afterwards. -/
def accumulate (w : Nat × Nat) (t : K → Blk K → Option (Blk K)) (s : Tiles K × K) : Option (Tiles K × K) :=
  (s.1.write w (t s.2 (s.1 w))).map fun c => (c, 1)

/-- Body of the loop over the tiles `ij` of `C` in `Hermitian::call_LL` (local), multiplication/hermitian/impl.h:75-94;
kernels 39-66. -/
def hermTileLL (alpha : K) (k : Nat) (a b : Tiles K) (beta : K) (c : Tiles K) (ij : Nat × Nat) : Option (Tiles K) := do
  let s ← forM' (upto 0 ij.1) (c, beta) fun s l =>
    accumulate ij (fun bt x => gemm .NoTrans .NoTrans alpha (a (ij.1, l)) (b (l, ij.2)) bt x) s
  let s ← accumulate ij (fun bt x => hemm .Left .Lower alpha (a (ij.1, ij.1)) (b ij) bt x) s
  let s ← forM' (upto (ij.1 + 1) k) s fun s l =>
    accumulate ij (fun bt x => gemm .ConjTrans .NoTrans alpha (a (l, ij.1)) (b (l, ij.2)) bt x) s
  pure s.1

/-- `Hermitian::call_LL` (local), multiplication/hermitian/impl.h:69-96. `m × n` tiles in `C`, `k` tile columns in `A`. -/
def hermLL (alpha : K) (m n k : Nat) (a b : Tiles K) (beta : K) (c : Tiles K) : Option (Tiles K) :=
  forM' (tiles2d m n) c fun c ij => hermTileLL alpha k a b beta c ij

/-- `hermitian_multiplication` (local), multiplication/hermitian.h:94-124: only `Left`, `Lower` is implemented. -/
def hermitian_multiplication (s : Side) (u : Uplo) (alpha : K) (m n k : Nat) (a b : Tiles K) (beta : K) (c : Tiles K) :
    Option (Tiles K) :=
  match s, u with
  | .Left, .Lower => hermLL alpha m n k a b beta c
  | _, _ => none

section
variable [DecidableEq K]

/-- `General::callNN` (local), multiplication/general/impl.h:34-62. -/
def genNN (alpha : K) (m n k : Nat) (a b : Tiles K) (beta : K) (c : Tiles K) : Option (Tiles K) :=
  if k = 0 then
    if beta ≠ 1 then
      forM' (upto 0 n) c fun c j => forM' (upto 0 m) c fun c i => c.write (i, j) (some (blkScal beta (c (i, j))))
    else some c
  else
    forM' (upto 0 n) c fun c j => forM' (upto 0 m) c fun c i => forM' (upto 0 k) c fun c l =>
      c.write (i, j) (gemm .NoTrans .NoTrans alpha (a (i, l)) (b (l, j)) (if l = 0 then beta else 1) (c (i, j)))

/-- `generalMatrix` (local), multiplication/general.h:52-66: only `NoTrans`, `NoTrans` is implemented. -/
def generalMatrix (oa ob : BlasOp) (alpha : K) (m n k : Nat) (a b : Tiles K) (beta : K) (c : Tiles K) :
    Option (Tiles K) :=
  match oa, ob with
  | .NoTrans, .NoTrans => genNN alpha m n k a b beta c
  | _, _ => none

end
end DLAF
