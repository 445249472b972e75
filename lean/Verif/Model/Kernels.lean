import Mathlib.Algebra.BigOperators.Group.Finset.Basic
import Mathlib.Algebra.Field.Basic
import Mathlib.Algebra.Star.Basic
import Mathlib.Tactic.Ring
import Mathlib.Algebra.BigOperators.Ring.Finset
/-
Model of the tile kernels: include/dlaf/blas/tile.h, include/dlaf/lapack/tile.h and the size checks of
include/dlaf/util_blas.h.

Arithmetic is exact: elements are in a field `K` with an involution `star` (complex conjugation; the identity
for real types).  Rounding is not modelled.  A tile is its size and its elements; addresses and leading
dimensions are the subject of C11/C12 and do not appear here.
`none` is an assertion failure.
-/
namespace DLAF

/-- Elements of a tile, `dlaf::matrix::Tile` (matrix/tile.h:217-330): size and element access. -/
structure Blk (K : Type*) where
  rows : Nat
  cols : Nat
  e : Nat → Nat → K

/-- blaspp enumerations. -/
inductive Uplo | Lower | Upper
deriving DecidableEq
inductive Side | Left | Right
deriving DecidableEq
inductive BlasOp | NoTrans | Trans | ConjTrans
deriving DecidableEq
inductive Diag | NonUnit | Unit
deriving DecidableEq

section
variable {K : Type*} [Field K] [StarRing K]

/-- `op(a)` of BLAS. -/
def Blk.op (o : BlasOp) (a : Blk K) : Blk K :=
  match o with
  | .NoTrans => a
  | .Trans => ⟨a.cols, a.rows, fun r c => a.e c r⟩
  | .ConjTrans => ⟨a.cols, a.rows, fun r c => star (a.e c r)⟩

/-- The triangular matrix BLAS sees in a tile: only the `uplo` triangle is referenced, and not the diagonal if
`diag` is `Unit`. -/
def Blk.tri (u : Uplo) (d : Diag) (a : Blk K) : Blk K :=
  ⟨a.rows, a.cols, fun r c =>
    if r = c then (if d = .Unit then 1 else a.e r c)
    else if (match u with | .Lower => decide (c < r) | .Upper => decide (r < c)) then a.e r c else 0⟩

/-- The Hermitian matrix BLAS sees in a tile. -/
def Blk.herm (u : Uplo) (a : Blk K) : Blk K :=
  ⟨a.rows, a.cols, fun r c =>
    if (match u with | .Lower => decide (c ≤ r) | .Upper => decide (r ≤ c)) then a.e r c else star (a.e c r)⟩

/-- Matrix product of tiles. -/
def Blk.mul (a b : Blk K) : Blk K := ⟨a.rows, b.cols, fun r c => ∑ l ∈ Finset.range a.cols, a.e r l * b.e l c⟩

/-- `tile::gemm`, blas/tile.h:176-182 with the checks of `getGemmSizes`, util_blas.h:37-72. -/
def gemm (oa ob : BlasOp) (alpha : K) (a b : Blk K) (beta : K) (c : Blk K) : Option (Blk K) :=
  if (a.op oa).rows = c.rows ∧ (b.op ob).cols = c.cols ∧ (a.op oa).cols = (b.op ob).rows then
    some ⟨c.rows, c.cols, fun r q => alpha * ((a.op oa).mul (b.op ob)).e r q + beta * c.e r q⟩
  else none

/-- `tile::herk`, blas/tile.h:204-211 with `getHerkSizes`, util_blas.h:143-156: only the `uplo` triangle of `c`
is updated.  Simplification: BLAS also replaces the imaginary part of the diagonal by zero; for a Hermitian `c`
this is no change. -/
def herk (u : Uplo) (o : BlasOp) (alpha : K) (a : Blk K) (beta : K) (c : Blk K) : Option (Blk K) :=
  if c.rows = c.cols ∧ c.rows = (a.op o).rows then
    some ⟨c.rows, c.cols, fun r q =>
      if (match u with | .Lower => decide (q ≤ r) | .Upper => decide (r ≤ q)) then
        alpha * ((a.op o).mul ((a.op o).op .ConjTrans)).e r q + beta * c.e r q
      else c.e r q⟩
  else none

/-- `tile::her2k`, blas/tile.h:193-202 with `getHer2kSizes`, util_blas.h:113-131 (same remark as `herk`). -/
def her2k (u : Uplo) (o : BlasOp) (alpha : K) (a b : Blk K) (beta : K) (c : Blk K) : Option (Blk K) :=
  if c.rows = c.cols ∧ a.rows = b.rows ∧ a.cols = b.cols ∧ c.rows = (a.op o).rows then
    some ⟨c.rows, c.cols, fun r q =>
      if (match u with | .Lower => decide (q ≤ r) | .Upper => decide (r ≤ q)) then
        alpha * ((a.op o).mul ((b.op o).op .ConjTrans)).e r q
          + star alpha * ((b.op o).mul ((a.op o).op .ConjTrans)).e r q + beta * c.e r q
      else c.e r q⟩
  else none

/-- `tile::hemm`, blas/tile.h:184-191 with `getHemmSizes`, util_blas.h:83-104. -/
def hemm (s : Side) (u : Uplo) (alpha : K) (a b : Blk K) (beta : K) (c : Blk K) : Option (Blk K) :=
  match s with
  | .Left =>
    if c.rows = a.rows ∧ c.cols = b.cols ∧ a.cols = b.rows then
      some ⟨c.rows, c.cols, fun r q => alpha * ((a.herm u).mul b).e r q + beta * c.e r q⟩
    else none
  | .Right =>
    if c.rows = b.rows ∧ c.cols = a.cols ∧ a.rows = b.cols then
      some ⟨c.rows, c.cols, fun r q => alpha * (b.mul (a.herm u)).e r q + beta * c.e r q⟩
    else none

/-- `getTrmmSizes` / `getTrsmSizes`, util_blas.h:164-175, 196-207. -/
def triSizes (s : Side) (a b : Blk K) : Bool :=
  decide (a.rows = a.cols) && decide (a.rows = match s with | .Left => b.rows | .Right => b.cols)

/-- `tile::trmm`, blas/tile.h:214-222. -/
def trmm (s : Side) (u : Uplo) (o : BlasOp) (d : Diag) (alpha : K) (a b : Blk K) : Option (Blk K) :=
  if triSizes s a b then
    some ⟨b.rows, b.cols, fun r q =>
      alpha * (match s with
        | .Left => (((a.tri u d).op o).mul b).e r q
        | .Right => (b.mul ((a.tri u d).op o)).e r q)⟩
  else none

/-- `tile::trmm3`, blas/tile.h:226-236: the result goes to another tile `c` of the same size. -/
def trmm3 (s : Side) (u : Uplo) (o : BlasOp) (d : Diag) (alpha : K) (a b c : Blk K) : Option (Blk K) :=
  if b.rows = c.rows ∧ b.cols = c.cols then trmm s u o d alpha a b else none

/-- `tile::add`, blas/tile_extensions.h:77-86: `a += alpha b`. -/
def blkAdd (alpha : K) (b a : Blk K) : Option (Blk K) :=
  if b.rows = a.rows ∧ b.cols = a.cols then some ⟨a.rows, a.cols, fun r q => a.e r q + alpha * b.e r q⟩ else none

/-- Kernels that are not given by a formula: any implementation.  Their contracts are `LapackSpec`
(Spec/Kernels.lean).  `none` = the routine reports failure (`info != 0`). -/
structure Lapack (K : Type*) where
  /-- solution of the triangular system; `blas::trsm` -/
  trsm : Side → Uplo → BlasOp → Diag → K → Blk K → Blk K → Nat → Nat → K
  /-- `lapack::potrf` -/
  potrf : Uplo → Blk K → Option (Nat → Nat → K)
  /-- `lapack::trtri` -/
  trtri : Uplo → Diag → Blk K → Option (Nat → Nat → K)
  /-- `lapack::lauum` -/
  lauum : Uplo → Blk K → Option (Nat → Nat → K)
  /-- `lapack::hegst` with `itype = 1` -/
  hegst : Uplo → Blk K → Blk K → Option (Nat → Nat → K)

/-- `tile::trsm`, blas/tile.h:239-246. -/
def Lapack.tileTrsm (k : Lapack K) (s : Side) (u : Uplo) (o : BlasOp) (d : Diag) (alpha : K) (a b : Blk K) :
    Option (Blk K) :=
  if triSizes s a b then some ⟨b.rows, b.cols, k.trsm s u o d alpha a b⟩ else none

/-- `tile::potrf`, lapack/tile.h:448-464. -/
def Lapack.tilePotrf (k : Lapack K) (u : Uplo) (a : Blk K) : Option (Blk K) :=
  if a.rows = a.cols then (k.potrf u a).map fun f => ⟨a.rows, a.cols, f⟩ else none

/-- `tile::trtri`, lapack/tile.h:489-507. -/
def Lapack.tileTrtri (k : Lapack K) (u : Uplo) (d : Diag) (a : Blk K) : Option (Blk K) :=
  if a.rows = a.cols then (k.trtri u d a).map fun f => ⟨a.rows, a.cols, f⟩ else none

/-- `tile::lauum`, lapack/tile.h:419-426. -/
def Lapack.tileLauum (k : Lapack K) (u : Uplo) (a : Blk K) : Option (Blk K) :=
  if a.rows = a.cols then (k.lauum u a).map fun f => ⟨a.rows, a.cols, f⟩ else none

/-- `tile::hegst`, lapack/tile.h:433-446 with `itype = 1`. -/
def Lapack.tileHegst (k : Lapack K) (u : Uplo) (a b : Blk K) : Option (Blk K) :=
  if a.rows = a.cols ∧ b.rows = b.cols ∧ a.rows = b.rows then (k.hegst u a b).map fun f => ⟨a.rows, a.cols, f⟩
  else none

end

/-- The tiles of a local matrix, addressed by tile index (`Matrix::read` / `readwrite`, matrix.h:160-200).
That asynchronous tile accesses take effect in program order is C15. -/
abbrev Tiles (K : Type*) := Nat × Nat → Blk K

/-- A task that reads tiles and overwrites tile `w` of the matrix. -/
def Tiles.write {K : Type*} (m : Tiles K) (w : Nat × Nat) (t : Option (Blk K)) : Option (Tiles K) :=
  t.map fun b => fun z => if z = w then b else m z

/-- `for (SizeType i = a; i < b; ++i)` -/
def upto (a b : Nat) : List Nat := List.range' a (b - a)

/-- `for (SizeType i = b - 1; i >= a; --i)` -/
def downto (b a : Nat) : List Nat := (upto a b).reverse

/-- Run the body for each index; an abort stops the program. -/
def forM' {S X : Type*} (xs : List X) (s : S) (body : S → X → Option S) : Option S := xs.foldlM body s

end DLAF
