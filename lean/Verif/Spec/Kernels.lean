import Verif.Model.Kernels
/-
Contracts of the BLAS/LAPACK routines that the model takes as given (trusted base), and the reading of a tiled
matrix as a matrix of elements.
-/
namespace DLAF
section
variable {K : Type*} [Field K] [StarRing K]

/-- What is used of "positive real number". -/
structure Positive (pos : K → Prop) : Prop where
  ne_zero : ∀ x, pos x → x ≠ 0
  real : ∀ x, pos x → star x = x
  sq_inj : ∀ x y, pos x → pos y → x * x = y * y → x = y

/-- `f` is the `u` Cholesky factor of the `n × n` Hermitian matrix given by the `u` triangle of `a`:
`L Lᴴ = a` or `Uᴴ U = a`, with positive diagonal. -/
def IsChol (pos : K → Prop) (u : Uplo) (n : Nat) (a f : Nat → Nat → K) : Prop :=
  (∀ i < n, pos (f i i)) ∧
  match u with
  | .Lower => ∀ r < n, ∀ c ≤ r, ∑ l ∈ Finset.range (c + 1), f r l * star (f c l) = a r c
  | .Upper => ∀ c < n, ∀ r ≤ c, ∑ l ∈ Finset.range (r + 1), star (f l r) * f l c = a r c

/-- Positions of a tile that a triangular kernel works on: the triangle, without the diagonal if it is `Unit`. -/
def inTri (u : Uplo) (d : Diag) (r c : Nat) : Prop :=
  match u with
  | .Lower => c < r ∨ (c = r ∧ d = .NonUnit)
  | .Upper => r < c ∨ (r = c ∧ d = .NonUnit)

/-- The triangular matrix given by the `u` triangle of `A`, with ones on the diagonal if `d` is `Unit`. -/
def triE (u : Uplo) (d : Diag) (A : Nat → Nat → K) (r c : Nat) : K :=
  if r = c then (if d = .Unit then 1 else A r c)
  else match u with
    | .Lower => if c < r then A r c else 0
    | .Upper => if r < c then A r c else 0

/-- `op` of a matrix. -/
def opE (o : BlasOp) (A : Nat → Nat → K) (r c : Nat) : K :=
  match o with
  | .NoTrans => A r c
  | .Trans => A c r
  | .ConjTrans => star (A c r)

/-- A triangular tile that is not singular. -/
def Nonsing (d : Diag) (a : Blk K) : Prop := a.rows = a.cols ∧ (d = .Unit ∨ ∀ i < a.rows, a.e i i ≠ 0)

/-- The contracts.  Each is the documented behaviour of the routine in exact arithmetic. -/
structure LapackSpec (k : Lapack K) (pos : K → Prop) : Prop where
  /-- `op(A) X = alpha B`, if `A` is not singular -/
  trsm_left : ∀ (u : Uplo) (o : BlasOp) (d : Diag) (alpha : K) (a b : Blk K), Nonsing d a → a.rows = b.rows →
    ∀ r < b.rows, ∀ c < b.cols,
      ∑ l ∈ Finset.range b.rows, ((a.tri u d).op o).e r l * k.trsm .Left u o d alpha a b l c = alpha * b.e r c
  /-- `X op(A) = alpha B`, if `A` is not singular -/
  trsm_right : ∀ (u : Uplo) (o : BlasOp) (d : Diag) (alpha : K) (a b : Blk K), Nonsing d a → a.rows = b.cols →
    ∀ r < b.rows, ∀ c < b.cols,
      ∑ l ∈ Finset.range b.cols, k.trsm .Right u o d alpha a b r l * ((a.tri u d).op o).e l c = alpha * b.e r c
  /-- `alpha = 0` sets `B` to zero -/
  trsm_zero : ∀ (s : Side) (u : Uplo) (o : BlasOp) (d : Diag) (a b : Blk K), triSizes s a b = true →
    ∀ r < b.rows, ∀ c < b.cols, k.trsm s u o d 0 a b r c = 0
  /-- success gives the Cholesky factor in the triangle and leaves the rest of the tile -/
  potrf_some : ∀ (u : Uplo) (a : Blk K) (f : Nat → Nat → K), a.rows = a.cols → k.potrf u a = some f →
    IsChol pos u a.rows a.e f ∧ (∀ r < a.rows, ∀ c < a.rows, ¬ inTri u .NonUnit r c → f r c = a.e r c)
  /-- it succeeds on every matrix that has a Cholesky factor -/
  potrf_total : ∀ (u : Uplo) (a : Blk K) (f : Nat → Nat → K), a.rows = a.cols → IsChol pos u a.rows a.e f →
    (k.potrf u a).isSome
  /-- the inverse of the triangular matrix, in place -/
  trtri : ∀ (u : Uplo) (d : Diag) (a : Blk K), Nonsing d a → ∃ f, k.trtri u d a = some f ∧
    (∀ r < a.rows, ∀ c < a.rows, ∑ l ∈ Finset.range a.rows,
      (a.tri u d).e r l * ((⟨a.rows, a.rows, f⟩ : Blk K).tri u d).e l c = if r = c then 1 else 0) ∧
    ∀ r < a.rows, ∀ c < a.rows, ¬ inTri u d r c → f r c = a.e r c
  /-- `Lᴴ L` or `U Uᴴ`, in place -/
  lauum : ∀ (u : Uplo) (a : Blk K), a.rows = a.cols → ∃ f, k.lauum u a = some f ∧
    (∀ r < a.rows, ∀ c < a.rows, inTri u .NonUnit r c → f r c =
      match u with
      | .Lower => ∑ l ∈ Finset.range a.rows, star ((a.tri u .NonUnit).e l r) * (a.tri u .NonUnit).e l c
      | .Upper => ∑ l ∈ Finset.range a.rows, (a.tri u .NonUnit).e r l * star ((a.tri u .NonUnit).e c l)) ∧
    ∀ r < a.rows, ∀ c < a.rows, ¬ inTri u .NonUnit r c → f r c = a.e r c
  /-- `itype = 1`: the solution `X` of `L X Lᴴ = A` or `Uᴴ X U = A`, in place -/
  hegst : ∀ (u : Uplo) (a b : Blk K), a.rows = a.cols → Nonsing .NonUnit b → a.rows = b.rows →
    (∀ i < a.rows, star (a.e i i) = a.e i i) → ∃ f, k.hegst u a b = some f ∧
    (∀ r < a.rows, ∀ c < a.rows, (a.herm u).e r c =
      match u with
      | .Lower => ∑ p ∈ Finset.range a.rows, ∑ q ∈ Finset.range a.rows, (b.tri u .NonUnit).e r p *
          ((⟨a.rows, a.rows, f⟩ : Blk K).herm u).e p q * star ((b.tri u .NonUnit).e c q)
      | .Upper => ∑ p ∈ Finset.range a.rows, ∑ q ∈ Finset.range a.rows, star ((b.tri u .NonUnit).e p r) *
          ((⟨a.rows, a.rows, f⟩ : Blk K).herm u).e p q * (b.tri u .NonUnit).e q c) ∧
    (∀ i < a.rows, star (f i i) = f i i) ∧
    ∀ r < a.rows, ∀ c < a.rows, ¬ inTri u .NonUnit r c → f r c = a.e r c

end

section
variable {K : Type*}

/-- Where tile `i` starts, for tiles of sizes `sz 0, sz 1, ...`. -/
def tileStart (sz : Nat → Nat) (i : Nat) : Nat := ∑ t ∈ Finset.range i, sz t

/-- Every tile has the size of the tiling: row heights `rs`, column widths `cs`. -/
def Shaped (m : Tiles K) (rs cs : Nat → Nat) (nr nc : Nat) : Prop :=
  ∀ i < nr, ∀ j < nc, (m (i, j)).rows = rs i ∧ (m (i, j)).cols = cs j

/-- The tiles `m` hold the elements of the matrix `A` at the positions selected by `sel`. -/
def HoldsOn (m : Tiles K) (rs cs : Nat → Nat) (nr nc : Nat) (A : Nat → Nat → K) (sel : Nat → Nat → Prop) : Prop :=
  ∀ i < nr, ∀ j < nc, ∀ r < rs i, ∀ c < cs j, sel (tileStart rs i + r) (tileStart cs j + c) →
    (m (i, j)).e r c = A (tileStart rs i + r) (tileStart cs j + c)

end
end DLAF
