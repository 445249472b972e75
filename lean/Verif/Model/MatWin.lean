import Verif.Model.Views
import Verif.Model.Multiplication
import Verif.Model.RedBand
/-
Sub-matrices (`MatrixRef`, matrix/matrix_ref.h) of a local matrix with square tiles of size `nb`, as windows of its elements: the tiles of the
sub-matrix at `(r0, c0)` are the parts of the tiles of the matrix inside the window (distribution.h sub-distribution; C27).
-/
namespace DLAF
variable {K : Type*} [Field K] [StarRing K]

/-- First element, relative to the origin `o`, of tile `i` of a sub-matrix (one dimension). -/
def winBeg (nb o i : Nat) : Nat := if i = 0 then 0 else (o / nb + i) * nb - o
/-- Size of tile `i`. -/
def winSize (nb o len i : Nat) : Nat := min (winBeg nb o (i + 1)) len - winBeg nb o i
/-- Number of tiles. -/
def winCnt (nb o len : Nat) : Nat := if len = 0 then 0 else ceilDivN (o % nb + len) nb

/-- The tiles of the sub-matrix `{r0, c0}, {rows, cols}`, matrix_ref.h:97-117 and 205-240. -/
def winTiles (nb : Nat) (M : Elems K) (r0 c0 rows cols : Nat) : Tiles K := fun z =>
  getB M (r0 + winBeg nb r0 z.1) (c0 + winBeg nb c0 z.2) (winSize nb r0 rows z.1) (winSize nb c0 cols z.2)

/-- The matrix after the tiles of the sub-matrix have been written. -/
def putWin (nb : Nat) (M : Elems K) (r0 c0 rows cols : Nat) (t : Tiles K) : Elems K := fun x y =>
  if r0 ≤ x ∧ x < r0 + rows ∧ c0 ≤ y ∧ y < c0 + cols then
    (t (x / nb - r0 / nb, y / nb - c0 / nb)).e (x - r0 - winBeg nb r0 (x / nb - r0 / nb)) (y - c0 - winBeg nb c0 (y / nb - c0 / nb))
  else M x y

/-- `General::callNN` on sub-matrices, multiplication/general/impl.h:34-62: `A` at `(ra, ca)` of size `m × k`, `B` at `(rb, cb)` of size
`k × n`, `C` at `(rc, cc)` of size `m × n`. -/
def gemmWin [DecidableEq K] (nb : Nat) (alpha : K) (A : Elems K) (ra ca : Nat) (B : Elems K) (rb cb : Nat) (beta : K) (C : Elems K)
    (rc cc : Nat) (m n k : Nat) : Option (Elems K) :=
  (genNN alpha (winCnt nb rc m) (winCnt nb cc n) (winCnt nb ca k) (winTiles nb A ra ca m k) (winTiles nb B rb cb k n) beta
    (winTiles nb C rc cc m n)).map (putWin nb C rc cc m n)

/-- `copy` of sub-matrices, matrix/copy.h:82-117: tile by tile. -/
def copyWin (nb : Nat) (S : Elems K) (D : Elems K) (r0 c0 rows cols : Nat) : Elems K :=
  putWin nb D r0 c0 rows cols (winTiles nb S r0 c0 rows cols)

end DLAF
