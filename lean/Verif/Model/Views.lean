import Verif.Model.Kernels
/-
Sub-tiles as windows of a matrix of elements.  A local matrix with tiles is its elements; tile `(i, j)` and the sub-tiles of it
given by `splitTile(tile, SubTileSpec)` (matrix/tile.h:548-600) are rectangular windows of it: `getB` reads a window, `putB`
overwrites it.  That tiles of a matrix are disjoint windows of its elements is C01-C03, that sub-tiles are is C12.
-/
namespace DLAF
variable {K : Type*}

/-- Elements of a matrix. -/
abbrev Elems (K : Type*) := Nat → Nat → K

/-- The window of size `rows × cols` at `(r0, c0)`. -/
def getB (M : Elems K) (r0 c0 rows cols : Nat) : Blk K := ⟨rows, cols, fun r c => M (r0 + r) (c0 + c)⟩

/-- Overwrite the window at `(r0, c0)`. -/
def putB (M : Elems K) (r0 c0 : Nat) (b : Blk K) : Elems K := fun x y =>
  if r0 ≤ x ∧ x < r0 + b.rows ∧ c0 ≤ y ∧ y < c0 + b.cols then b.e (x - r0) (y - c0) else M x y

/-- A task that overwrites a window. -/
def putO (M : Elems K) (r0 c0 : Nat) (b : Option (Blk K)) : Option (Elems K) := b.map (putB M r0 c0)

/-- Rows of the tiles of a matrix of height `n` with tiles of height `nb` from row `off` on, as first row and height: the rows
of `SubPanelView` and `SubMatrixView`, matrix/views.h:38-205 (`operator()`: the first tile is cut at `off`, the last at `n`).
For a local matrix the tile range is `off / nb .. nrTiles` (49-60, 101-104, 163-171). -/
def pieces (nb n off : Nat) : List (Nat × Nat) :=
  (upto (off / nb) ((n + nb - 1) / nb)).map fun i =>
    (i * nb + (if i = off / nb then off % nb else 0),
      min nb (n - i * nb) - (if i = off / nb then off % nb else 0))

end DLAF
