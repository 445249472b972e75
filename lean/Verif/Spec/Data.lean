import Verif.Model.Data
/- Specification vocabulary for strided buffers, tile contents and temporaries. -/
namespace DLAF

/-- The positions of `nb` blocks of `bs` consecutive elements, block `j` starting at `off + j * st`, in
order. -/
def strided (off nb bs st : Int) : List Int :=
  (List.range nb.toNat).flatMap fun j : Nat => (List.range bs.toNat).map fun i : Nat => off + j * st + i

/-- The cells of the elements of a tile, column by column. -/
def TileRef.cells (t : TileRef) : List Addr :=
  (List.range t.tile.cols.toNat).flatMap fun j : Nat =>
    (List.range t.tile.rows.toNat).map fun i : Nat => t.addr i j

/-- The values of the elements of a tile, column by column. -/
def TileRef.contents {E : Type} (t : TileRef) (m : Addr → E) : List E := t.cells.map m

/-- What every constructed tile satisfies (the assertions of its constructor, tile.h:42-48). -/
def TileRef.WF (t : TileRef) : Prop :=
  0 ≤ t.tile.rows ∧ 0 ≤ t.tile.cols ∧ max 1 t.tile.rows ≤ t.tile.ld

instance (t : TileRef) : Decidable t.WF := by unfold TileRef.WF; infer_instance

/-- Two tiles of the same shape. -/
def TileRef.SameShape (a b : TileRef) : Prop := a.tile.rows = b.tile.rows ∧ a.tile.cols = b.tile.cols

instance (a b : TileRef) : Decidable (a.SameShape b) := by unfold TileRef.SameShape; infer_instance

/-- From memory `m` to `m'` only the elements of tile `t` (and of the temporaries in `tmps`) changed, and
the tile now contains `vs`. -/
def OnlyTileChanged {E : Type} (t : TileRef) (tmps : List Nat) (m m' : Addr → E) (vs : List E) : Prop :=
  t.contents m' = vs ∧ ∀ x : Addr, x.1 ∉ tmps → x ∉ t.cells → m' x = m x

/-- Nothing but temporaries changed. -/
def NothingChanged {E : Type} (tmps : List Nat) (m m' : Addr → E) : Prop :=
  ∀ x : Addr, x.1 ∉ tmps → m' x = m x

end DLAF

namespace DLAF

/-- The memory of a matrix was set up by one of the constructors: allocated with some layout and leading
dimension, or on a user's column-major buffer. -/
def Allocated (d : Distribution) (mem : MatrixMem) : Prop :=
  (∃ layout alignment ld, setUp layout d alignment ld = some mem) ∨
  (∃ ld, 1 ≤ ld ∧ setUpPreallocated d ld = some mem)

/-- Address of local element (i, j) of a matrix. -/
def MatrixObj.elem (a : MatrixObj) (i j : Int) : Option Addr :=
  (a.mem.elemAddr a.dist i j).map fun x => (a.obj, x)

end DLAF
