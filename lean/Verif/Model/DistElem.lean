import Verif.Model.DistSolver
import Verif.Model.Views
/-
Pieces of the model of the distributed algorithms of the eigensolver, which work on sub-tiles: views of a distributed matrix that start at any
element, sub-tiles of the tiles of a process, and panels as what their tiles hold.

A panel is here the list of the contents of its tiles, by local index along the panel; a tile without contents cannot be read.  Which memory a
tile of a panel refers to and how a panel is reused is modelled in Model/Panel.lean (C26).
-/
namespace DLAF
variable {K : Type*}

/-- `splitTile(tile, {offset, size})`, matrix/tile.h:548-600: the sub-tile; it has to be inside the tile (570-577). -/
def Blk.sub (t : Blk K) (r0 c0 rows cols : Nat) : Option (Blk K) :=
  if r0 + rows ≤ t.rows ∧ c0 + cols ≤ t.cols then some ⟨rows, cols, fun r c => t.e (r0 + r) (c0 + c)⟩ else none

/-- The tile after its sub-tile at `(r0, c0)` was overwritten with `b`. -/
def Blk.put (t : Blk K) (r0 c0 : Nat) (b : Blk K) : Blk K :=
  ⟨t.rows, t.cols, fun r c => if (r0 ≤ r ∧ r < r0 + b.rows) ∧ (c0 ≤ c ∧ c < c0 + b.cols) then b.e (r - r0) (c - c0) else t.e r c⟩

/-- A task on the sub-tile at `(r0, c0)` of size `rows x cols`, which must not change its size. -/
def Blk.onSub (t : Blk K) (r0 c0 rows cols : Nat) (f : Blk K → Option (Blk K)) : Option (Blk K) :=
  (t.sub r0 c0 rows cols).bind fun s => (f s).bind fun d => if d.rows = rows ∧ d.cols = cols then some (t.put r0 c0 d) else none

namespace View
variable (d : Dist1) (off : Int)

/-- The first local tile of a view that starts at the element `off`, matrix/views.h:53-56 (`tile_begin_`). -/
def begin' : Int := d.next_local_tile_from_global_tile (d.global_tile_from_global_element off)

/-- The local tiles of a view, along one coordinate: views.h:101, 157. -/
def tiles : List Int := irange (begin' d off) d.localNrTiles

/-- Does this process hold the first tile of the view?  views.h:103-104, 159. -/
def hasTop : Bool := d.rank_global_tile (d.global_tile_from_global_element off) = d.rank

/-- Where the sub-tile of local tile `i` starts, `SubPanelView::operator()` (rows), views.h:162-171. -/
def panelCut (i : Int) : Int := if hasTop d off ∧ i = begin' d off then cmod off d.tileSize else 0

/-- Where the sub-tile of local tile `i` starts, `SubMatrixView::operator()`, views.h:107-126; `has` is `has_subtile_`. -/
def matrixCut (has : Bool) (i : Int) : Int :=
  if has ∧ d.global_tile_from_local_tile i = d.global_tile_from_global_element off then d.tile_element_from_global_element off else 0

/-- `has_subtile_`, views.h:103-104. -/
def hasSub (d : Distribution) (off : Coord2) : Bool := hasTop d.row off.row || hasTop d.col off.col

end View

/-- A panel: the contents of its tiles. -/
abbrev EPanel (K : Type*) := Int → Option (Blk K)

/-- Access to a panel of a process state. -/
structure ERef (S : Type*) (K : Type*) where
  get : S → EPanel K
  set : S → EPanel K → S

namespace ERef
variable {S : Type*} (R : ERef S K)

/-- A task that writes the tile `i`; `sz` is the size of the tile (`Panel::tileSize`, panel.h:338-349). -/
def write (sz : Nat × Nat) (i : Int) (b : Blk K) (s : S) : Option S :=
  if b.rows = sz.1 ∧ b.cols = sz.2 then some (R.set s (set1 (R.get s) i (some b))) else none

/-- A task that reads the tile `i`. -/
def read (i : Int) (s : S) : Option (Blk K) := R.get s i

/-- `Panel::reset`, panel.h:295-306. -/
def reset (s : S) : S := R.set s fun _ => none

end ERef

/-- `broadcast(root, panel, chain)`, communication/broadcast_panel.h:60-85, for a panel along `axis`, tile by tile: nothing on a line of one
process; `xs` are the local tiles of the panel. -/
def bcastTiles {S : Type*} (axis : Coord) (d : Distribution) (root : Int) (R : ERef S K) (sz : Int → Nat × Nat) (xs : List Int) :
    List (Instr S (Blk K)) :=
  let ch := panelChan axis ⟨d.row.rank, d.col.rank⟩
  if (d.get axis).grid ≤ 1 then []
  else xs.flatMap fun i =>
    if (d.get axis).rank = root then bcastSend ch root fun s => (R.read i s).map fun b => (s, b)
    else bcastRecv ch root fun s b => R.write (sz i) i b s

variable [Field K]

/-- `schedule_all_reduce_in_place(comm, MPI_SUM, tile)`, communication/kernels/internal/all_reduce.h:113-151, for the tiles `xs` of a panel along
`axis`, one after the other. Simplification: the sum is in the order of the ranks. -/
def allReduceTiles {S : Type*} (axis : Coord) (d : Distribution) (R : ERef S K) (sz : Int → Nat × Nat) (xs : List Int) :
    List (Instr S (Blk K)) :=
  let ch := panelChan axis ⟨d.row.rank, d.col.rank⟩
  xs.flatMap fun i =>
    [.post ch fun s => (R.read i s).map fun b => (s, b),
     .take ch .allReduce ((irange 0 (d.get axis).grid).map ch.rankOf) fun s vs => (sumBlk vs).bind fun b => R.write (sz i) i b s]

end DLAF
