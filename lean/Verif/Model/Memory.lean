import Verif.Model.Index
/-
Model of memory views, tiles, sub-tiles and matrix memory layouts:
include/dlaf/memory/memory_view.h, include/dlaf/matrix/tile.h, include/dlaf/matrix/col_major_layout.h,
include/dlaf/matrix/matrix.h (`compute_ld`, `set_up_non_preallocated_tiles`,
`set_up_preallocated_tiles`), include/dlaf/matrix/matrix_base.h (`tile_linear_index`).

Addresses are pairs (chunk, element position).  Every execution of an allocation yields a chunk of
its own (allocator contract); a chunk is named by its allocation site and the loop indices at that
site.
-/
namespace DLAF

/-- Name of an allocation. -/
inductive ChunkId
  | whole                     -- the single buffer of a column-major matrix, or the user's buffer
  | block (jb ib : Int)       -- matrix.h:298
  | tile (i j : Int)          -- matrix.h:332
  | panel (k : Int)
deriving DecidableEq, Repr

/-- `MemoryView`, memory_view.h:32, 159-163. -/
structure MemView where
  chunk : ChunkId
  offset : Int
  size : Int
deriving DecidableEq, Repr

/-- Allocating constructor, memory_view.h:46-51. -/
def MemView.alloc (c : ChunkId) (size : Int) : Option MemView :=
  if 0 ≤ size then some ⟨c, 0, size⟩ else none

/-- Sub-view constructor, memory_view.h:87-91; `none` = assertion failure.  (For `size == 0` the
real view drops its reference to the chunk, which no address depends on.) -/
def MemView.sub (v : MemView) (offset size : Int) : Option MemView :=
  if offset + size ≤ v.size then
    some ⟨v.chunk, if size > 0 then offset + v.offset else 0, size⟩
  else none

/-- `TileData` / `Tile`, tile.h:38-113. -/
structure Tile where
  rows : Int
  cols : Int
  view : MemView
  ld : Int
deriving DecidableEq, Repr

/-- `linearSize`, tile.h:96-100 -/
def Tile.linearSize (rows cols ld : Int) : Int :=
  if rows = 0 ∨ cols = 0 then 0 else rows + ld * (cols - 1)

/-- Tile constructor, tile.h:42-48; `none` = assertion failure. -/
def Tile.create (rows cols : Int) (view : MemView) (ld : Int) : Option Tile :=
  if (0 ≤ rows ∧ 0 ≤ cols) ∧ max 1 rows ≤ ld ∧
     ((rows = 0 ∨ cols = 0) ∨ Tile.linearSize rows cols ld ≤ view.size)
  then some ⟨rows, cols, view, ld⟩ else none

/-- `linearIndex`, tile.h:91-94 -/
def Tile.linearIndex (t : Tile) (i j : Int) : Int := i + t.ld * j

/-- `ptr(index)`, tile.h:79-81 with memory_view.h:142-145. -/
def Tile.addr (t : Tile) (i j : Int) : ChunkId × Int :=
  (t.view.chunk, t.view.offset + t.linearIndex i j)

/-- `SubTileSpec`, tile.h:117-120. -/
structure SubTileSpec where
  origin : Coord2
  size : Coord2
deriving DecidableEq, Repr

/-- `subTileSpecsOverlap`, tile.h:123-145. -/
def subTileSpecsOverlap (s1 s2 : SubTileSpec) : Bool :=
  if (s1.size.row = 0 ∨ s1.size.col = 0) ∨ (s2.size.row = 0 ∨ s2.size.col = 0) then false
  else if s1.origin.row + s1.size.row ≤ s2.origin.row ∨ s2.origin.row + s2.size.row ≤ s1.origin.row then
    false
  else if s1.origin.col + s1.size.col ≤ s2.origin.col ∨ s2.origin.col + s2.size.col ≤ s1.origin.col then
    false
  else true

/-- Sub-tile of a tile: tile.h:285-309 (`createMemoryViewForSubtile` and the sub-tile constructor);
`none` = assertion failure. -/
def Tile.subTile (t : Tile) (s : SubTileSpec) : Option Tile :=
  if (0 ≤ s.origin.row ∧ 0 ≤ s.origin.col) ∧ (s.origin.row ≤ t.rows ∧ s.origin.col ≤ t.cols) ∧
     (0 ≤ s.size.row ∧ 0 ≤ s.size.col) ∧
     (s.origin.row + s.size.row ≤ t.rows ∧ s.origin.col + s.size.col ≤ t.cols)
  then
    (t.view.sub (if s.size.row = 0 ∨ s.size.col = 0 then 0 else t.linearIndex s.origin.row s.origin.col)
      (Tile.linearSize s.size.row s.size.col t.ld)).bind
      fun v => Tile.create s.size.row s.size.col v t.ld
  else none

/-- Apply `f` to every entry, `none` if one fails (a loop whose body may hit an assertion). -/
def mapOpt {α β : Type _} (f : α → Option β) : List α → Option (List β)
  | [] => some []
  | a :: as => match f a, mapOpt f as with
    | some b, some bs => some (b :: bs)
    | _, _ => none

/-- The pairwise check of `splitTileDisjoint`, tile.h:589-597: each spec against the earlier ones. -/
def specsDisjoint : List SubTileSpec → Bool
  | [] => true
  | s :: ss => ss.all (fun s2 => !subTileSpecsOverlap s2 s) && specsDisjoint ss

/-- `splitTileDisjoint`, tile.h:571-619: the resulting sub-tiles.  The overlap check is a
`DLAF_ASSERT_MODERATE` (`moderate`: Debug builds). -/
def splitTileDisjoint (moderate : Bool) (t : Tile) (specs : List SubTileSpec) : Option (List Tile) :=
  match specs with
  | [] => some []
  | [s] => (t.subTile s).map ([·])
  | specs => if moderate && !specsDisjoint specs then none else mapOpt t.subTile specs

/-- `Ld` / `LdSpec`, allocation_types.h:22-32. -/
inductive LdSpec
  | compact
  | padded
  | value (ld : Int)
deriving DecidableEq, Repr

/-- `compute_ld`, matrix.h:214-243; `alignment` is `max(1, 64/sizeof(T))` on CPU, 32 on GPU. -/
def compute_ld (alignment rows : Int) (ld : LdSpec) : Option Int :=
  let min_ld := max 1 rows
  let ret := match ld with
    | .compact => min_ld
    | .padded => if min_ld < alignment then min_ld else ceilDiv min_ld alignment * alignment
    | .value v => v
  if min_ld ≤ ret then some ret else none

/-- `ColMajorLayout::min_tile_mem_size`, col_major_layout.h:113-121. -/
def min_tile_mem_size (ld m n : Int) : Int := if m = 0 ∨ n = 0 then 0 else m + ld * (n - 1)

/-- `ColMajorLayout` constructor, col_major_layout.h:30-41; `none` = assertion failure, otherwise the
minimum number of elements of the buffer (`min_mem_size`, 52-54). -/
def colMajorMinMemSize (d : Distribution) (ld : Int) : Option Int :=
  if (if d.row.localSize = 0 ∨ d.col.localSize = 0 then 1 ≤ ld else d.row.localSize ≤ ld) ∧
      d.row.offset = 0 ∧ d.col.offset = 0
  then some (min_tile_mem_size ld d.row.localSize d.col.localSize) else none

/-- The local tile indices in the order of the loops `for j for i` of matrix.h:267-275. -/
def localTiles (d : Distribution) : List (Nat × Nat) :=
  (List.range d.col.localNrTiles.toNat).flatMap fun j =>
    (List.range d.row.localNrTiles.toNat).map fun i => (i, j)

/-- One tile of a column-major matrix, matrix.h:269-274 (= 529-533 for user buffers), with
`tile_offset`, `tile_size_of`, `min_tile_mem_size` of col_major_layout.h:59-96. -/
def colMajorTile (d : Distribution) (ld : Int) (mem : MemView) (ij : Nat × Nat) : Option Tile :=
  let offset := d.row.local_element_from_local_tile_and_tile_element ij.1 0
    + d.col.local_element_from_local_tile_and_tile_element ij.2 0 * ld
  let rows := d.row.local_tile_size_of ij.1
  let cols := d.col.local_tile_size_of ij.2
  (mem.sub offset (min_tile_mem_size ld rows cols)).bind fun v => Tile.create rows cols v ld

/-- The tiles of a matrix in storage order (`tile_managers_`), with the size of each chunk. -/
structure MatrixMem where
  tiles : List Tile
  chunkSize : ChunkId → Int

/-- Matrix on a user's column-major buffer: matrix.h:362-367, 514-536. -/
def setUpPreallocated (d : Distribution) (ld : Int) : Option MatrixMem :=
  (colMajorMinMemSize d ld).bind fun n =>
    (mapOpt (colMajorTile d ld ⟨.whole, 0, n⟩) (localTiles d)).map fun ts => ⟨ts, fun _ => n⟩

/-- matrix.h:261-276: `AllocationLayout::ColMajor` -/
def setUpColMajor (d : Distribution) (alignment : Int) (ld : LdSpec) : Option MatrixMem :=
  (compute_ld alignment d.row.localSize ld).bind fun ld => setUpPreallocated d ld

/-- One iteration of the tile loop inside a block along one coordinate: which block, which tile, the
position in the block, the tile size and the block size. -/
structure BlockEntry where
  bl : Int
  tile : Int
  el : Int
  sz : Int
  bsz : Int
deriving DecidableEq, Repr

/-- Inner loop `for (el = 0; el < mb;) { ...; ++i; el += mt; }`, matrix.h:300-311 (rows) and 289-315
(columns).  `none`: the loop makes no progress. Returns the entries and the final tile index. -/
def blockInner (d : Dist1) (bl mb i el : Int) : Option (List BlockEntry × Int) :=
  if h : el < mb then
    if h2 : 0 < d.local_tile_size_of i then
      (blockInner d bl mb (i + 1) (el + d.local_tile_size_of i)).map
        fun r => (⟨bl, i, el, d.local_tile_size_of i, mb⟩ :: r.1, r.2)
    else none
  else some ([], i)
termination_by (mb - el).toNat
decreasing_by omega

/-- Outer loop over the blocks along one coordinate, matrix.h:286-287 / 292-293: `n` blocks left. -/
def blockOuter (d helper : Dist1) : (n : Nat) → (bl i : Int) → Option (List BlockEntry)
  | 0, _, _ => some []
  | n + 1, bl, i =>
    (blockInner d bl (helper.local_tile_size_of bl) i 0).bind fun r =>
      (blockOuter d helper n (bl + 1) r.2).map fun l => r.1 ++ l

/-- All (block, tile) iterations along one coordinate. -/
def blockEntries (d : Dist1) : Option (List BlockEntry) :=
  let helper := d.single_tile_per_block
  blockOuter d helper helper.local_nr_blocks.toNat 0 0

/-- One tile of a block-allocated matrix, matrix.h:302-308; the block's buffer is
`mem_views[i_bl]` of size `block_ld * nb` (298). -/
def blockTile (alignment : Int) (ld : LdSpec) (ce re : BlockEntry) : Option Tile :=
  (compute_ld alignment re.bsz ld).bind fun block_ld =>
  (MemView.alloc (.block ce.bl re.bl) (block_ld * ce.bsz)).bind fun mem =>
  (mem.sub (re.el + block_ld * ce.el) ((ce.sz - 1) * block_ld + re.sz)).bind fun v =>
    Tile.create re.sz ce.sz v block_ld

/-- matrix.h:277-319: `AllocationLayout::Blocks`.  The row loop is repeated for each tile column. -/
def setUpBlocks (d : Distribution) (alignment : Int) (ld : LdSpec) : Option MatrixMem :=
  if d.row.local_nr_blocks = d.row.single_tile_per_block.local_nr_blocks ∧
     d.col.local_nr_blocks = d.col.single_tile_per_block.local_nr_blocks then
    (blockEntries d.col).bind fun ces => (blockEntries d.row).bind fun res =>
      (mapOpt (fun p : BlockEntry × BlockEntry => blockTile alignment ld p.1 p.2)
        (ces.flatMap fun ce => res.map fun re => (ce, re))).map fun ts =>
        ⟨ts, fun c => match c with
          | .block jb ib =>
            (compute_ld alignment (d.row.single_tile_per_block.local_tile_size_of ib) ld).getD 0
              * d.col.single_tile_per_block.local_tile_size_of jb
          | _ => 0⟩
  else none

/-- One tile of a tile-allocated matrix, matrix.h:323-332. -/
def tilesTile (d : Distribution) (alignment : Int) (ld : LdSpec) (ij : Nat × Nat) : Option Tile :=
  let rows := d.row.local_tile_size_of ij.1
  let cols := d.col.local_tile_size_of ij.2
  (compute_ld alignment rows ld).bind fun tile_ld =>
  (MemView.alloc (.tile ij.1 ij.2) (tile_ld * cols)).bind fun mem => Tile.create rows cols mem tile_ld

/-- matrix.h:320-334: `AllocationLayout::Tiles` -/
def setUpTiles (d : Distribution) (alignment : Int) (ld : LdSpec) : Option MatrixMem :=
  (mapOpt (tilesTile d alignment ld) (localTiles d)).map fun ts =>
    ⟨ts, fun c => match c with
      | .tile i j => (compute_ld alignment (d.row.local_tile_size_of i) ld).getD 0
          * d.col.local_tile_size_of j
      | _ => 0⟩

/-- `AllocationLayout`, allocation_types.h:20 -/
inductive AllocationLayout | ColMajor | Blocks | Tiles
deriving DecidableEq, Repr

/-- `set_up_non_preallocated_tiles`, matrix.h:245-338; `none` = an assertion aborts. -/
def setUp (layout : AllocationLayout) (d : Distribution) (alignment : Int) (ld : LdSpec) :
    Option MatrixMem :=
  if d.row.localSize = 0 ∨ d.col.localSize = 0 then
    (compute_ld alignment 0 ld).map fun _ => ⟨[], fun _ => 0⟩
  else match layout with
    | .ColMajor => setUpColMajor d alignment ld
    | .Blocks => setUpBlocks d alignment ld
    | .Tiles => setUpTiles d alignment ld

/-- `MatrixBase::tile_linear_index`, matrix_base.h:158-162. -/
def tile_linear_index (d : Distribution) (i j : Int) : Int := i + d.row.localNrTiles * j

/-- Address of local element (i, j): the tile that contains it (`tile_managers_[linear index]`) and
the position in it. -/
def MatrixMem.elemAddr (m : MatrixMem) (d : Distribution) (i j : Int) : Option (ChunkId × Int) :=
  (m.tiles[(tile_linear_index d (d.row.local_tile_from_local_element i)
      (d.col.local_tile_from_local_element j)).toNat]?).map fun t =>
    t.addr (d.row.tile_element_from_local_element i) (d.col.tile_element_from_local_element j)

end DLAF
