import Verif.Model.UtilDist
/-
Model of `dlaf::matrix::Distribution` (include/dlaf/matrix/distribution.h,
src/matrix/distribution.cpp) and of include/dlaf/matrix/distribution_extensions.h.

Every data member of `Distribution` is a pair (row, col) and every member function works on one
coordinate (`template <Coord rc>`) or pairs the two per-coordinate results.  So the model has a
per-coordinate structure `Dist1`, and `Distribution` is a pair of them.
-/
namespace DLAF

/-- One coordinate of `Distribution`'s data members, distribution.h:788-799. -/
structure Dist1 where
  offset : Int
  size : Int
  localSize : Int
  nrTiles : Int
  localNrTiles : Int
  blockSize : Int
  tileSize : Int
  rank : Int
  grid : Int
  src : Int
deriving DecidableEq, Repr

namespace Dist1

/-- distribution.cpp:17-20, 163-175: default constructed / moved-from values. -/
def default : Dist1 := ⟨0, 0, 0, 0, 0, 1, 1, 0, 1, 0⟩

variable (d : Dist1)

/-- distribution.h:651-653 -/
def tiles_per_block : Int := cdiv d.blockSize d.tileSize
/-- distribution.h:660-662 -/
def is_source_rank : Bool := d.rank = d.src
/-- distribution.h:669-671 -/
def global_tile_offset : Int := cdiv d.offset d.tileSize
/-- distribution.h:678-680 -/
def global_tile_element_offset : Int := cmod d.offset d.tileSize
/-- distribution.h:689-696 -/
def local_tile_offset : Int := if d.rank = d.src then d.global_tile_offset else 0
/-- distribution.h:705-712 -/
def local_tile_element_offset : Int := if d.rank = d.src then d.global_tile_element_offset else 0

/-- distribution.h:600-605 -/
def rank_global_tile (t : Int) : Int :=
  util.rank_global_tile t d.tiles_per_block d.grid d.src d.global_tile_offset
/-- distribution.h:462-466 -/
def global_tile_from_global_element (e : Int) : Int :=
  util.tile_from_element e d.tileSize d.global_tile_element_offset
/-- distribution.h:585-587 -/
def rank_global_element (e : Int) : Int := d.rank_global_tile (d.global_tile_from_global_element e)
/-- distribution.h:473-480 -/
def global_tile_from_local_tile (t : Int) : Int :=
  util.global_tile_from_local_tile t d.tiles_per_block d.grid d.rank d.src d.global_tile_offset
/-- distribution.h:496-503 -/
def local_tile_from_global_tile (t : Int) : Int :=
  util.local_tile_from_global_tile t d.tiles_per_block d.grid d.rank d.src d.global_tile_offset
/-- distribution.h:487-489 -/
def local_tile_from_global_element (e : Int) : Int :=
  d.local_tile_from_global_tile (d.global_tile_from_global_element e)
/-- distribution.h:509-514 -/
def local_tile_from_local_element (e : Int) : Int :=
  util.tile_from_element e d.tileSize d.local_tile_element_offset
/-- distribution.h:542-549 -/
def next_local_tile_from_global_tile (t : Int) : Int :=
  util.next_local_tile_from_global_tile t d.tiles_per_block d.grid d.rank d.src d.global_tile_offset
/-- distribution.h:523-525 -/
def next_local_tile_from_global_element (e : Int) : Int :=
  d.next_local_tile_from_global_tile (d.global_tile_from_global_element e)
/-- distribution.h:559-564 -/
def tile_element_from_global_element (e : Int) : Int :=
  util.tile_element_from_element e d.tileSize d.global_tile_element_offset
/-- distribution.h:570-575 -/
def tile_element_from_local_element (e : Int) : Int :=
  util.tile_element_from_element e d.tileSize d.local_tile_element_offset
/-- distribution.h:389-398 -/
def global_element_from_global_tile_and_tile_element (t te : Int) : Int :=
  util.element_from_tile_and_tile_element t te d.tileSize d.global_tile_element_offset
/-- distribution.h:406-410 -/
def global_element_from_local_tile_and_tile_element (t te : Int) : Int :=
  d.global_element_from_global_tile_and_tile_element (d.global_tile_from_local_tile t) te
/-- distribution.h:443-452 -/
def local_element_from_local_tile_and_tile_element (t te : Int) : Int :=
  util.element_from_tile_and_tile_element t te d.tileSize d.local_tile_element_offset
/-- distribution.h:417-422 -/
def global_element_from_local_element (e : Int) : Int :=
  let local_tile := d.local_tile_from_local_element e
  let global_tile := d.global_tile_from_local_tile local_tile
  let tile_element := d.tile_element_from_local_element e
  d.global_element_from_global_tile_and_tile_element global_tile tile_element
/-- distribution.h:429-435 -/
def local_element_from_global_element (e : Int) : Int :=
  let local_tile := d.local_tile_from_global_element e
  if local_tile < 0 then -1
  else
    let tile_element := d.tile_element_from_global_element e
    d.local_element_from_local_tile_and_tile_element local_tile tile_element
/-- distribution.h:615-624 -/
def global_tile_size_of (t : Int) : Int :=
  if t = 0 then min (d.tileSize - d.global_tile_element_offset) d.size
  else min d.tileSize (d.size + d.global_tile_element_offset - t * d.tileSize)
/-- distribution.h:630-639 -/
def local_tile_size_of (t : Int) : Int :=
  if t = 0 then min (d.tileSize - d.local_tile_element_offset) d.localSize
  else min d.tileSize (d.localSize + d.local_tile_element_offset - t * d.tileSize)
/-- distribution.h:251-256 -/
def nr_blocks : Int := ceilDiv (d.nrTiles + d.global_tile_offset) d.tiles_per_block
/-- distribution.h:259-264 -/
def local_nr_blocks : Int := ceilDiv (d.localNrTiles + d.local_tile_offset) d.tiles_per_block

/-- distribution.cpp:151-161.  `std::div` is truncating; the `static_cast<int>` of the quotient is
the identity on unbounded integers.  The trailing `DLAF_ASSERT(offset < block)` is checked in
`create`. -/
def normalize (d : Dist1) : Dist1 :=
  { d with offset := cmod d.offset d.blockSize,
           src := cmod (d.src + cdiv d.offset d.blockSize) d.grid }
/-- distribution.cpp:108-115 -/
def compute_global_nr_tiles (d : Dist1) : Dist1 :=
  { d with nrTiles := if d.size > 0 then ceilDiv (d.size + d.global_tile_element_offset) d.tileSize
                      else 0 }
/-- distribution.cpp:131-149 -/
def compute_local_size (d : Dist1) : Int :=
  if d.localNrTiles = 0 then 0
  else
    let ret := d.localNrTiles * d.tileSize
    let ret := ret - d.local_tile_element_offset
    if d.rank = d.rank_global_tile (d.nrTiles - 1) then
      ret - (d.nrTiles * d.tileSize - (d.size + d.global_tile_element_offset))
    else ret
/-- distribution.cpp:117-129 -/
def compute_local_nr_tiles_and_local_size (d : Dist1) : Dist1 :=
  let d := { d with localNrTiles := d.next_local_tile_from_global_tile d.nrTiles }
  { d with localSize := d.compute_local_size }

/-- Body of the main constructor, distribution.cpp:51-70, after its assertions. -/
def build (size block tile grid rank src elementOffset : Int) : Dist1 :=
  compute_local_nr_tiles_and_local_size (compute_global_nr_tiles (normalize
    { offset := elementOffset, size := size, localSize := 0, nrTiles := 0, localNrTiles := 0,
      blockSize := block, tileSize := tile, rank := rank, grid := grid, src := src }))

/-- The assertions of the main constructor for one coordinate, distribution.cpp:58-65 and the
post-condition assert of `normalize_source_rank_and_offset` (159-160).  `isEmpty()` only tests
`== 0` (index2d.h:155-158, its `isValid` check is a `DLAF_ASSERT_HEAVY`, off in Release builds:
`heavy = false`); `isIn` is `0 <= i < bound` (index2d.h:212-215). -/
def accepts (heavy : Bool) (size block tile grid rank src elementOffset : Int) : Bool :=
  0 ≤ size && block ≠ 0 && tile ≠ 0 && grid ≠ 0
    && (!heavy || (0 ≤ block && 0 ≤ tile && 0 ≤ grid))
    && cmod block tile = 0
    && (0 ≤ rank && rank < grid) && (0 ≤ src && src < grid)
    && cmod elementOffset block < block

/-- One coordinate of the sub-distribution constructor, distribution.cpp:99-105. -/
def subBuild (d : Dist1) (origin size : Int) : Dist1 :=
  compute_local_nr_tiles_and_local_size (compute_global_nr_tiles (normalize
    { d with offset := d.offset + origin, size := size }))

/-- Assertions of the sub-distribution constructor for one coordinate, distribution.cpp:95-98. -/
def subAccepts (d : Dist1) (origin size : Int) : Bool :=
  0 ≤ origin && 0 ≤ size && origin + size ≤ d.size

/-- Local (non distributed) constructor, distribution.cpp:22-34. -/
def buildLocal (size tile elementOffset : Int) : Dist1 :=
  let d : Dist1 :=
    { offset := elementOffset, size := 0, localSize := size, nrTiles := 0, localNrTiles := 0,
      blockSize := tile, tileSize := tile, rank := 0, grid := 1, src := 0 }
  let d := normalize d
  let d := { d with size := d.localSize }
  let d := compute_global_nr_tiles d
  { d with localNrTiles := d.nrTiles }

/-- `create_single_tile_per_block_distribution`, distribution.cpp:178-187. -/
def single_tile_per_block (d : Dist1) : Dist1 :=
  { d with tileSize := d.blockSize, nrTiles := d.nr_blocks, localNrTiles := d.local_nr_blocks }

/-! ### distribution_extensions.h -/

/-- distribution_extensions.h:69-75 -/
def local_tile_offset_on_rank (rank : Int) : Int :=
  if rank = d.src then d.global_tile_offset else 0
/-- distribution_extensions.h:79-85 -/
def local_tile_element_offset_on_rank (rank : Int) : Int :=
  if rank = d.src then d.global_tile_element_offset else 0
/-- distribution_extensions.h:91-97 -/
def local_tile_from_local_element_on_rank (rank e : Int) : Int :=
  util.tile_from_element e d.tileSize (d.local_tile_element_offset_on_rank rank)
/-- distribution_extensions.h:103-109 -/
def tile_element_from_local_element_on_rank (rank e : Int) : Int :=
  util.tile_element_from_element e d.tileSize (d.local_tile_element_offset_on_rank rank)
/-- distribution_extensions.h:116-128 -/
def global_tile_from_local_tile_on_rank (rank t : Int) : Int :=
  util.global_tile_from_local_tile t (cdiv d.blockSize d.tileSize) d.grid rank d.src
    d.global_tile_offset
/-- distribution_extensions.h:136-142 -/
def global_element_from_local_element_on_rank (rank e : Int) : Int :=
  let local_tile := d.local_tile_from_local_element_on_rank rank e
  let tile_element := d.tile_element_from_local_element_on_rank rank e
  let global_tile := d.global_tile_from_local_tile_on_rank rank local_tile
  d.global_element_from_global_tile_and_tile_element global_tile tile_element
/-- distribution_extensions.h:150-157 -/
def local_tile_from_global_tile_any_rank (t : Int) : Int :=
  util.local_tile_from_global_tile t (cdiv d.blockSize d.tileSize) d.grid (d.rank_global_tile t)
    d.src d.global_tile_offset
/-- One coordinate of `global_tile_index_from_sub_distribution`, distribution_extensions.h:187-194 -/
def global_tile_from_sub_distribution (sub_offset sub_index : Int) : Int :=
  d.global_tile_from_global_element sub_offset + sub_index
/-- One coordinate of `tile_element_offset_from_sub_distribution`,
distribution_extensions.h:198-209 -/
def tile_element_offset_from_sub_distribution (sub_offset sub_index : Int) : Int :=
  if sub_index = 0 then d.tile_element_from_global_element sub_offset else 0
/-- distribution_extensions.h:218-222 -/
def distance_to_adjacent_tile (e : Int) : Int :=
  d.global_tile_size_of (d.global_tile_from_global_element e) - d.tile_element_from_global_element e
/-- distribution_extensions.h:239-249 -/
def global_tile_element_distance (i_begin i_end : Int) : Int :=
  let el_begin := d.global_element_from_global_tile_and_tile_element i_begin 0
  if i_end = d.nrTiles then d.size - el_begin
  else d.global_element_from_global_tile_and_tile_element i_end 0 - el_begin
/-- distribution_extensions.h:254-271 -/
def local_element_distance_from_local_tile (i_loc_begin i_loc_end : Int) : Int :=
  let i_loc_last := i_loc_end - 1
  if i_loc_begin > i_loc_last then 0
  else
    let i_el_begin := d.local_element_from_local_tile_and_tile_element i_loc_begin 0
    let i_el_end := d.local_element_from_local_tile_and_tile_element i_loc_last
      (d.global_tile_size_of (d.global_tile_from_local_tile i_loc_last) - 1) + 1
    i_el_end - i_el_begin
/-- distribution_extensions.h:276-285 -/
def local_element_distance_from_global_tile (i_begin i_end : Int) : Int :=
  d.local_element_distance_from_local_tile (d.next_local_tile_from_global_tile i_begin)
    (d.next_local_tile_from_global_tile i_end)

end Dist1

/-- `enum class Coord`, include/dlaf/common/index2d.h:28 -/
inductive Coord | Row | Col
deriving DecidableEq, Repr

/-- `Index2D`/`Size2D`, index2d.h:45-235 (`basic_coords` with the component accessors). -/
structure Coord2 where
  row : Int
  col : Int
deriving DecidableEq, Repr

/-- index2d.h:85-89 `get<rc>()` -/
def Coord2.get (c : Coord2) : Coord → Int
  | .Row => c.row
  | .Col => c.col

/-- `Distribution`: the two coordinates of each member, distribution.h:788-799. -/
structure Distribution where
  row : Dist1
  col : Dist1
deriving DecidableEq, Repr

namespace Distribution

def get (d : Distribution) : Coord → Dist1
  | .Row => d.row
  | .Col => d.col

/-- Main constructor, distribution.cpp:51-70; `none` = an assertion aborts. -/
def create (heavy : Bool) (size block tile grid rank src elementOffset : Coord2) :
    Option Distribution :=
  if Dist1.accepts heavy size.row block.row tile.row grid.row rank.row src.row elementOffset.row
     && Dist1.accepts heavy size.col block.col tile.col grid.col rank.col src.col elementOffset.col
  then some
    { row := Dist1.build size.row block.row tile.row grid.row rank.row src.row elementOffset.row
      col := Dist1.build size.col block.col tile.col grid.col rank.col src.col elementOffset.col }
  else none

/-- Sub-distribution constructor, distribution.cpp:93-106; `none` = an assertion aborts.
Its trailing assertion inside `normalize_source_rank_and_offset` is always true for a normalised
parent and is not repeated. -/
def sub (d : Distribution) (origin size : Coord2) : Option Distribution :=
  if d.row.subAccepts origin.row size.row && d.col.subAccepts origin.col size.col then
    some { row := d.row.subBuild origin.row size.row, col := d.col.subBuild origin.col size.col }
  else none

/-- distribution.h:331-336 -/
def rank_global_tile (d : Distribution) (t : Coord2) : Coord2 :=
  ⟨d.row.rank_global_tile t.row, d.col.rank_global_tile t.col⟩
/-- distribution.h:310-315 -/
def global_tile_index (d : Distribution) (e : Coord2) : Coord2 :=
  ⟨d.row.global_tile_from_global_element e.row, d.col.global_tile_from_global_element e.col⟩
/-- distribution.h:321-326 -/
def global_tile_index_of_local (d : Distribution) (t : Coord2) : Coord2 :=
  ⟨d.row.global_tile_from_local_tile t.row, d.col.global_tile_from_local_tile t.col⟩
/-- distribution.h:342-349 -/
def local_tile_index (d : Distribution) (t : Coord2) : Coord2 :=
  ⟨d.row.local_tile_from_global_tile t.row, d.col.local_tile_from_global_tile t.col⟩
/-- distribution.h:295-305 -/
def global_element_index (d : Distribution) (t te : Coord2) : Coord2 :=
  ⟨d.row.global_element_from_global_tile_and_tile_element t.row te.row,
   d.col.global_element_from_global_tile_and_tile_element t.col te.col⟩
/-- distribution.h:356-361 -/
def tile_element_index (d : Distribution) (e : Coord2) : Coord2 :=
  ⟨d.row.tile_element_from_global_element e.row, d.col.tile_element_from_global_element e.col⟩
/-- distribution.h:366-369 -/
def tile_size_of (d : Distribution) (t : Coord2) : Coord2 :=
  ⟨d.row.global_tile_size_of t.row, d.col.global_tile_size_of t.col⟩
/-- distribution_extensions.h:225-228 -/
def local_tile_linear_index (d : Distribution) (ij : Coord2) : Int :=
  ij.row + ij.col * d.row.localNrTiles
/-- distribution_extensions.h:231-235 -/
def global_tile_linear_index (d : Distribution) (ij : Coord2) : Int :=
  let tile_i := d.global_tile_index ij
  tile_i.row + tile_i.col * d.row.nrTiles

end Distribution
end DLAF
