/-
Model of include/dlaf/matrix/util_distribution.h and of `ceilDiv` in include/dlaf/util_math.h.

`SizeType` (64-bit signed) and `int` are modelled by unbounded `Int`; C++ `/` and `%` on signed
integers are truncating division and remainder, `Int.tdiv` and `Int.tmod`.  The
`DLAF_ASSERT_HEAVY` checks are the preconditions of each function (collected in
`Verif.Spec.Dist`); the functions here compute what the C++ function computes after them.
-/
namespace DLAF

/-- C++ signed integer division `a / b` (truncating). -/
abbrev cdiv (a b : Int) : Int := Int.tdiv a b
/-- C++ signed integer remainder `a % b` (truncating). -/
abbrev cmod (a b : Int) : Int := Int.tmod a b

/-- include/dlaf/util_math.h:82-86 `ceilDiv(num, den) = (num + den - 1) / den`. -/
def ceilDiv (num den : Int) : Int := cdiv (num + den - 1) den

namespace util

/-- util_distribution.h:29-34 `tile_from_element`. -/
def tile_from_element (element tile_size tile_el_offset : Int) : Int :=
  cdiv (element + tile_el_offset) tile_size

/-- util_distribution.h:42-53 `tile_element_from_element`. -/
def tile_element_from_element (element tile_size tile_el_offset : Int) : Int :=
  let element := element + tile_el_offset
  let tile_element := cmod element tile_size
  if element < tile_size then tile_element - tile_el_offset else tile_element

/-- util_distribution.h:64-73 `element_from_tile_and_tile_element`. -/
def element_from_tile_and_tile_element (tile tile_element tile_size tile_el_offset : Int) : Int :=
  tile * tile_size + tile_element - (if tile > 0 then tile_el_offset else 0)

/-- util_distribution.h:82-92 `rank_global_tile`. -/
def rank_global_tile (global_tile tiles_per_block grid_size src_rank tile_offset : Int) : Int :=
  let global_block := cdiv (global_tile + tile_offset) tiles_per_block
  cmod (global_block + src_rank) grid_size

/-- util_distribution.h:103-126 `local_tile_from_global_tile`. -/
def local_tile_from_global_tile
    (global_tile tiles_per_block grid_size rank src_rank tile_offset : Int) : Int :=
  if rank = rank_global_tile global_tile tiles_per_block grid_size src_rank tile_offset then
    let global_tile := global_tile + tile_offset
    let local_block := cdiv (cdiv global_tile tiles_per_block) grid_size
    local_block * tiles_per_block + cmod global_tile tiles_per_block
      - (if rank = src_rank then tile_offset else 0)
  else -1

/-- util_distribution.h:138-166 `next_local_tile_from_global_tile`. -/
def next_local_tile_from_global_tile
    (global_tile tiles_per_block grid_size rank src_rank tile_offset : Int) : Int :=
  let rank_to_src := cmod (rank + grid_size - src_rank) grid_size
  let global_tile := global_tile + tile_offset
  let global_block := cdiv global_tile tiles_per_block
  let owner_to_src := cmod global_block grid_size
  let local_block := cdiv global_block grid_size
  let first := if rank = src_rank then tile_offset else 0
  if rank_to_src = owner_to_src then
    local_block * tiles_per_block + cmod global_tile tiles_per_block - first
  else
    let local_block := if rank_to_src < owner_to_src then local_block + 1 else local_block
    local_block * tiles_per_block - first

/-- util_distribution.h:177-196 `global_tile_from_local_tile`. -/
def global_tile_from_local_tile
    (local_tile tiles_per_block grid_size rank src_rank tile_offset : Int) : Int :=
  let local_tile := if rank = src_rank then local_tile + tile_offset else local_tile
  let rank_to_src := cmod (rank + grid_size - src_rank) grid_size
  let local_block := cdiv local_tile tiles_per_block
  (grid_size * local_block + rank_to_src) * tiles_per_block + cmod local_tile tiles_per_block
    - tile_offset

end util
end DLAF
