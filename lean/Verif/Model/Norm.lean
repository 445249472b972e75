import Mathlib.Order.Lattice
import Mathlib.Order.Defs.LinearOrder
import Verif.Model.Memory
import Verif.Model.Kernels
import Verif.Spec.Spmd
/-
Model of the max norm: include/dlaf/auxiliary/norm.h, include/dlaf/auxiliary/norm/mc.h, and the tile kernels `lange` and
`lantr` of include/dlaf/lapack/tile.h:386-410.

`N` is the type of the norms, a linear order with a zero (no NaN).  `absv` is the absolute value of an element.
`none` is an assertion failure on some process, which ends the whole run.
-/
namespace DLAF
variable {K N : Type} [LinearOrder N] [Zero N]

/-- The accumulation of LAPACK's norm routines: start with 0, keep the maximum. -/
def maxFrom0 (l : List N) : N := l.foldl max 0

/-- `lange(Norm::Max, a)`, lapack/tile.h:386-390; the LAPACK routine returns 0 for an empty tile. -/
def langeMax (absv : K → N) (b : Blk K) : N :=
  maxFrom0 ((List.range b.cols).flatMap fun j => (List.range b.rows).map fun i => absv (b.e i j))

/-- `lantr(Norm::Max, Lower, NonUnit, a)`, lapack/tile.h:392-408, with its assertion `rows >= cols`. -/
def lantrMaxLower (absv : K → N) (b : Blk K) : Option N :=
  if b.cols ≤ b.rows then
    some (maxFrom0 ((List.range b.cols).flatMap fun j =>
      ((List.range b.rows).filter fun i => decide (j ≤ i)).map fun i => absv (b.e i j)))
  else none

/-- `max_element`, norm/mc.h:28-32, with its assertion. -/
def maxElement : List N → Option N
  | [] => none
  | x :: xs => some (xs.foldl max x)

/-- The norm of a local tile in `max_L`, norm/mc.h:88-104: nothing for a tile above the diagonal. -/
def tileMaxLower (absv : K → N) (d : Distribution) (tile : Coord2 → Blk K) (c : Nat × Nat) : Option (Option N) :=
  let row := d.row.global_tile_from_local_tile c.1
  let col := d.col.global_tile_from_local_tile c.2
  if row < col then some none
  else if row = col then (lantrMaxLower absv (tile ⟨c.1, c.2⟩)).map some
  else some (some (langeMax absv (tile ⟨c.1, c.2⟩)))

/-- `local_max_value`, norm/mc.h:108-116 (= 155-163). -/
def localMax (tiles_max : List N) : Option N :=
  if tiles_max.isEmpty then some 0 else maxElement tiles_max

/-- The value a process contributes in `max_L`, norm/mc.h:81-116. -/
def localMaxLower (absv : K → N) (d : Distribution) (tile : Coord2 → Blk K) : Option N :=
  (mapOpt (tileMaxLower absv d tile) (localTiles d)).bind fun l => localMax (l.filterMap id)

/-- The value a process contributes in `max_G`, norm/mc.h:142-163. -/
def localMaxGeneral (absv : K → N) (d : Distribution) (tile : Coord2 → Blk K) : Option N :=
  localMax ((localTiles d).map fun c => langeMax absv (tile ⟨c.1, c.2⟩))

/-- `reduce_in_place(..., rank, MPI_MAX, value)`, norm/mc.h:34-56: the root gets the maximum of the contributions of all
processes (MPI contract), the others keep their own. -/
def reduceMax (ranks : List Coord2) (root : Coord2) (value : Coord2 → Option N) : Option (Coord2 → N) :=
  (mapOpt value ranks).bind fun l => (maxElement l).bind fun m =>
    some fun r => if r = root then m else (value r).getD 0

/-- `blas::Uplo` as a parameter of `max_norm`. -/
inductive NormUplo | Lower | Upper | General
deriving DecidableEq

/-- `max_norm`, norm.h:39-65, on all the processes of the grid of the matrix: the value each process returns.  The
assertions of `max_L` (norm/mc.h:83-84) are part of it.  `DLAF_UNIMPLEMENTED` aborts.  (`equal_process_grid` holds by
construction: the matrix is distributed on the grid `P`.) -/
def maxNorm (absv : K → N) (P : Params2) (uplo : NormUplo) (root : Coord2) (tile : Coord2 → Coord2 → Blk K) :
    Option (Coord2 → N) :=
  if ¬ (P.row.block = P.row.tile ∧ P.col.block = P.col.tile) then none
  else if P.row.size = 0 ∨ P.col.size = 0 then some fun _ => 0
  else match uplo with
    | .Lower =>
      if P.row.size = P.col.size ∧ P.row.tile = P.col.tile then
        reduceMax P.ranks root fun r => localMaxLower absv (P.on r) (tile r)
      else none
    | .Upper => none
    | .General => reduceMax P.ranks root fun r => localMaxGeneral absv (P.on r) (tile r)

end DLAF
