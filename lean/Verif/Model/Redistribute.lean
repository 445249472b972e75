import Verif.Model.Retile
/-
Model of the redistributing copy `dlaf::matrix::copy(src, dst, grid)`, include/dlaf/matrix/copy.h:128-221,
and of the matching rule of MPI point-to-point messages.

All the ranks of the grid run the same function; rank `r` (row, column) sees the distributions
`sd r`, `dd r` of the retiled source and destination (copy.h:177-178).  The sends and receives are
detached tasks on a *shared* communicator (copy.h:205-206, 217-218), so on each rank they may reach MPI in
any order: an execution is described by the order in which they are issued on each rank.
Simplification: the contents of a tile are a function of the element in the tile; GPU/CPU staging of the
messages is the subject of C23; the conversion of the tag to `int` is unbounded.
-/
namespace DLAF

/-- Contents of a tile: its size and its elements. -/
structure TileVal (E : Type) where
  rows : Int
  cols : Int
  el : Int → Int → E

/-- A message handed to MPI by `schedule_send` (kernels/p2p.h:28-31): destination, tag, contents. -/
structure Send (E : Type) where
  dest : Coord2
  tag : Int
  payload : TileVal E

/-- A receive handed to MPI by `schedule_recv` (kernels/p2p.h:44-47): source, tag, local tile written. -/
structure Recv where
  source : Coord2
  tag : Int
  slot : Coord2
deriving DecidableEq

/-- MPI's matching rule on one receiving rank (MPI standard, non-overtaking messages): `q s t` are the
messages sent to this rank by `s` with tag `t` in the order they were issued; each receive, in the order
they are issued, takes the oldest one left; `none` = no message ever arrives. -/
def matchAll {V : Type} : (Coord2 → Int → List V) → List Recv → List (Coord2 × Option V)
  | _, [] => []
  | q, r :: rs =>
    match q r.source r.tag with
    | [] => (r.slot, none) :: matchAll q rs
    | v :: vs => (r.slot, some v) ::
        matchAll (fun s t => if s = r.source ∧ t = r.tag then vs else q s t) rs

/-- The messages sent by one rank to `me` with tag `t`, in issue order. -/
def inFlight {E : Type} (sent : List (Send E)) (me : Coord2) (t : Int) : List (TileVal E) :=
  (sent.filter fun s => s.dest = me ∧ s.tag = t).map (·.payload)

/-- Contents of local tile `lt` of a matrix with distribution `d` whose local elements are `st`
(the elements of a tile are those of C11/C14). -/
def readTile {E : Type} (d : Distribution) (st : Int → Int → E) (lt : Coord2) : TileVal E where
  rows := d.row.local_tile_size_of lt.row
  cols := d.col.local_tile_size_of lt.col
  el := fun a b => st (d.row.local_element_from_local_tile_and_tile_element lt.row a)
    (d.col.local_element_from_local_tile_and_tile_element lt.col b)

/-- copy.h:182-191, the tag of tile `ij`: `ij.row() + ij.col() * ld` with the *global* indices `ij` and
`ld = ceilDiv(nrTiles().rows(), grid rows)` (the local index `source_ij_lc` is computed but not used). -/
def copyTag (sd : Distribution) (ij : Coord2) : Int :=
  ij.row + ij.col * ceilDiv sd.row.nrTiles sd.row.grid

/-- The rank this distribution object lives on. -/
def Distribution.rankIndex (d : Distribution) : Coord2 := ⟨d.row.rank, d.col.rank⟩

/-- The local tiles in the order of `iterate_range2d(localNrTiles())` (C09: column-major). -/
def localTileIdx (d : Distribution) : List Coord2 := (localTiles d).map fun t => ⟨t.1, t.2⟩

/-- First loop, copy.h:193-207: the sends of one rank. -/
def copySends {E : Type} (sd dd : Distribution) (st : Int → Int → E) : List (Send E) :=
  (localTileIdx sd).filterMap fun lt =>
    let ij := sd.global_tile_index_of_local lt
    let src_is_mine : Bool := sd.rankIndex = sd.rank_global_tile ij
    let dst_is_mine : Bool := sd.rankIndex = dd.rank_global_tile ij
    if src_is_mine ≠ dst_is_mine then some ⟨dd.rank_global_tile ij, copyTag sd ij, readTile sd st lt⟩ else none

/-- Second loop, copy.h:210-220, receives. -/
def copyRecvs (sd dd : Distribution) : List Recv :=
  (localTileIdx dd).filterMap fun lt =>
    let ij := dd.global_tile_index_of_local lt
    let src_is_mine : Bool := dd.rankIndex = sd.rank_global_tile ij
    let dst_is_mine : Bool := dd.rankIndex = dd.rank_global_tile ij
    if src_is_mine = dst_is_mine then none else some ⟨sd.rank_global_tile ij, copyTag sd ij, lt⟩

/-- Second loop, copy.h:210-216, local copies: destination tile and contents. -/
def copyLocals {E : Type} (sd dd : Distribution) (st : Int → Int → E) : List (Coord2 × TileVal E) :=
  (localTileIdx dd).filterMap fun lt =>
    let ij := dd.global_tile_index_of_local lt
    let src_is_mine : Bool := dd.rankIndex = sd.rank_global_tile ij
    let dst_is_mine : Bool := dd.rankIndex = dd.rank_global_tile ij
    if src_is_mine = dst_is_mine then some (lt, readTile sd st (sd.local_tile_index ij)) else none

/-- copy.h:163-178: the distributions of the two retiled views; `mb`, `nb` are the smaller tile sizes and
the scale factors the numbers of small tiles per tile. -/
def copyRetiled (src dst : Distribution) : Distribution × Distribution :=
  let mb := min src.row.tileSize dst.row.tileSize
  let nb := min src.col.tileSize dst.col.tileSize
  (⟨src.row.retiled (cdiv src.row.tileSize mb), src.col.retiled (cdiv src.col.tileSize nb)⟩,
   ⟨dst.row.retiled (cdiv dst.row.tileSize mb), dst.col.retiled (cdiv dst.col.tileSize nb)⟩)

/-- An execution of the copy by all the ranks: the order in which each rank issued its messages. -/
structure CopyRun (E : Type) where
  sent : Coord2 → List (Send E)
  received : Coord2 → List Recv

/-- The writes to the destination tiles on rank `me`; `none` = the receive never completes. -/
def CopyRun.writes {E : Type} (x : CopyRun E) (sd dd : Distribution) (st : Int → Int → E) (me : Coord2) :
    List (Coord2 × Option (TileVal E)) :=
  (copyLocals sd dd st).map (fun w => (w.1, some w.2)) ++
    matchAll (fun s t => inFlight (x.sent s) me t) (x.received me)

/-- Value of local element (i, j) of the destination when everything is done; `none` if its tile was
written not exactly once, never received, or with contents of another size. -/
def CopyRun.result {E : Type} (x : CopyRun E) (sd dd : Distribution) (st : Int → Int → E) (me : Coord2)
    (i j : Int) : Option E :=
  let lt : Coord2 := ⟨dd.row.local_tile_from_local_element i, dd.col.local_tile_from_local_element j⟩
  match (x.writes sd dd st me).filter (fun w => w.1 = lt) with
  | [(_, some v)] =>
    if v.rows = dd.row.local_tile_size_of lt.row ∧ v.cols = dd.col.local_tile_size_of lt.col then
      some (v.el (dd.row.tile_element_from_local_element i) (dd.col.tile_element_from_local_element j))
    else none
  | _ => none

end DLAF
