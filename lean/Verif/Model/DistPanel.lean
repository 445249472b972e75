import Verif.Model.Panel
import Verif.Model.Spmd
import Verif.Model.Kernels
/-
Panels with the contents of their tiles, and the panel broadcasts of include/dlaf/communication/broadcast_panel.h.
-/
namespace DLAF
section
variable {K : Type*}

/-- A panel (Model/Panel.lean) and the elements of its internal tiles.  `tall`: tiles have the panel's `coord` extent
as number of rows (`Panel<Col>`, and `Panel<Row, StoreTransposed::Yes>`, which is stored as a `Panel<Col>`,
panel.h:478-490), otherwise as number of columns.
`mem k = none`: internal tile `k` has not been written since the last `reset`; reading it is an error of the model
(the memory holds stale data). -/
structure VPanel (K : Type*) where
  p : Panel (Blk K)
  tall : Bool
  mem : Nat → Option (Blk K)

namespace VPanel

/-- A tile has the size (extent along `axis`, extent along `coord`). -/
def fits (tall : Bool) (b : Blk K) (ax co : Int) : Bool :=
  if tall then (b.rows : Int) = co && (b.cols : Int) = ax else (b.rows : Int) = ax && (b.cols : Int) = co

/-- Distribution of a panel with `StoreTransposed::Yes` along its `coord`: `transposeDist`, panel.h:485-489. -/
def transposeDist (d : Dist1) : Dist1 := Dist1.build d.size d.tileSize d.tileSize d.grid d.rank d.src 0

/-- Constructor (start = 0), panel.h:407-422. -/
def create (tall : Bool) (d : Dist1) (axisTile : Int) : Option (VPanel K) :=
  (Panel.create d axisTile 0).map fun p => ⟨p, tall, fun _ => none⟩

/-- `read` of an index and of the elements, panel.h:115-137. -/
def read (dbg : Bool) (v : VPanel K) (idx : Int) : Option (VPanel K × Blk K) :=
  (v.p.read dbg idx).bind fun r =>
    match r.2 with
    | .external b => some ({ v with p := r.1 }, b)
    | .tile k ax co =>
      (v.mem k).bind fun b => if fits v.tall b ax co then some ({ v with p := r.1 }, b) else none
    | _ => none

/-- `readwrite` of an index, and overwriting the whole tile, panel.h:606-621. -/
def write (dbg : Bool) (v : VPanel K) (idx : Int) (b : Blk K) : Option (VPanel K) :=
  (v.p.readwrite dbg idx).bind fun r =>
    match r.2 with
    | .tile k ax co => if fits v.tall b ax co then some { v with p := r.1, mem := set1 v.mem k (some b) } else none
    | _ => none

/-- `setTile`, panel.h:88-108, with its (asynchronous, Debug only) size check. -/
def setTile (dbg : Bool) (v : VPanel K) (idx : Int) (b : Blk K) : Option (VPanel K) :=
  let sz := v.p.tileSize idx
  if fits v.tall b sz.1 sz.2 then (v.p.setTile dbg idx b).map fun p => { v with p := p } else none

/-- `reset`, panel.h:295-305. -/
def reset (v : VPanel K) : VPanel K := { v with p := v.p.reset, mem := fun _ => none }

/-- `setRange`, panel.h:149-155. -/
def setRange (dbg : Bool) (v : VPanel K) (s e : Int) : Option (VPanel K) :=
  (v.p.setRange dbg s e).map fun p => { v with p := p }

/-- `setRangeStart(GlobalTileIndex)`, panel.h:165-176. -/
def setRangeStart (dbg : Bool) (v : VPanel K) (s : Int) : Option (VPanel K) :=
  (v.p.setRangeStartTile dbg s).map fun p => { v with p := p }

end VPanel

/-- A panel as a part of a process state. -/
structure PRef (S K : Type*) where
  get : S → VPanel K
  set : S → VPanel K → S

/-- `for (SizeType i = a; i < b; ++i)` over integers. -/
def irange (a b : Int) : List Int := (List.range (b - a).toNat).map fun i : Nat => a + (i : Int)

/-- `orthogonal`, common/index2d.h. -/
def Coord.orth : Coord → Coord
  | .Row => .Col
  | .Col => .Row

/-- The communicator of the process orthogonal to a panel: `CommunicatorPipeline<coord_to_communicator_type(orthogonal(axis))>`,
broadcast_panel.h:43-45: the row communicator for a column panel. -/
def panelChan (axis : Coord) (me : Coord2) : Chan :=
  match axis with
  | .Col => .row me.row
  | .Row => .col me.col

section
variable {S : Type*}

/-- Work on a panel of the state. -/
def PRef.upd (R : PRef S K) (f : VPanel K → Option (VPanel K)) (s : S) : Option S := (f (R.get s)).map (R.set s)

/-- `read` on a panel of the state. -/
def PRef.read (R : PRef S K) (dbg : Bool) (idx : Int) (s : S) : Option (S × Blk K) :=
  ((R.get s).read dbg idx).map fun r => (R.set s r.1, r.2)

/-- The range of the panel is the one that the model's program uses for its loops (not in the code: there the loops
use the panel's own range). -/
def PRef.hasRange (R : PRef S K) (st en : Int) (s : S) : Option S :=
  if (R.get s).p.start = st ∧ (R.get s).p.stop = en then some s else none

/-- `broadcast(rank_root, panel, serial_comm)`, broadcast_panel.h:43-65, on the process with distribution `d`;
`[st, en)` is the range of the panel. -/
def bcastPanel (dbg : Bool) (axis : Coord) (d : Distribution) (root : Int) (R : PRef S K) (st en : Int) :
    List (Instr S (Blk K)) :=
  let me : Coord2 := ⟨d.row.rank, d.col.rank⟩
  let ch := panelChan axis me
  let dc := d.get axis.orth
  [.loc (R.hasRange st en)] ++
  if (d.get axis).grid ≤ 1 then []
  else (irange (dc.next_local_tile_from_global_tile st) (dc.next_local_tile_from_global_tile en)).flatMap fun i =>
    if (d.get axis).rank = root then bcastSend ch root (R.read dbg i)
    else bcastRecv ch root fun s b => R.upd (fun v => v.write dbg i b) s

/-- One iteration of STEP 2 of the two-panel broadcast, broadcast_panel.h:155-183. -/
def bcastTransposed (dbg : Bool) (axis : Coord) (d : Distribution) (R RT : PRef S K) (k : Int) :
    List (Instr S (Blk K)) :=
  let me : Coord2 := ⟨d.row.rank, d.col.rank⟩
  let dc := d.get axis.orth          -- coord
  let dT := d.get axis               -- coordT
  let ch := panelChan axis.orth me
  if dT.rank_global_tile k = dT.rank then
    let kT := dT.local_tile_from_global_tile k
    if dc.rank_global_tile k = dc.rank then
      [.loc fun s => (R.read dbg (dc.local_tile_from_global_tile k) s).bind fun sb =>
        RT.upd (fun v => v.setTile dbg kT sb.2) sb.1] ++
      if dc.grid > 1 then bcastSend ch dc.rank (RT.read dbg kT) else []
    else if dc.grid > 1 then bcastRecv ch (dc.rank_global_tile k) fun s b => RT.upd (fun v => v.write dbg kT b) s
    else []
  else []

/-- `broadcast(rank_root, panel, panelT, row_task_chain, col_task_chain)`, broadcast_panel.h:107-185; `[st, en)` is the
range of `panel`, `[sT, eT)` that of `panelT`. -/
def bcastPanels (dbg : Bool) (axis : Coord) (d : Distribution) (root : Int) (R RT : PRef S K) (st en sT eT : Int) :
    List (Instr S (Blk K)) :=
  [.loc (R.hasRange st en), .loc (RT.hasRange sT eT),
   .loc fun s => if d.row.size = d.col.size ∧ d.row.tileSize = d.col.tileSize ∧ st ≤ sT ∧ eT ≤ en then some s else none] ++
  if st = en then []
  else bcastPanel dbg axis d root R st en ++ (irange sT eT).flatMap (bcastTransposed dbg axis d R RT)

end
end
end DLAF
