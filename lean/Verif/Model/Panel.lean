import Verif.Model.Dist
import Mathlib.Tactic.TypeStar
/-
Model of include/dlaf/matrix/panel.h on one process.

A panel is one-dimensional: `Panel<axis>` extends along `coord = orthogonal(axis)`; every member and
every index is used only in its `coord` component, and the axis only through `tile_size().get<axis>()`.
So the model takes the distribution along `coord` and the tile size along `axis`.
External tiles are values of a type `V` (senders to tiles of other owners); an internal tile is named by its
position in `data_`, its element values are not part of this model.
-/
namespace DLAF

/-- `Panel`, members panel.h:454-480 (`data_` is represented by the distribution of its `coord` dimension). -/
structure Panel (V : Type*) where
  dist : Dist1
  axisTile : Int
  data : Dist1
  bias : Int
  start : Int
  startLocal : Int
  stop : Int
  stopLocal : Int
  dim : Int
  startOffset : Int
  offsetElement : Int
  used : Bool
  external : List (Option V)
  internal : List Nat

namespace Panel
variable {V : Type*}

/-- `isBoundToMatrixWithOffset`, panel.h:310-312, along `coord` (the axis offset is not represented: with an offset along `axis` only and no
`dim_`, `read` and `readwrite` (panel.h:129-133, 617-620) take a part of the tile as large as the tile instead of the tile; the model takes the tile;
the range setters, which an axis offset makes abort, are only used in algorithms for matrices without offset). -/
def isBoundToMatrixWithOffset (p : Panel V) : Bool := p.dist.offset ≠ 0

/-- `initRange`, panel.h:324-336; `none` = assertion failure. -/
def initRange (p : Panel V) (s e : Int) : Option (Panel V) :=
  let p := { p with start := s, startLocal := p.dist.next_local_tile_from_global_tile s,
                    offsetElement := s * p.dist.tileSize, stop := e,
                    stopLocal := p.dist.next_local_tile_from_global_tile e }
  if p.start ≤ p.stop ∧ p.bias ≤ p.startLocal ∧ p.stop ≤ p.dist.nrTiles then some p else none

/-- `setupInternalMatrix`, panel.h:373-397, with `computePanelSize` 351-369: the distribution of the internal
matrix along `coord`; `none` = assertion failure (also those of the `Distribution` constructor,
distribution.cpp:28-29). -/
def setupInternal (d : Dist1) (s : Int) : Option Dist1 :=
  if s = 0 ∨ d.offset = 0 then
    let panel_size := d.localSize - d.next_local_tile_from_global_tile s * d.tileSize
    let panel_size := if d.src = d.rank then panel_size + d.offset else panel_size
    if 0 ≤ panel_size ∧ d.tileSize ≠ 0 then some (Dist1.buildLocal panel_size d.tileSize 0) else none
  else none

/-- Constructor, panel.h:407-422; `none` = assertion failure. -/
def create (d : Dist1) (axisTile s : Int) : Option (Panel V) :=
  (setupInternal d s).bind fun data =>
    if d.blockSize = d.tileSize then
      initRange { dist := d, axisTile := axisTile, data := data,
                  bias := d.next_local_tile_from_global_tile s, start := 0, startLocal := 0, stop := 0,
                  stopLocal := 0, dim := -1, startOffset := 0, offsetElement := 0, used := false,
                  external := List.replicate data.nrTiles.toNat none, internal := [] } s d.nrTiles
    else none

/-- `linearIndex`, panel.h:425-431; the range check is a `DLAF_ASSERT_MODERATE` (`moderate`: Debug builds);
in Release builds a position outside the vectors is undefined behaviour (`none`). -/
def linearIndex (moderate : Bool) (p : Panel V) (idx : Int) : Option Nat :=
  if moderate && !(p.startLocal ≤ idx && idx < p.stopLocal) then none
  else if 0 ≤ idx - p.bias ∧ idx - p.bias < p.external.length then some (idx - p.bias).toNat
  else none

/-- `isFirstGlobalTile`, panel.h:318-322 -/
def isFirstGlobalTile (p : Panel V) (idx : Int) : Bool :=
  decide (p.dist.rank_global_tile p.start = p.dist.rank) && decide (p.startLocal = idx)

/-- `isFirstGlobalTileFull`, panel.h:314-316 -/
def isFirstGlobalTileFull (p : Panel V) : Bool := decide (p.startOffset = 0) && !p.isBoundToMatrixWithOffset

/-- `tileSize`, panel.h:338-349: (size along axis, size along coord). -/
def tileSize (p : Panel V) (idx : Int) : Int × Int :=
  (if p.dim < 0 then p.axisTile else p.dim,
   p.dist.global_tile_size_of (p.dist.global_tile_from_local_tile idx) -
     (if p.isFirstGlobalTile idx then p.startOffset else 0))

/-- What a call returns. -/
inductive Obs (V : Type*)
  | done
  | external (v : V)
  | tile (pos : Nat) (axisSize coordSize : Int)
  | index (i : Int)
deriving DecidableEq

/-- The internal tile handed out by `read`/`readwrite`, panel.h:127-135, 615-620: the whole tile of `data_`, or
the leading sub-tile of size `tileSize(index)` (`none`: sub-tile assertion). -/
def internalTile (p : Panel V) (idx : Int) (k : Nat) : Option (Obs V) :=
  if decide (p.dim < 0) && (p.isFirstGlobalTile idx && p.isFirstGlobalTileFull) then
    some (.tile k p.axisTile (p.data.local_tile_size_of k))
  else
    let sz := p.tileSize idx
    if (0 ≤ sz.1 ∧ sz.1 ≤ p.axisTile) ∧ (0 ≤ sz.2 ∧ sz.2 ≤ p.data.local_tile_size_of k) then
      some (.tile k sz.1 sz.2)
    else none

/-- The calls of the interface (indices are the `coord` component). -/
inductive Op (V : Type*)
  | setRange (s e : Int)
  | setRangeStartTile (s : Int)
  | setRangeStartElement (e : Int)
  | setRangeEnd (e : Int)
  | setDim (w : Int)              -- setWidth of a column panel, setHeight of a row panel
  | setTile (idx : Int) (v : V)
  | read (idx : Int)
  | readwrite (idx : Int)
  | reset
  | rangeStart | rangeEnd | rangeStartLocal | rangeEndLocal | offsetElement | getDim

/-- `setRange`, panel.h:149-155. -/
def setRange (moderate : Bool) (p : Panel V) (s e : Int) : Option (Panel V) :=
  if (moderate && p.used) || p.isBoundToMatrixWithOffset then none else p.initRange s e

/-- `setRangeStart(GlobalTileIndex)`, panel.h:165-176. -/
def setRangeStartTile (moderate : Bool) (p : Panel V) (s : Int) : Option (Panel V) :=
  if (moderate && p.used) || p.isBoundToMatrixWithOffset then none
  else
    let p := { p with start := s, startLocal := p.dist.next_local_tile_from_global_tile s,
                      offsetElement := s * p.dist.tileSize }
    if p.bias ≤ p.startLocal ∧ p.start ≤ p.stop then some p else none

/-- `setRangeStart(GlobalElementIndex)`, panel.h:178-195. -/
def setRangeStartElement (moderate : Bool) (p : Panel V) (e : Int) : Option (Panel V) :=
  if (moderate && p.used) || p.isBoundToMatrixWithOffset then none
  else
    let t := p.dist.global_tile_from_global_element e
    let p := { p with start := t, startLocal := p.dist.next_local_tile_from_global_tile t,
                      offsetElement := e }
    let p := if p.dist.rank_global_tile p.start = p.dist.rank then
        { p with startOffset := p.dist.tile_element_from_global_element e } else p
    if p.bias ≤ p.startLocal ∧ p.start ≤ p.stop then some p else none

/-- `setRangeEnd`, panel.h:204-214. -/
def setRangeEnd (moderate : Bool) (p : Panel V) (e : Int) : Option (Panel V) :=
  if (moderate && p.used) || p.isBoundToMatrixWithOffset then none
  else
    let p := { p with stop := e, stopLocal := p.dist.next_local_tile_from_global_tile e }
    if p.start ≤ p.stop ∧ p.stop ≤ p.dist.nrTiles then some p else none

/-- `setWidth` / `setHeight`, panel.h:251-258, 269-276. -/
def setDim (moderate : Bool) (p : Panel V) (w : Int) : Option (Panel V) :=
  if (moderate && p.used) || !(0 < w && w ≤ p.axisTile) then none else some { p with dim := w }

/-- `setTile`, panel.h:88-108 (the asynchronous size check of Debug builds is not modelled). -/
def setTile (moderate : Bool) (p : Panel V) (idx : Int) (v : V) : Option (Panel V) :=
  (p.linearIndex moderate idx).bind fun k =>
    if k ∈ p.internal ∨ (p.external[k]?.join).isSome then none
    else some { p with used := true, external := p.external.set k (some v) }

/-- `read`, panel.h:115-137. -/
def read (moderate : Bool) (p : Panel V) (idx : Int) : Option (Panel V × Obs V) :=
  (p.linearIndex moderate idx).bind fun k =>
    match p.external[k]?.join with
    | some v => some ({ p with used := true }, .external v)
    | none =>
      let p := { p with used := true, internal := k :: p.internal }
      (p.internalTile idx k).map fun o => (p, o)

/-- `readwrite`, panel.h:606-621. -/
def readwrite (moderate : Bool) (p : Panel V) (idx : Int) : Option (Panel V × Obs V) :=
  (p.linearIndex moderate idx).bind fun k =>
    if (p.external[k]?.join).isSome then none
    else
      let p := { p with used := true, internal := k :: p.internal }
      (p.internalTile idx k).map fun o => (p, o)

/-- `reset`, panel.h:295-305 (`start_detached(std::move(e))` leaves `e` empty). -/
def reset (p : Panel V) : Panel V :=
  { p with external := p.external.map fun _ => none, internal := [], dim := -1, used := false }

/-- One call; `none` = assertion failure or undefined behaviour. -/
def step (moderate : Bool) (p : Panel V) : Op V → Option (Panel V × Obs V)
  | .setRange s e => (p.setRange moderate s e).map (·, .done)
  | .setRangeStartTile s => (p.setRangeStartTile moderate s).map (·, .done)
  | .setRangeStartElement e => (p.setRangeStartElement moderate e).map (·, .done)
  | .setRangeEnd e => (p.setRangeEnd moderate e).map (·, .done)
  | .setDim w => (p.setDim moderate w).map (·, .done)
  | .setTile i v => (p.setTile moderate i v).map (·, .done)
  | .read i => p.read moderate i
  | .readwrite i => p.readwrite moderate i
  | .reset => some (p.reset, .done)
  | .rangeStart => some (p, .index p.start)              -- panel.h:217-219
  | .rangeEnd => some (p, .index p.stop)                 -- panel.h:222-224
  | .rangeStartLocal => some (p, .index p.startLocal)    -- panel.h:227-229
  | .rangeEndLocal => some (p, .index p.stopLocal)       -- panel.h:232-234
  | .offsetElement => some (p, .index p.offsetElement)   -- panel.h:239-241
  | .getDim => some (p, .index (if p.dim < 0 then p.axisTile else p.dim))  -- panel.h:279-287

/-- A sequence of calls: the final state and what each call returned; `none` as soon as one aborts. -/
def run (moderate : Bool) : Panel V → List (Op V) → Option (Panel V × List (Obs V))
  | p, [] => some (p, [])
  | p, o :: os => (p.step moderate o).bind fun r => (run moderate r.1 os).map fun s => (s.1, r.2 :: s.2)

/-- What the calls returned (the observable behaviour). -/
def behaviour (moderate : Bool) (p : Panel V) (os : List (Op V)) : Option (List (Obs V)) :=
  (run moderate p os).map Prod.snd

end Panel
end DLAF
