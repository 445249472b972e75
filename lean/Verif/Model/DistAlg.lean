import Verif.Model.DistPanel
import Verif.Model.DistCholesky
/-
What the distributed algorithms on tiled matrices are made of: the tiles and panels of a process, tasks on tiles, links of matrix tiles into
panels, panels with a smaller extent, and reductions of panel tiles.

Simplifications: a panel that refers to a tile of the matrix (`setTile(.., mat.read(..))`) holds the value of the tile at that point of the
program order (C15: this is what the reader gets).
-/
namespace DLAF
section
variable {K : Type*}

/-- `setWidth` of a column panel, `setHeight` of a row panel, panel.h:251-258, 269-276. -/
def VPanel.setDim (dbg : Bool) (v : VPanel K) (w : Int) : Option (VPanel K) := (v.p.setDim dbg w).map fun p => { v with p := p }

/-- The internal tiles that have not been written hold what the memory contains, which is not initialized: `matrix/panel.h` allocates
without initialization, and a panel is reused without being cleared. -/
def VPanel.fill (junk : Nat → Nat → Nat → K) (v : VPanel K) : VPanel K :=
  { v with mem := fun k => some ((v.mem k).getD (if v.tall then
      ⟨(v.p.tileSize (k + v.p.bias)).2.toNat, (v.p.tileSize (k + v.p.bias)).1.toNat, junk k⟩
    else ⟨(v.p.tileSize (k + v.p.bias)).1.toNat, (v.p.tileSize (k + v.p.bias)).2.toNat, junk k⟩)) }

/-- What a process holds: the local tiles of the matrices of the algorithm (by local tile index), and the two workspaces of each
`RoundRobin<Panel>` (`n_workspaces = 2`). -/
structure DSt (K : Type*) where
  mat : Nat → Coord2 → Blk K
  pan : Nat → Bool → VPanel K

/-- Which workspace `nextResource()` returns in iteration `it`: `RoundRobin` starts at 0 and increments before use
(common/round_robin.h:31-35). -/
def rrIdx (it : Int) : Bool := decide ((it + 1) % 2 = 1)

/-- The `n`-th panel in iteration `it`. -/
def DSt.panel (n : Nat) (it : Int) : PRef (DSt K) K :=
  ⟨fun s => s.pan n (rrIdx it), fun s v => { s with pan := set1 s.pan n (set1 (s.pan n) (rrIdx it) v) }⟩

/-- `readwrite(idx)` of matrix `n` and a task on the tile. -/
def DSt.task (n : Nat) (idx : Coord2) (f : Blk K → Option (Blk K)) (s : DSt K) : Option (DSt K) :=
  (f (s.mat n idx)).map fun b => { s with mat := set1 s.mat n (set1 (s.mat n) idx b) }

/-- `panel.setTile(i, mat.read(idx))`. -/
def DSt.link (R : PRef (DSt K) K) (dbg : Bool) (i : Int) (n : Nat) (idx : Coord2) (s : DSt K) : Option (DSt K) :=
  R.upd (fun v => v.setTile dbg i (s.mat n idx)) s

/-- A loop over `a, ..., b - 1` in increasing or decreasing order. -/
def dirRange (up : Bool) (a b : Int) : List Int := if up then irange a b else (irange a b).reverse

/-- `Panel<Col>` has tiles with the extent of the `coord` as rows. -/
def isTall : Coord → Bool
  | .Col => true
  | .Row => false

/-- Two workspaces of `Panel<axis>(dist)`. -/
def mkPanels (axis : Coord) (d : Distribution) : Option (Bool → VPanel K) :=
  (VPanel.create (isTall axis) (d.get axis.orth) (d.get axis).tileSize).map fun v => fun _ => v

end
end DLAF
