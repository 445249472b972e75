import Verif.Model.Dist
/-
Independent specification of a 1D block-cyclic distribution.

A distribution is given by what the user passes to the constructor.  Element `e` of the matrix sits
at absolute position `offset + e`; absolute positions are cut in blocks of `block` elements dealt
out cyclically to the `grid` ranks starting with `src`, and in tiles of `tile` elements.
-/
namespace DLAF

/-- User-visible parameters of a distribution along one coordinate. -/
structure Params where
  size : Int
  block : Int
  tile : Int
  grid : Int
  rank : Int
  src : Int
  offset : Int
deriving DecidableEq, Repr

namespace Params

/-- The documented preconditions of the constructor (distribution.h:150-185). -/
def Valid (p : Params) : Prop :=
  0 ≤ p.size ∧ 0 < p.block ∧ 0 < p.tile ∧ p.block % p.tile = 0 ∧ 0 < p.grid ∧
  (0 ≤ p.rank ∧ p.rank < p.grid) ∧ (0 ≤ p.src ∧ p.src < p.grid) ∧ 0 ≤ p.offset

instance (p : Params) : Decidable p.Valid := by unfold Valid; infer_instance

/-- The distribution object the constructor builds. -/
def dist (p : Params) : Dist1 :=
  Dist1.build p.size p.block p.tile p.grid p.rank p.src p.offset

/-- The same matrix seen from process `r`. -/
def onRank (p : Params) (r : Int) : Params := { p with rank := r }

/-- Block-cyclic owner of element `e`. -/
def owner (p : Params) (e : Int) : Int := ((p.offset + e) / p.block + p.src) % p.grid

/-- Tile containing element `e`, counting tiles from the one that contains element 0. -/
def tileOf (p : Params) (e : Int) : Int := (p.offset + e) / p.tile - p.offset / p.tile

/-- First element of tile `t`: the tile's first absolute position, or 0 for the tile cut by the
offset. -/
def tileBegin (p : Params) (t : Int) : Int := max 0 ((p.offset / p.tile + t) * p.tile - p.offset)

/-- One past the last element of tile `t`. -/
def tileEnd (p : Params) (t : Int) : Int :=
  min p.size ((p.offset / p.tile + t + 1) * p.tile - p.offset)

end Params

/-- Number of `i` in `[0, n)` satisfying the decidable predicate. -/
def countBelow (n : Nat) (f : Int → Bool) : Nat := (List.range n).countP (fun i : Nat => f (i : Int))

/-- Sum of `f 0 + ... + f (n-1)`. -/
def sumBelow (n : Nat) (f : Int → Int) : Int := ((List.range n).map (fun i : Nat => f (i : Int))).sum

end DLAF

namespace DLAF

/-- The matrix made of elements `[origin, origin + size)` of the matrix described by `p`: same
blocks, tiles and grid, shifted by `origin`. -/
def Params.sub (p : Params) (origin size : Int) : Params :=
  { p with offset := p.offset + origin, size := size }

end DLAF

namespace DLAF

/-- Position of element `e` among the elements of its owner. -/
def Params.localPos (p : Params) (e : Int) : Int :=
  countBelow e.toNat fun x => decide (p.owner x = p.owner e)

/-- Every element of the matrix `A` is stored by its owner at its local position (local stores `st` of the
ranks of the grid). -/
def Holds {E : Type} (p q : Params) (st : Coord2 → Int → Int → E) (A : Int → Int → E) : Prop :=
  ∀ i j, (0 ≤ i ∧ i < p.size) → (0 ≤ j ∧ j < q.size) →
    st ⟨p.owner i, q.owner j⟩ (p.localPos i) (q.localPos j) = A i j

end DLAF
