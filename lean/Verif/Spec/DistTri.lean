import Verif.Spec.DistMul
/- Specification: a triangular matrix and a matrix of right hand sides distributed over the same grid. -/
namespace DLAF

/-- `A` is square, in square tiles; the coordinate `c` of `B` (the rows if `A` stands on the left of `B`, the columns if on the right) is
distributed like that of `A`; both use the same grid.  No offset, one tile per block. -/
structure TriDist (c : Coord) (PA PB : Params2) : Prop where
  a : SquareDist PA
  bRow : Plain PB.row
  bCol : Plain PB.col
  lines : PB.get c = PA.get c
  gridRow : PB.row.grid = PA.row.grid
  gridCol : PB.col.grid = PA.col.grid

instance (c : Coord) (PA PB : Params2) [DecidableEq Params] : Decidable (TriDist c PA PB) :=
  decidable_of_iff (SquareDist PA ∧ Plain PB.row ∧ Plain PB.col ∧ PB.get c = PA.get c ∧ PB.row.grid = PA.row.grid ∧ PB.col.grid = PA.col.grid)
    ⟨fun ⟨a, b, c, d, e, f⟩ => ⟨a, b, c, d, e, f⟩, fun ⟨a, b, c, d, e, f⟩ => ⟨a, b, c, d, e, f⟩⟩

/-- The coordinate of `B` that is multiplied with `A`. -/
def Side.lines : Side → Coord
  | .Left => .Row
  | .Right => .Col

end DLAF
