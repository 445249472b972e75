import Verif.Spec.DistMatrix
/- Specification: a matrix by its elements, stored over the processes of a grid. -/
namespace DLAF
variable {K : Type*}

/-- Process `r` stores its elements of the matrix `A` at their local positions. -/
def HoldsLoc (P : Params2) (r : Coord2) (E : Int → Int → K) (A : Nat → Nat → K) : Prop :=
  ∀ x y : Nat, (x : Int) < P.row.size → (y : Int) < P.col.size → P.row.owner x = r.row → P.col.owner y = r.col →
    E (P.row.localPos x) (P.col.localPos y) = A x y

end DLAF
