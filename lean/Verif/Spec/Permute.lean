import Verif.Spec.DistElems
import Verif.Model.DistPanel
/- Specification of the permutations: what the output matrix is, element by element. -/
namespace DLAF
variable {K : Type}

/-- The element with index `x` along `C` and `y` along the other coordinate. -/
def elemAlong (C : Coord) (A : Int → Int → K) (x y : Int) : K :=
  match C with
  | .Row => A x y
  | .Col => A y x

/-- Index `i` (along the coordinate distributed as `p`) lies in one of the tiles `[ib, ie)`. -/
def inTiles (p : Params) (ib ie i : Int) : Prop := ib ≤ p.tileOf i ∧ p.tileOf i < ie

instance (p : Params) (ib ie i : Int) : Decidable (inTiles p ib ie i) := by unfold inTiles; infer_instance

/-- The result `B` of the permutation of the rows (`C = Row`) or columns (`C = Col`) of the diagonal block of the tiles
`[ib, ie)`: in that block, row (column) `x` of `B` is the row (column) `first + perms[x]` of `A`, `first` being the first
index of the block; outside, `B` is the previous content `B0`. -/
structure Permuted (C : Coord) (P : Params2) (ib ie : Int) (perms : List Nat) (A B0 B : Int → Int → K) : Prop where
  inside : ∀ x y, 0 ≤ x → x < (P.get C).size → 0 ≤ y → inTiles (P.get C) ib ie x → inTiles (P.get C.orth) ib ie y →
    elemAlong C B x y = elemAlong C A ((P.get C).tileBegin ib + perms.getD x.toNat 0) y
  outside : ∀ x y, 0 ≤ x → 0 ≤ y → ¬ (inTiles (P.get C) ib ie x ∧ inTiles (P.get C.orth) ib ie y) →
    elemAlong C B x y = elemAlong C B0 x y

/-- The result on process `r` of the permutation of the local part: among the rows (columns) of the block that `r` owns,
the one with local index `l` is the one of `A` with local index `first + perms[l]`, `first` being the first local index of
the block. -/
structure PermutedLocally (C : Coord) (P : Params2) (r : Coord2) (ib ie : Int) (perms : List Nat) (A B0 B : Int → Int → K) :
    Prop where
  inside : ∀ x y, 0 ≤ x → x < (P.get C).size → 0 ≤ y → inTiles (P.get C) ib ie x → inTiles (P.get C.orth) ib ie y →
    (P.get C).owner x = r.get C →
    elemAlong C B x y = elemAlong C A ((P.at' C r).dist.global_element_from_local_element
      ((P.at' C r).dist.next_local_tile_from_global_tile ib * (P.get C).tile +
        perms.getD ((P.at' C r).dist.local_element_from_global_element x).toNat 0)) y
  outside : ∀ x y, 0 ≤ x → 0 ≤ y → ¬ (inTiles (P.get C) ib ie x ∧ inTiles (P.get C.orth) ib ie y) →
    elemAlong C B x y = elemAlong C B0 x y

end DLAF
