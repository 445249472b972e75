import Verif.Spec.DistPartition
import Verif.Spec.Spmd
/- C68: the index vectors that the distributed rank-one solver is called with. -/
namespace DLAF

/-- `i4` and `i6` give every row and column its place in the order of the eigenvalues (the `k` non-deflated ones first), `i2` is the inverse of `i6`, and on every process column `r` the
first `klc r` local columns are its non-deflated ones. -/
structure Rank1Fits (P : Params2) (n k : Nat) (i4 i6 i2 : List Nat) (klc : Int → Nat) : Prop where
  row : P.row.Valid
  col : P.col.Valid
  rowSize : P.row.size = n
  colSize : P.col.size = n
  k_le : k ≤ n
  rowPlaces : i4.Perm (List.range n)
  colPlaces : i6.Perm (List.range n)
  inverse : ∀ e a : Nat, i6[e]? = some a → i2[a]? = some e
  split : ∀ r, 0 ≤ r → r < P.col.grid → klc r ≤ localColumns P.col r ∧ ∀ l < localColumns P.col r, l < klc r ↔ i6.getD (localColumn P.col r l) 0 < k

/-- Place of local row `x` of process row `r`. -/
def placeRow (P : Params2) (i4 : List Nat) (r : Int) (x : Nat) : Nat := i4.getD (localColumn P.row r x) 0
/-- Place of local column `y` of process column `r`. -/
def placeCol (P : Params2) (i6 : List Nat) (r : Int) (y : Nat) : Nat := i6.getD (localColumn P.col r y) 0

end DLAF
