import Verif.Spec.Dist
import Verif.Model.Tridiag
/- Specification of the distributed deflation partition (merge.h:386-429). -/
namespace DLAF

/-- The entries of `l` that are columns of type `t` on process column `r`, in the order of `l`. -/
def typeOnRank (p : Params) (types : List ColType) (r : Int) (t : ColType) (l : List Nat) : List Nat :=
  l.filter fun i => decide (types[i]? = some t ∧ p.owner i = r)

/-- The columns on process column `r` by type: upper, dense, lower, deflated, each in the order of `l`. -/
def localOrder (p : Params) (types : List ColType) (r : Int) (l : List Nat) : List Nat :=
  typeOnRank p types r .UpperHalf l ++ typeOnRank p types r .Dense l ++ typeOnRank p types r .LowerHalf l ++ typeOnRank p types r .Deflated l

/-- The index in the matrix of local column `l` of process column `r`. -/
def localColumn (p : Params) (r : Int) (l : Nat) : Nat := ((p.onRank r).dist.global_element_from_local_element l).toNat

/-- Number of local columns of process column `r`. -/
def localColumns (p : Params) (r : Int) : Nat := (p.onRank r).dist.localSize.toNat

end DLAF
