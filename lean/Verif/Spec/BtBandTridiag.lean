import Verif.Model.BtBandTridiag
import Verif.Spec.BandTridiag
import Verif.Spec.Kernels
import Verif.Lemmas.LapackExists
/- Back-transformation from tridiagonal to band form: contract of `larft`.  The product of reflectors `hhQ` is in Spec/BandTridiag. -/
namespace DLAF
variable {K : Type*} [Field K] [StarRing K]

/-- What `larft` sees in `V`: ones on the diagonal, zeros above (it does not reference these elements). -/
def unitLow (V : Nat → Nat → K) : Nat → Nat → K := fun r c => if r < c then 0 else if r = c then 1 else V r c

/-- The upper triangle. -/
def upperPart (T : Nat → Nat → K) : Nat → Nat → K := fun r c => if r ≤ c then T r c else 0

/-- Contract of LAPACK's `larft` (forward, columnwise): `H_0 H_1 ... H_{k-1} = I - V T Vᴴ` with `T` upper triangular. -/
def LarftSpec (larft : (n k : Nat) → (Nat → Nat → K) → (Nat → K) → Nat → Nat → K) : Prop := ∀ n k V tau, 0 < k → k ≤ n →
  1 - toM n k (unitLow V) * toM k k (upperPart (larft n k V tau)) * (toM n k (unitLow V)).conjTranspose =
    reflectorProd n (unitLow V) tau k

end DLAF
