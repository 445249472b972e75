import Mathlib.Data.Matrix.Mul
import Mathlib.LinearAlgebra.Matrix.ConjTranspose
import Mathlib.Algebra.Field.Basic
import Mathlib.Algebra.BigOperators.Fin
/- Elementary reflectors, in the language of Mathlib's matrices. -/
namespace DLAF
variable {K : Type*} [Field K] [StarRing K]

/-- `I - tau v vᴴ` of order `m`. -/
def reflector (m : Nat) (v : Nat → K) (tau : K) : Matrix (Fin m) (Fin m) K :=
  1 - tau • Matrix.vecMulVec (fun x : Fin m => v x) (fun x : Fin m => star (v x))

/-- `H_0 H_1 ... H_{k-1}` with `H_j = I - tau_j v_j v_jᴴ`, `v_j` = column `j` of `V`. -/
def reflectorProd (m : Nat) (V : Nat → Nat → K) (tau : Nat → K) (k : Nat) : Matrix (Fin m) (Fin m) K :=
  ((List.range k).map fun j => reflector m (fun x => V x j) (tau j)).prod

/-- The reflectors stored below the `b`-th subdiagonal of `V`: `v_j` has zeros above row `j + b`, one in it and `V(x, j)` in the
rows `x` below. -/
def storedRefl (b : Nat) (V : Nat → Nat → K) : Nat → Nat → K := fun x j =>
  if x < j + b then 0 else if x = j + b then 1 else V x j

end DLAF
