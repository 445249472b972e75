import Verif.Model.Deflate
import Verif.Lemmas.LapackExists
/- Specification: Givens rotations of columns as a matrix product. -/
namespace DLAF

/-- The matrix whose product from the right rotates columns `i` and `j`: column `i` becomes `c` times column `i` plus `s` times column `j`,
column `j` becomes `c` times column `j` minus `s` times column `i`. -/
noncomputable def givensM (len : Nat) (r : Rot) : Matrix (Fin len) (Fin len) ℝ := fun x y =>
  if y.1 = r.i then (if x.1 = r.i then r.c else if x.1 = r.j then r.s else 0)
  else if y.1 = r.j then (if x.1 = r.j then r.c else if x.1 = r.i then -r.s else 0)
  else if x = y then 1 else 0

/-- The diagonal block of order `len` with first element `(o, o)`. -/
def diagBlock (o len : Nat) (Q : Nat → Nat → ℝ) : Matrix (Fin len) (Fin len) ℝ := fun x y => Q (o + x) (o + y)

end DLAF
