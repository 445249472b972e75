import Verif.Model.Tridiag
import Verif.Model.Views
import Mathlib.Data.Real.Sqrt
/-
Model of the deflation step of the divide and conquer method, in exact arithmetic: `applyDeflationToArrays`
(include/dlaf/eigensolver/tridiag_solver/merge.h:697-763) and `applyGivensRotationsToMatrixColumns` (local,
include/dlaf/eigensolver/tridiag_solver/rot.h:156-200).  Indices are relative to the range of tiles.
-/
namespace DLAF
open scoped Classical
noncomputable section

/-- `GivensRotation`, rot.h:139-145. -/
structure Rot where
  i : Nat
  j : Nat
  c : ℝ
  s : ℝ

/-- Local variables and arrays of `applyDeflationToArrays`. -/
structure DeflSt where
  i1 : Nat
  d : Nat → ℝ
  z : Nat → ℝ
  c : Nat → ColType
  rots : List Rot

/-- `a[i] = v`. -/
def setF {α : Type} (f : Nat → α) (i : Nat) (v : α) : Nat → α := fun x => if x = i then v else f x

/-- The rotated pair, merge.h:742-757. -/
def deflRot (s : DeflSt) (a b : Nat) (r c sn : ℝ) : DeflSt :=
  { i1 := s.i1
    z := setF (setF s.z a r) b 0
    d := setF (setF s.d a (s.d a * c * c + s.d b * sn * sn)) b (s.d a * sn * sn + s.d b * c * c)
    c := setF (setF s.c a
      (if (s.c a = .UpperHalf ∧ s.c b = .LowerHalf) ∨ (s.c a = .LowerHalf ∧ s.c b = .UpperHalf) then .Dense else s.c a)) b .Deflated
    rots := s.rots ++ [⟨a, b, c, sn⟩] }

/-- One iteration, merge.h:705-758; `idx` is the array `i_ptr`. -/
def deflStep (rho tol : ℝ) (idx : List Nat) (s : DeflSt) (i2 : Nat) : DeflSt :=
  let a := idx.getD s.i1 0
  let b := idx.getD i2 0
  if |rho * s.z a| ≤ tol then { s with c := setF s.c a .Deflated, i1 := i2 }
  else if |rho * s.z b| ≤ tol then { s with c := setF s.c b .Deflated }
  else
    let r := Real.sqrt (s.z a ^ 2 + s.z b ^ 2)
    let c := s.z a / r
    let sn := s.z b / r
    if |c * sn * (s.d b - s.d a)| > tol then { s with i1 := i2 }
    else deflRot s a b r c sn

/-- `applyDeflationToArrays`, merge.h:697-763; `none`: an index is out of range. -/
def applyDeflation (rho tol : ℝ) (len : Nat) (idx : List Nat) (d z : Nat → ℝ) (c : Nat → ColType) : Option DeflSt :=
  if idx.length = len ∧ ∀ i ∈ idx, i < len then
    some ((upto 1 len).foldl (deflStep rho tol idx) ⟨0, d, z, c, []⟩)
  else none

/-- `blas::rot(n, x, 1, y, 1, c, s)` on columns `i`, `j`, rot.h:187. -/
def rotCols (n : Nat) (r : Rot) (Q : Elems ℝ) : Elems ℝ := fun x y =>
  if x < n then
    (if y = r.i then r.c * Q x r.i + r.s * Q x r.j else if y = r.j then r.c * Q x r.j - r.s * Q x r.i else Q x y)
  else Q x y

/-- `applyGivensRotationsToMatrixColumns` (local), rot.h:173-193: one rotation after the other. -/
def applyRots (n : Nat) (rots : List Rot) (Q : Elems ℝ) : Elems ℝ := rots.foldl (fun Q r => rotCols n r Q) Q

end
end DLAF
