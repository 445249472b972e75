import Verif.Model.Kernels
/-
Model of the local transformation of a generalized eigenproblem to standard form,
include/dlaf/eigensolver/gen_to_std{.h,/impl.h}.  The state is `mat_a`; `mat_b` (`l`, `b`) is only read by the kernels.
-/
namespace DLAF
variable {K : Type*} [Field K] [StarRing K]

/-- The constant `-0.5` of `hemmPanelTile`, gen_to_std/impl.h:73 and 161. -/
def minusHalf : K := -(1 / 2)

/-- Body of the loop over `k` of `GenToStd::call_L` (local), gen_to_std/impl.h:236-288; kernels 43-132. -/
def genToStdStepL (lp : Lapack K) (nt : Nat) (l a : Tiles K) (k : Nat) : Option (Tiles K) := do
  let a ← a.write (k, k) (lp.tileHegst .Lower (a (k, k)) (l (k, k)))
  if k + 1 = nt then pure a else
  let a ← forM' (upto (k + 1) nt) a fun a i => do
    let a ← a.write (i, k) (lp.tileTrsm .Right .Lower .ConjTrans .NonUnit 1 (l (k, k)) (a (i, k)))
    a.write (i, k) (hemm .Right .Lower minusHalf (a (k, k)) (l (i, k)) 1 (a (i, k)))
  let a ← forM' (upto (k + 1) nt) a fun a j => do
    let a ← a.write (j, j) (her2k .Lower .NoTrans (-1) (a (j, k)) (l (j, k)) 1 (a (j, j)))
    forM' (upto (j + 1) nt) a fun a i => do
      let a ← a.write (i, j) (gemm .NoTrans .ConjTrans (-1) (a (i, k)) (l (j, k)) 1 (a (i, j)))
      a.write (i, j) (gemm .NoTrans .ConjTrans (-1) (l (i, k)) (a (j, k)) 1 (a (i, j)))
  let a ← forM' (upto (k + 1) nt) a fun a i =>
    a.write (i, k) (hemm .Right .Lower minusHalf (a (k, k)) (l (i, k)) 1 (a (i, k)))
  forM' (upto (k + 1) nt) a fun a j => do
    let a ← a.write (j, k) (lp.tileTrsm .Left .Lower .NoTrans .NonUnit 1 (l (j, j)) (a (j, k)))
    forM' (upto (j + 1) nt) a fun a i => a.write (i, k) (gemm .NoTrans .NoTrans (-1) (l (i, j)) (a (j, k)) 1 (a (i, k)))

/-- `GenToStd::call_L` (local), gen_to_std/impl.h:227-289. -/
def genToStdL (lp : Lapack K) (nt : Nat) (l a : Tiles K) : Option (Tiles K) :=
  forM' (upto 0 nt) a fun a k => genToStdStepL lp nt l a k

/-- Body of the loop over `k` of `GenToStd::call_U` (local), gen_to_std/impl.h:514-567; kernels 134-223. -/
def genToStdStepU (lp : Lapack K) (nt : Nat) (u a : Tiles K) (k : Nat) : Option (Tiles K) := do
  let a ← a.write (k, k) (lp.tileHegst .Upper (a (k, k)) (u (k, k)))
  if k + 1 = nt then pure a else
  let a ← forM' (upto (k + 1) nt) a fun a i => do
    let a ← a.write (k, i) (lp.tileTrsm .Left .Upper .ConjTrans .NonUnit 1 (u (k, k)) (a (k, i)))
    a.write (k, i) (hemm .Left .Upper minusHalf (a (k, k)) (u (k, i)) 1 (a (k, i)))
  let a ← forM' (upto (k + 1) nt) a fun a i => do
    let a ← a.write (i, i) (her2k .Upper .ConjTrans (-1) (a (k, i)) (u (k, i)) 1 (a (i, i)))
    forM' (upto (i + 1) nt) a fun a j => do
      let a ← a.write (i, j) (gemm .ConjTrans .NoTrans (-1) (a (k, i)) (u (k, j)) 1 (a (i, j)))
      a.write (i, j) (gemm .ConjTrans .NoTrans (-1) (u (k, i)) (a (k, j)) 1 (a (i, j)))
  let a ← forM' (upto (k + 1) nt) a fun a i =>
    a.write (k, i) (hemm .Left .Upper minusHalf (a (k, k)) (u (k, i)) 1 (a (k, i)))
  forM' (upto (k + 1) nt) a fun a i => do
    let a ← a.write (k, i) (lp.tileTrsm .Right .Upper .NoTrans .NonUnit 1 (u (i, i)) (a (k, i)))
    forM' (upto (i + 1) nt) a fun a j => a.write (k, j) (gemm .NoTrans .NoTrans (-1) (a (k, i)) (u (i, j)) 1 (a (k, j)))

/-- `GenToStd::call_U` (local), gen_to_std/impl.h:506-568. -/
def genToStdU (lp : Lapack K) (nt : Nat) (u a : Tiles K) : Option (Tiles K) :=
  forM' (upto 0 nt) a fun a k => genToStdStepU lp nt u a k

/-- `generalized_to_standard` (local), eigensolver/gen_to_std.h:49-73. -/
def generalized_to_standard (lp : Lapack K) (u : Uplo) (nt : Nat) (b a : Tiles K) : Option (Tiles K) :=
  match u with
  | .Lower => genToStdL lp nt b a
  | .Upper => genToStdU lp nt b a

end DLAF
