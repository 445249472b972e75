import Mathlib.Data.Fin.VecNotation
import Verif.Spec.Layout
import Verif.Spec.Spmd
import Verif.Spec.Kernels
/- Specification: square matrices in the local buffers of ScaLAPACK, block-cyclic with blocks `mb x mb`, on a grid of `npr x npc` processes. -/
namespace DLAF
variable {K : Type*}

/-- How a square matrix of order `n` is distributed: block size, size of the grid, source process, as in its ScaLAPACK descriptor. -/
structure ScaMat where
  n : Nat
  mb : Nat
  npr : Nat
  npc : Nat
  rsrc : Nat
  csrc : Nat

namespace ScaMat
variable (S : ScaMat)

/-- A legal descriptor. -/
def Legal : Prop := 0 < S.mb ∧ S.rsrc < S.npr ∧ S.csrc < S.npc

instance : Decidable S.Legal := by unfold Legal; infer_instance

/-- The processes of the grid. -/
def OnGrid (r : Coord2) : Prop := (0 ≤ r.row ∧ r.row < S.npr) ∧ 0 ≤ r.col ∧ r.col < S.npc

instance (r : Coord2) : Decidable (S.OnGrid r) := by unfold OnGrid; infer_instance

/-- The list of these processes. -/
def procs : List Coord2 := (List.range S.npc).flatMap fun j : Nat => (List.range S.npr).map fun i : Nat => ⟨(i : Int), (j : Int)⟩

/-- The process that has the element `(x, y)`. -/
def owner (x y : Nat) : Coord2 := ⟨indxg2p x S.mb S.rsrc S.npr, indxg2p y S.mb S.csrc S.npc⟩

/-- Where the element `(x, y)` is in the buffer of its owner, `lld` being the leading dimension. -/
def pos (lld : Nat) (x y : Nat) : Int := indxg2l x S.mb S.npr + indxg2l y S.mb S.npc * lld

/-- The array descriptor (`DESCINIT`) for the leading dimension `lld`; `ctx`, `m` and `n` are the entries for the context and the size. -/
def desc (ctx m n : Int) (lld : Nat) : Fin 9 → Int := ![1, ctx, m, n, S.mb, S.mb, S.rsrc, S.csrc, lld]

/-- The leading dimension is large enough (as ScaLAPACK requires). -/
def LldOk (r : Coord2) (lld : Nat) : Prop := max 1 (numroc S.n S.mb r.row.toNat S.rsrc S.npr) ≤ lld

instance (r : Coord2) (lld : Nat) : Decidable (S.LldOk r lld) := by unfold LldOk; infer_instance

/-- The element `(x, y)` of the matrix stored in the buffers `buf` with leading dimensions `lld`. -/
def elem (lld : Coord2 → Nat) (buf : Coord2 → Int → K) (x y : Nat) : K := buf (S.owner x y) (S.pos (lld (S.owner x y)) x y)

/-- `c` is a character for the triangle `u`. -/
def UploChar (c : Char) (u : Uplo) : Prop := (u = .Lower ∧ (c = 'L' ∨ c = 'l')) ∨ (u = .Upper ∧ (c = 'U' ∨ c = 'u'))


end ScaMat
end DLAF
