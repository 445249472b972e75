import Verif.Model.Ownership
/- Specification: who owns an allocation, and which histories respect the documented preconditions. -/
namespace DLAF.Own

/-- A live object owns the allocation `a`: a chunk, or a view that addresses it. -/
def Mem.Owned (m : Mem) (a : Nat) : Prop :=
  (∃ i c, m.chunk i = some c ∧ c.ptr = some (.heap a)) ∨ ∃ v i j, m.addr v i = some (.heap a, j)

/-- The pointer `a` has been given back to the allocator. -/
def Mem.Freed (m : Mem) (a : Nat) : Prop := Ptr.heap a ∈ m.freed

/-- No object is alive. -/
def Mem.NoObjects (m : Mem) : Prop := (∀ i, m.chunk i = none) ∧ ∀ v, m.view v = none

/-- The number of elements of a block; `us` gives the sizes of the user's blocks. -/
def Mem.blockSize (m : Mem) (us : Nat → Int) : Ptr → Option Int
  | .heap a => m.sizes[a]?
  | .user u => some (us u)

/-- The documented preconditions (memory_view.h:56, 87-88, memory_chunk.h:88): a pointer of the user can be dereferenced for all the elements, a sub-view is inside the view. -/
def Op.Safe (us : Nat → Int) : Op → Prop
  | .viewExt u n => 0 < n → ∃ x, u = some x ∧ n ≤ us x
  | .viewSub _ off _ => 0 ≤ off
  | _ => True

/-- The views an operation gives a new value to (the new ones have no name before it). -/
def Op.writes : Op → List Nat
  | .viewMove v => [v]
  | .viewAssign v _ => [v]
  | .viewMoveAssign v w => [v, w]
  | .viewDrop v => [v]
  | _ => []

end DLAF.Own
