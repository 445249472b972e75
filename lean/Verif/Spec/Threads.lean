import Verif.Model.Threads
/- What it means that the result of a bulk does not depend on the schedule. -/
namespace DLAF.Bulk
variable {S C : Type*}

/-- Executions have bounded length, never block before all workers have returned (no deadlock at the barrier), and all end in
the state `s'`. -/
def OneResult (code : Code S C) (n : Nat) (c : C) (s s' : S) : Prop :=
  (∃ m, ∀ k l, Steps code n (start c s) k l → l ≤ m) ∧
  (∀ k l, Steps code n (start c s) k l → Done code n k ∨ ∃ k', Step code n k k') ∧
  ∀ k l, Steps code n (start c s) k l → Done code n k → k.s = s'

end DLAF.Bulk
