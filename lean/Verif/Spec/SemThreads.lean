import Verif.Model.SemThreads
/- What it means that tasks with semaphores do not race and that their result does not depend on the schedule. -/
namespace DLAF.Sem
variable {S : Type*} {C : Type*} {V : C → Type*}

/-- `f` touches only the cells in `F`: it leaves the others as they are, and what it writes does not depend on them. -/
def Local (view : (c : C) → S → V c) (F : C → Prop) (f : S → S) : Prop :=
  (∀ s c, ¬ F c → view c (f s) = view c s) ∧
  ∀ s s', (∀ c, F c → view c s = view c s') → ∀ c, F c → view c (f s) = view c (f s')

/-- No schedule reaches a point where two tasks are about to perform actions with a common cell. -/
def RaceFree (P : Prog S) (foot : Nat → Nat → C → Prop) (s : S) : Prop :=
  ∀ k l, Steps P (start s) k l → ∀ t < P.n, ∀ t' < P.n, t ≠ t' → k.pc t < P.len t → k.pc t' < P.len t' →
    ∀ f g, P.instr t (k.pc t) = .act f → P.instr t' (k.pc t') = .act g → ∀ c, ¬ (foot t (k.pc t) c ∧ foot t' (k.pc t') c)

/-- Executions have bounded length, never block before all tasks have ended, and all end in the state `s'`. -/
def OneResult (P : Prog S) (s s' : S) : Prop :=
  (∃ m, ∀ k l, Steps P (start s) k l → l ≤ m) ∧
  (∀ k l, Steps P (start s) k l → Done P k ∨ ∃ k', Step P k k') ∧
  ∀ k l, Steps P (start s) k l → Done P k → k.s = s'

end DLAF.Sem
