import Verif.Model.Spmd
/-
A program of a process as part of a larger one: it works on the first component of the state.
-/
namespace DLAF
variable {S V X : Type*}

mutual
/-- The instruction on the first component of the state, communicator_pipeline.h: no change of the communication. -/
def Instr.onFst : Instr S V → Instr (S × X) V
  | .loc f => .loc fun s => (f s.1).map fun x => (x, s.2)
  | .post c g => .post c fun s => (g s.1).map fun x => ((x.1, s.2), x.2)
  | .take c sg srcs f => .take c sg srcs fun s vs => (f s.1 vs).map fun x => (x, s.2)
  | .dyn f => .dyn fun s => Instr.onFstL (f s.1)
/-- The instructions of a program on the first component of the state. -/
def Instr.onFstL : List (Instr S V) → List (Instr (S × X) V)
  | [] => []
  | i :: p => i.onFst :: Instr.onFstL p
end

end DLAF
