import Verif.Model.Spmd
/-
A program of a process as a part of a larger one: it works on a part of the state, and the larger program also sends messages of other kinds.
-/
namespace DLAF

/-- Where the part of the state is, and which messages belong to the part.  `dec` of a message of another kind is arbitrary: the bytes of another message. -/
structure Emb (S V S' V' : Type*) where
  get : S' → S
  put : S' → S → S'
  inj : V → V'
  dec : V' → V

variable {S V S' V' : Type*}

mutual
/-- The instruction on the part of the state, communicator_pipeline.h: no change of the communication. -/
def Instr.emb (E : Emb S V S' V') : Instr S V → Instr S' V'
  | .loc f => .loc fun s => (f (E.get s)).map (E.put s)
  | .post c g => .post c fun s => (g (E.get s)).map fun x => (E.put s x.1, E.inj x.2)
  | .take c sg srcs f => .take c sg srcs fun s vs => (f (E.get s) (vs.map E.dec)).map (E.put s)
  | .dyn f => .dyn fun s => Instr.embL E (f (E.get s))
/-- The instructions of a program on the part of the state. -/
def Instr.embL (E : Emb S V S' V') : List (Instr S V) → List (Instr S' V')
  | [] => []
  | i :: p => i.emb E :: Instr.embL E p
end

end DLAF
