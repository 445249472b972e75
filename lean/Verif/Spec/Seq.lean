import Verif.Model.Async

/-! Specification: execution of a program of tasks one after the other, in program order. -/
namespace DLAF.Seq
open DLAF

variable {X V L : Type} [Inhabited V]

/-- Run the actions of one task in order, on a local state and the tile contents. -/
def runOps : List (Op X V L) → L × (X → V) → L × (X → V)
  | [], c => c
  | o :: os, c => runOps os (o.exec c.1 c.2)

/-- Tile contents after tasks `0 .. t-1` ran one after the other. -/
def storeBefore (prog : Nat → Task X V L) (loc : Nat → L) (store : X → V) : Nat → X → V
  | 0 => store
  | t + 1 => (runOps (prog t).ops (loc t, storeBefore prog loc store t)).2

/-- State of task `t` (local state, tile contents) when it has executed its first `k` actions in the
sequential execution. -/
def at_ (prog : Nat → Task X V L) (loc : Nat → L) (store : X → V) (t k : Nat) : L × (X → V) :=
  runOps ((prog t).ops.take k) (loc t, storeBefore prog loc store t)

end DLAF.Seq
