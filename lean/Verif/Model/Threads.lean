import Mathlib.Tactic.TypeStar
/-
Model of `ex::bulk(nworkers, f)` with a `pika::barrier` of `nworkers` (pika): the workers share a state, and between two
arrivals at the barrier each performs a list of atomic actions; the actions of different workers interleave freely.
Used by include/dlaf/factorization/qr/t_factor_impl.h:120-158 and include/dlaf/eigensolver/reduction_to_band/impl.h:283-355.
-/
namespace DLAF.Bulk

/-- The code of the bulk: from a control point and the shared state at a barrier, the actions that every worker performs
until its next arrival, and the next control point.  `none`: the workers return. -/
abbrev Code (S C : Type*) := C → S → Option ((Nat → List (S → S)) × C)

/-- A configuration: control point at the next barrier, the actions that each worker has still to perform before it, and
the shared state. -/
structure Conf (S C : Type*) where
  c : C
  todo : Nat → List (S → S)
  s : S

/-- One step: some worker performs its next action, or all have arrived and the barrier opens. -/
inductive Step {S C : Type*} (code : Code S C) (n : Nat) : Conf S C → Conf S C → Prop
  | act {k : Conf S C} {w : Nat} {a : S → S} {r : List (S → S)} (hw : w < n) (h : k.todo w = a :: r) :
      Step code n k ⟨k.c, fun v => if v = w then r else k.todo v, a k.s⟩
  | barrier {k : Conf S C} {p : (Nat → List (S → S)) × C} (h : ∀ w < n, k.todo w = []) (hc : code k.c k.s = some p) :
      Step code n k ⟨p.2, p.1, k.s⟩

/-- All workers returned. -/
def Done {S C : Type*} (code : Code S C) (n : Nat) (k : Conf S C) : Prop :=
  (∀ w < n, k.todo w = []) ∧ code k.c k.s = none

/-- Executions. -/
inductive Steps {S C : Type*} (code : Code S C) (n : Nat) : Conf S C → Conf S C → Nat → Prop
  | refl {k : Conf S C} : Steps code n k k 0
  | tail {k k' k'' : Conf S C} {m : Nat} : Steps code n k k' m → Step code n k' k'' → Steps code n k k'' (m + 1)

/-- The start of the bulk. -/
def start {S C : Type*} (c : C) (s : S) : Conf S C := ⟨c, fun _ => [], s⟩

/-- Perform a list of actions. -/
def runList {S : Type*} (l : List (S → S)) (s : S) : S := l.foldl (fun s a => a s) s

/-- One after the other: worker 0, then worker 1, ... -/
def runAll {S : Type*} (todo : Nat → List (S → S)) : Nat → S → S
  | 0, s => s
  | n + 1, s => runList (todo n) (runAll todo n s)

end DLAF.Bulk
