import Verif.Model.Dist
import Mathlib.Tactic.TypeStar
/-
Model of the distributed execution: the processes of a grid, each running its program, and the collective
operations of the grid's communicators (include/dlaf/communication/communicator_pipeline.h,
communicator_grid.h:105-135, kernels/broadcast.h, kernels/all_reduce.h, kernels/reduce.h).

* A communicator pipeline hands out the communicator in program order (`CommunicatorPipeline::exclusive`,
  communicator_pipeline.h:93-95), so on one process the collectives on one communicator start in program order;
  MPI matches the n-th collective of every member with each other (trusted: the MPI standard).
* Collectives are the non-blocking MPI variants (`MPI_Ibcast`, `MPI_Iallreduce`, `MPI_Ireduce`): a contribution
  does not wait for the other members; a process waits only for the data it receives.
* Tile accesses of one process take effect in program order (C15, C17), so a process is modelled as
  a sequential program.  Processes interleave arbitrarily.
-/
namespace DLAF

/-- The communicators of a grid: `row_communicator_pipeline` of row `i`, `col_communicator_pipeline` of column `j`;
communicator_grid.h:112-122.  `pair i a b`: the point-to-point exchanges of columns between the processes `(i, a)` and `(i, b)`
over the row communicator (`sendCol`, `recvCol`, eigensolver/tridiag_solver/rot.h:46-66): MPI matches the n-th send of a process
to another one with the n-th receive posted there for the same source and tag, so the exchanges of two processes are numbered
like the collectives of a communicator of those two.  `duo clone j a b tag`: in the same way, the messages with tag `tag` between the processes `(a, j)`
and `(b, j)` over one of the column communicators (`clone` tells which, the pipelines own duplicates of the communicator).
`full n`: the communicator of all processes, `full_communicator_pipeline`, of a grid with `n` columns. -/
inductive Chan | row (i : Int) | col (j : Int) | pair (i a b : Int) | duo (clone j a b tag : Int) | full (n : Int)
deriving DecidableEq, Repr

/-- The members of a communicator: the processes of that row or column of the grid, communicator_grid.cpp:34-60 (C24);
the two partners of an exchange. -/
def Chan.has : Chan → Coord2 → Bool
  | .row i, r => r.row = i
  | .col j, r => r.col = j
  | .pair i a b, r => r.row = i ∧ (r.col = a ∨ r.col = b)
  | .duo _ j a b _, r => r.col = j ∧ (r.row = a ∨ r.row = b)
  | .full _, _ => true

/-- The process with rank `k` in a communicator: the rank in a row communicator is the column index and vice versa
(C24), the ranks of the full communicator count the processes by rows (communicator_pipeline.h:26, 85-88). -/
def Chan.rankOf : Chan → Int → Coord2
  | .row i, k => ⟨i, k⟩
  | .col j, k => ⟨k, j⟩
  | .pair i a b, k => ⟨i, if k = 0 then a else b⟩
  | .duo _ j a b _, k => ⟨if k = 0 then a else b, j⟩
  | .full n, k => ⟨k / n, k % n⟩

/-- What MPI requires all members of a communicator to agree on; `exchange`: a send to the partner and a receive from it. -/
inductive Sig | bcast (root : Int) | reduce (root : Int) | allReduce | exchange
deriving DecidableEq, Repr

/-- Instructions of one process with state `S`; messages carry values of type `V`.
`loc`: local work; `none` = an assertion fails.
`post c g`: contribute a value to the current collective of communicator `c`.
`take c sig srcs f`: complete the current collective of `c`, waiting for the contributions of the processes `srcs`.
`dyn f`: continue with instructions that depend on the state (branches of the code on computed values). -/
inductive Instr (S V : Type*)
  | loc (f : S → Option S)
  | post (c : Chan) (g : S → Option (S × V))
  | take (c : Chan) (sig : Sig) (srcs : List Coord2) (f : S → List V → Option S)
  | dyn (f : S → List (Instr S V))

/-- A state of the whole machine: remaining programs, process states, the number of collectives each process has
completed on each communicator, and the contributions made so far (`net c n r`: by process `r` to the `n`-th
collective of `c`). -/
structure Conf (S V : Type*) where
  prog : Coord2 → List (Instr S V)
  st : Coord2 → S
  cnt : Coord2 → Chan → Nat
  net : Chan → Nat → Coord2 → Option V

/-- Function update. -/
def set1 {α β : Type*} [DecidableEq α] (f : α → β) (a : α) (b : β) : α → β := fun x => if x = a then b else f x

/-- The values of a list of options, if all are present. -/
def allSome {α : Type*} : List (Option α) → Option (List α)
  | [] => some []
  | x :: xs => x.bind fun a => (allSome xs).map (a :: ·)

/-- One step of process `r`: `none` if it has finished, waits, or aborts. -/
def Conf.step {S V : Type*} (c : Conf S V) (r : Coord2) : Option (Conf S V) :=
  match c.prog r with
  | [] => none
  | .loc f :: p => (f (c.st r)).map fun s => { c with prog := set1 c.prog r p, st := set1 c.st r s }
  | .post ch g :: p =>
    if (c.net ch (c.cnt r ch) r).isSome then none
    else (g (c.st r)).map fun sv =>
      { c with prog := set1 c.prog r p, st := set1 c.st r sv.1,
               net := set1 c.net ch (set1 (c.net ch) (c.cnt r ch) (set1 (c.net ch (c.cnt r ch)) r (some sv.2))) }
  | .take ch _ srcs f :: p =>
    (allSome (srcs.map (c.net ch (c.cnt r ch)))).bind fun vs => (f (c.st r) vs).map fun s =>
      { c with prog := set1 c.prog r p, st := set1 c.st r s,
               cnt := set1 c.cnt r (set1 (c.cnt r) ch (c.cnt r ch + 1)) }
  | .dyn f :: p => some { c with prog := set1 c.prog r (f (c.st r) ++ p) }

/-- `n` steps, of any processes in any order. -/
inductive Conf.Steps {S V : Type*} : Nat → Conf S V → Conf S V → Prop
  | refl (c : Conf S V) : Steps 0 c c
  | cons {n : Nat} {a b c : Conf S V} (r : Coord2) (h : a.step r = some b) (hs : Steps n b c) : Steps (n + 1) a c

/-- All processes have finished. -/
def Conf.Done {S V : Type*} (c : Conf S V) : Prop := ∀ r, c.prog r = []

/-- The collectives a program performs on communicator `c`, in order (those of `dyn` instructions are not known in advance
and not listed). -/
def sigs {S V : Type*} (c : Chan) : List (Instr S V) → List Sig
  | [] => []
  | .take c' s _ _ :: p => if c' = c then s :: sigs c p else sigs c p
  | .loc _ :: p => sigs c p
  | .post _ _ :: p => sigs c p
  | .dyn _ :: p => sigs c p

/-- The start of a program: no collective so far. -/
def Conf.init {S V : Type*} (prog : Coord2 → List (Instr S V)) (st : Coord2 → S) : Conf S V :=
  ⟨prog, st, fun _ _ => 0, fun _ _ _ => none⟩

/-- `schedule_bcast_send`, src/communication/kernels/broadcast.cpp: the root's part of a broadcast. -/
def bcastSend {S V : Type*} (c : Chan) (root : Int) (g : S → Option (S × V)) : List (Instr S V) :=
  [.post c g, .take c (.bcast root) [] fun s _ => some s]

/-- The work with the one value received. -/
def recvOne {S V : Type*} (f : S → V → Option S) (s : S) : List V → Option S
  | [v] => f s v
  | _ => none

/-- `schedule_bcast_recv`, src/communication/kernels/broadcast.cpp: a receiver's part of a broadcast. -/
def bcastRecv {S V : Type*} (c : Chan) (root : Int) (f : S → V → Option S) : List (Instr S V) :=
  [.take c (.bcast root) [c.rankOf root] (recvOne f)]

end DLAF
