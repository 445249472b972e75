/-
Model of asynchronous access: common/pipeline.h (`Pipeline`), matrix/internal/tile_pipeline.h
(`TilePipeline`), matrix/matrix.h (`read`, `readwrite`, `set_up_sub_pipelines`), all of which are thin
layers over `pika::execution::experimental::async_rw_mutex`.

The mutex itself belongs to pika.  Its modelled behaviour (part of the trusted base): every request
joins a shared state; a read joins the current one if the previous request was a read too, every other
request starts a new one; a request may start when all shared states before its own are destroyed, i.e.
when every request that joined them has been released (its sender or access wrapper destroyed).
-/
namespace DLAF

/-- Kind of a request: `read()` (pipeline.h:80-83, tile_pipeline.h:34-37, matrix.h:386) or `readwrite()`
(pipeline.h:71-74, tile_pipeline.h:46-49, matrix.h:493). -/
inductive Access | read | readwrite
deriving DecidableEq, Repr

/-- The requests made to one pipeline.  Requests are numbered in program order over the whole program;
`none` means that program event is not a request to this pipeline. -/
abbrev Requests := Nat → Option Access

/-- Bookkeeping of the mutex before request `i`: kind of the previous request and number of the current
shared state. -/
def mutexState (r : Requests) : Nat → Access × Nat
  | 0 => (.readwrite, 0)
  | i + 1 =>
    match r i with
    | none => mutexState r i
    | some .readwrite => (.readwrite, (mutexState r i).2 + 1)
    | some .read =>
      (.read, if (mutexState r i).1 = .readwrite then (mutexState r i).2 + 1 else (mutexState r i).2)

/-- Shared state joined by request `i`. -/
def groupOf (r : Requests) (i : Nat) : Nat := (mutexState r (i + 1)).2

/-- Life of a request: sender not started, access wrapper alive, wrapper or sender destroyed. -/
inductive Status | waiting | held | released
deriving DecidableEq, Repr

/-- Request `i` may start. -/
def canGrant (r : Requests) (st : Nat → Status) (i : Nat) : Prop :=
  r i ≠ none ∧ st i = .waiting ∧ ∀ j, r j ≠ none → groupOf r j < groupOf r i → st j = .released

/-- Pointwise update. -/
def upd {α β : Type} [DecidableEq α] (f : α → β) (a : α) (b : β) : α → β :=
  fun x => if x = a then b else f x

/-- Steps of one pipeline. -/
inductive PStep (r : Requests) : (Nat → Status) → (Nat → Status) → Prop
  | grant (st i) : canGrant r st i → PStep r st (upd st i .held)
  | release (st i) : st i = .held → PStep r st (upd st i .released)
  | drop (st i) : r i ≠ none → st i = .waiting → PStep r st (upd st i .released)

/-- States a pipeline can reach. -/
inductive PReach (r : Requests) : (Nat → Status) → Prop
  | init : PReach r (fun _ => .waiting)
  | step {st st'} : PReach r st → PStep r st st' → PReach r st'

/-! ### programs of tasks -/

/-- One atomic action of a task: the tiles it accesses and its effect on the task's local state and on
the contents of the tiles. -/
structure Op (X V L : Type) where
  touch : X → Option Access
  body : L → (X → V) → L × (X → V)

/-- Execute an action: it sees only the tiles it accesses and changes only those it accesses for
writing. -/
def Op.exec {X V L : Type} [Inhabited V] (o : Op X V L) (l : L) (s : X → V) : L × (X → V) :=
  let r := o.body l (fun x => if o.touch x = none then default else s x)
  (r.1, fun x => if o.touch x = some .readwrite then r.2 x else s x)

/-- A task: the accesses it requests (each tile at most once) and its actions in order.  The task runs
when its accesses are granted (`when_all`, sender/transform.h) and releases each access after its last
use. -/
structure Task (X V L : Type) where
  acc : X → Option Access
  ops : List (Op X V L)

/-- A task only uses the accesses it requested (the C++ types enforce it: a read access gives a
`Tile<const T>`). -/
def Task.WF {X V L : Type} (t : Task X V L) : Prop :=
  ∀ o ∈ t.ops, ∀ x, (o.touch x = some .readwrite → t.acc x = some .readwrite) ∧
    (o.touch x ≠ none → t.acc x ≠ none)

/-- Global state: status of each access (tile, task), next action, local state of each task, contents. -/
structure AState (X V L : Type) where
  st : X → Nat → Status
  pc : Nat → Nat
  loc : Nat → L
  store : X → V

variable {X V L : Type} [DecidableEq X] [Inhabited V]

/-- The requests seen by the pipeline of tile `x` when tasks `0, 1, ..., N-1` are submitted in order. -/
def requestsOf (prog : Nat → Task X V L) (N : Nat) (x : X) : Requests :=
  fun t => if t < N then (prog t).acc x else none

/-- Steps of the asynchronous execution: any granted access may be used at any time, any access that
is not needed any more may be released at any time. -/
inductive AStep (prog : Nat → Task X V L) (N : Nat) : AState X V L → AState X V L → Prop
  | grant (s) (x : X) (t : Nat) : canGrant (requestsOf prog N x) (s.st x) t →
      AStep prog N s { s with st := upd s.st x (upd (s.st x) t .held) }
  | op (s) (t : Nat) (o : Op X V L) : t < N → (prog t).ops[s.pc t]? = some o →
      (∀ x, o.touch x ≠ none → s.st x t = .held) →
      AStep prog N s { s with pc := upd s.pc t (s.pc t + 1),
                              loc := upd s.loc t (o.exec (s.loc t) s.store).1,
                              store := (o.exec (s.loc t) s.store).2 }
  | release (s) (x : X) (t : Nat) : s.st x t = .held →
      (∀ k o, s.pc t ≤ k → (prog t).ops[k]? = some o → o.touch x = none) →
      AStep prog N s { s with st := upd s.st x (upd (s.st x) t .released) }

/-- Initial state: all requests waiting. -/
def AState.initial (loc : Nat → L) (store : X → V) : AState X V L :=
  ⟨fun _ _ => .waiting, fun _ => 0, loc, store⟩

/-- Reachable states. -/
inductive AReach (prog : Nat → Task X V L) (N : Nat) (loc : Nat → L) (store : X → V) :
    AState X V L → Prop
  | init : AReach prog N loc store (AState.initial loc store)
  | step {s s'} : AReach prog N loc store s → AStep prog N s s' → AReach prog N loc store s'

/-- All tasks have run to completion. -/
def AState.Finished (prog : Nat → Task X V L) (N : Nat) (s : AState X V L) : Prop :=
  ∀ t, t < N → s.pc t = (prog t).ops.length

/-! ### sub-pipelines -/

/-- State of a parent pipeline with one sub-pipeline.  `P` (the parent's request number `p`) is the
`readwrite` request made by `sub_pipeline()` on the parent; request 0 of the sub-pipeline is the
`readwrite` made on it at creation; users make requests `1 .. n`; the last request `n+1` is the
`readwrite` made when the sub-pipeline is destroyed or reset.  The contained value is followed to state
what each access sees; `none` is the placeholder `T{}` or a moved-from value. -/
structure SubState (V : Type) where
  par : Nat → Status
  sub : Nat → Status
  /-- the nested sender has run: value moved into the sub-pipeline -/
  opened : Bool
  /-- the closing task has run: value moved back -/
  closed : Bool
  parVal : Option V
  subVal : Option V

/-- requests of the sub-pipeline: number 0 and `n+1` are the internal `readwrite` requests -/
def subRequests (user : Nat → Access) (n : Nat) : Requests := fun i =>
  if i = 0 then some .readwrite else if i ≤ n then some (user i) else if i = n + 1 then some .readwrite
  else none

/-- Steps: accesses of the parent (other than `p`), accesses of the sub-pipeline, and the two internal
tasks of pipeline.h:89-106 and 126-139. -/
inductive SubStep {V : Type} (rp : Requests) (p : Nat) (user : Nat → Access) (n : Nat) :
    SubState V → SubState V → Prop
  | parGrant (s i) : canGrant rp s.par i → SubStep rp p user n s { s with par := upd s.par i .held }
  | parRelease (s i) : i ≠ p → s.par i = .held →
      SubStep rp p user n s { s with par := upd s.par i .released }
  /-- a writer of the parent changes the value -/
  | parWrite (s i v) : i ≠ p → s.par i = .held → rp i = some .readwrite → s.parVal.isSome →
      SubStep rp p user n s { s with parVal := some v }
  | subGrant (s i) : canGrant (subRequests user n) s.sub i →
      SubStep rp p user n s { s with sub := upd s.sub i .held }
  | subRelease (s i) : 1 ≤ i → i ≤ n → s.sub i = .held →
      SubStep rp p user n s { s with sub := upd s.sub i .released }
  | subWrite (s i v) : 1 ≤ i → i ≤ n → s.sub i = .held → user i = .readwrite → s.subVal.isSome →
      SubStep rp p user n s { s with subVal := some v }
  /-- `when_all(sub.readwrite(), parent.readwrite()) | then(move value in; return parent wrapper)`: the
  sub-pipeline's access is released, the parent's is kept -/
  | openSub (s) : s.par p = .held → s.sub 0 = .held → s.opened = false →
      SubStep rp p user n s
        { s with opened := true, subVal := s.parVal, parVal := none, sub := upd s.sub 0 .released }
  /-- `when_all(sub.readwrite(), nested_sender) | then(move value back)`: both accesses released -/
  | closeSub (s) : s.sub (n + 1) = .held → s.opened = true → s.closed = false →
      SubStep rp p user n s
        { s with closed := true, parVal := s.subVal, subVal := none,
                 sub := upd s.sub (n + 1) .released, par := upd s.par p .released }

/-- Reachable states of a parent pipeline with a sub-pipeline. -/
inductive SubReach {V : Type} (rp : Requests) (p : Nat) (user : Nat → Access) (n : Nat) (v0 : V) :
    SubState V → Prop
  | init : SubReach rp p user n v0 ⟨fun _ => .waiting, fun _ => .waiting, false, false, some v0, none⟩
  | step {s s'} : SubReach rp p user n v0 s → SubStep rp p user n s s' → SubReach rp p user n v0 s'

/-! ### sub-pipelines of a matrix -/

/-- A tile of a parent matrix with the pipelines of the tiles of a sub-pipelined matrix made from it:
one (`I` has one element) for `set_up_sub_pipelines` (matrix.h:542-557), one for each new tile for
`set_up_retiled_sub_pipelines` (matrix.h:559-614).  `p` is the parent's `readwrite` request made by the
constructor of the sub-pipelined matrix. -/
structure MSubState (I : Type) where
  par : Nat → Status
  sub : I → Nat → Status
  /-- the (sub-)tile has been moved into the pipeline -/
  filled : I → Bool
  /-- the pipeline and the tile in it are destroyed -/
  destroyed : I → Bool

/-- Requests of one of these pipelines: number 0 is the `readwrite_with_wrapper` of the constructor
(matrix.h:552, 605), the users make requests `1 .. n`. -/
def msubRequests (user : Nat → Access) (n : Nat) : Requests := fun i =>
  if i = 0 then some .readwrite else if i ≤ n then some (user i) else none

/-- Steps.  The sub-tiles share the parent's access wrapper (tile.h:432-456 `dep_tracker_` is a
`shared_ptr`), so the parent's access ends when the last of them is destroyed; the mutex keeps the tile
alive until the pipeline object and all its requests are gone. -/
inductive MSubStep {I : Type} [DecidableEq I] (rp : Requests) (p : Nat) (user : I → Nat → Access)
    (n : I → Nat) : MSubState I → MSubState I → Prop
  | parGrant (s i) : canGrant rp s.par i → MSubStep rp p user n s { s with par := upd s.par i .held }
  | parRelease (s i) : i ≠ p → s.par i = .held →
      MSubStep rp p user n s { s with par := upd s.par i .released }
  | subGrant (s k i) : canGrant (msubRequests (user k) (n k)) (s.sub k) i →
      MSubStep rp p user n s { s with sub := upd s.sub k (upd (s.sub k) i .held) }
  | subRelease (s k i) : 1 ≤ i → s.sub k i = .held →
      MSubStep rp p user n s { s with sub := upd s.sub k (upd (s.sub k) i .released) }
  | fill (s k) : s.par p = .held → s.sub k 0 = .held → s.filled k = false →
      MSubStep rp p user n s
        { s with filled := upd s.filled k true, sub := upd s.sub k (upd (s.sub k) 0 .released) }
  | destroy (s k) : (∀ i, i ≤ n k → s.sub k i = .released) →
      MSubStep rp p user n s { s with destroyed := upd s.destroyed k true }
  | parFree (s) : s.par p = .held → (∀ k, s.destroyed k = true) →
      MSubStep rp p user n s { s with par := upd s.par p .released }

/-- Reachable states. -/
inductive MSubReach {I : Type} [DecidableEq I] (rp : Requests) (p : Nat) (user : I → Nat → Access)
    (n : I → Nat) : MSubState I → Prop
  | init : MSubReach rp p user n ⟨fun _ => .waiting, fun _ _ => .waiting, fun _ => false, fun _ => false⟩
  | step {s s'} : MSubReach rp p user n s → MSubStep rp p user n s s' → MSubReach rp p user n s'

end DLAF
