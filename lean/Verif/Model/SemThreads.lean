import Mathlib.Tactic.TypeStar
/-
Model of tasks that share memory and synchronize with `pika::counting_semaphore`s and with the completion of other tasks
(`ex::when_all`, exclusive access to a `Pipeline`).  Used by include/dlaf/eigensolver/band_to_tridiag/mc.h:738-868.
-/
namespace DLAF.Sem

/-- What a task does next: an action on the shared state, an acquisition (blocks while the counter is zero) or a release of
`k` units of semaphore `i`, or waiting for the end of task `t`. -/
inductive Instr (S : Type*)
  | act (f : S → S)
  | acquire (i : Nat)
  | release (i k : Nat)
  | wait (t : Nat)

/-- `n` tasks; task `t` performs `instr t 0, ..., instr t (len t - 1)`. -/
structure Prog (S : Type*) where
  n : Nat
  len : Nat → Nat
  instr : Nat → Nat → Instr S

/-- Configuration: position of each task, semaphore counters and shared state. -/
structure Conf (S : Type*) where
  pc : Nat → Nat
  sem : Nat → Nat
  s : S

variable {S : Type*}

/-- Increment the entry `t`. -/
def bump (f : Nat → Nat) (t k : Nat) : Nat → Nat := fun u => if u = t then f u + k else f u

/-- Decrement the entry `i`. -/
def drop (f : Nat → Nat) (i : Nat) : Nat → Nat := fun u => if u = i then f u - 1 else f u

/-- Is the task that executes `x` next able to do it? -/
def Enabled (P : Prog S) (k : Conf S) : Instr S → Prop
  | .act _ => True
  | .acquire i => 0 < k.sem i
  | .release _ _ => True
  | .wait t => P.len t ≤ k.pc t

/-- Effect of an instruction on the semaphores. -/
def semAfter (sem : Nat → Nat) : Instr S → Nat → Nat
  | .acquire i => drop sem i
  | .release i j => bump sem i j
  | _ => sem

/-- Effect of an instruction on the shared state. -/
def eff : Instr S → S → S
  | .act f => f
  | _ => fun s => s

/-- One step: some task executes its next instruction. -/
inductive Step (P : Prog S) : Conf S → Conf S → Prop
  | step {k : Conf S} {t : Nat} (ht : t < P.n) (hl : k.pc t < P.len t) (he : Enabled P k (P.instr t (k.pc t))) :
      Step P k ⟨bump k.pc t 1, semAfter k.sem (P.instr t (k.pc t)), eff (P.instr t (k.pc t)) k.s⟩

/-- Executions, with their number of steps. -/
inductive Steps (P : Prog S) : Conf S → Conf S → Nat → Prop
  | refl {k : Conf S} : Steps P k k 0
  | tail {k k' k'' : Conf S} {m : Nat} : Steps P k k' m → Step P k' k'' → Steps P k k'' (m + 1)

/-- Nothing executed yet; all semaphores are created with counter zero. -/
def start (s : S) : Conf S := ⟨fun _ => 0, fun _ => 0, s⟩

/-- All tasks ended. -/
def Done (P : Prog S) (k : Conf S) : Prop := ∀ t < P.n, P.len t ≤ k.pc t

/-- Task `t` executes its instructions from `p` on, `m` of them, without synchronizing. -/
def runT (P : Prog S) (t p : Nat) : Nat → S → S
  | 0, s => s
  | m + 1, s => runT P t (p + 1) m (eff (P.instr t p) s)

/-- Task 0 to its end, then task 1, ...: `n` tasks, each from its position. -/
def runAll (P : Prog S) (pc : Nat → Nat) : Nat → S → S
  | 0, s => s
  | n + 1, s => runT P n (pc n) (P.len n - pc n) (runAll P pc n s)

end DLAF.Sem
