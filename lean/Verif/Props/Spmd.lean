import Verif.Lemmas.Spmd
/-
C43: the outcome of a distributed computation does not depend on the relative speed of the processes.
-/
namespace DLAF
variable {S V : Type*}

/-- C43.  If one schedule of the processes runs to the end, then every schedule does: whatever was executed so far, the
rest can be executed, takes the same total number of steps, and ends in the same state. -/
theorem C43_schedule_independent {n : Nat} {c f : Conf S V} (h : Conf.Steps n c f) (hf : f.Done) {m : Nat} {a : Conf S V}
    (ha : Conf.Steps m c a) : ∃ k, n = m + k ∧ Conf.Steps k a f :=
  steps_confluent h hf ha

/-- C43.  In particular a configuration in which no process can go on (all have finished, or wait, or an assertion has
failed) is the same final configuration: no schedule deadlocks or aborts. -/
theorem C43_no_deadlock {n : Nat} {c f : Conf S V} (h : Conf.Steps n c f) (hf : f.Done) {m : Nat} {a : Conf S V}
    (ha : Conf.Steps m c a) (hstuck : ∀ r, a.step r = none) : a = f := by
  obtain ⟨k, _, hk⟩ := steps_confluent h hf ha
  cases hk with
  | refl => rfl
  | cons r hr _ => rw [hstuck r] at hr; simp at hr

/-- Not vacuous: two processes of a row exchange values by two broadcasts; the one that sends second may start
first. -/
def exProg (r : Coord2) : List (Instr Int Int) :=
  if r = ⟨0, 0⟩ then bcastSend (.row 0) 0 (fun s => some (s, s)) ++ bcastRecv (.row 0) 1 (fun s v => some (s + 10 * v))
  else if r = ⟨0, 1⟩ then bcastRecv (.row 0) 0 (fun s v => some (s + 100 * v)) ++ bcastSend (.row 0) 1 (fun s => some (s, s))
  else []

/-- Run the processes of a list, in this order, one step each. -/
def runSched (c : Conf S V) : List Coord2 → Option (Conf S V)
  | [] => some c
  | r :: rs => (c.step r).bind fun c' => runSched c' rs

theorem runSched_steps {f : Conf S V} : ∀ {rs : List Coord2} {c : Conf S V}, runSched c rs = some f → Conf.Steps rs.length c f
  | [], _, h => by
    simp only [runSched, Option.some.injEq] at h
    subst h
    exact .refl _
  | r :: rs, c, h => by
    simp only [runSched, Option.bind_eq_some_iff] at h
    obtain ⟨c', h1, h2⟩ := h
    exact .cons r h1 (runSched_steps h2)

example : ((runSched (Conf.init exProg fun r => r.col + 1) [⟨0, 0⟩, ⟨0, 1⟩, ⟨0, 0⟩, ⟨0, 1⟩, ⟨0, 1⟩, ⟨0, 0⟩]).map fun c =>
      (c.st ⟨0, 0⟩, c.st ⟨0, 1⟩, (c.prog ⟨0, 0⟩).length, (c.prog ⟨0, 1⟩).length)) = some (1021, 102, 0, 0) ∧
    ((runSched (Conf.init exProg fun r => r.col + 1) [⟨0, 1⟩]).isNone = true) := by decide

end DLAF
