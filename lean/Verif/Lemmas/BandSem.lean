import Verif.Lemmas.SemThreads
import Mathlib.Tactic.SplitIfs
import Verif.Spec.BandTridiag
/- The semaphores of the reduction to tridiagonal form: which tasks are ahead of which. -/
namespace DLAF
open scoped Classical
open Sem
variable {K : Type*} [RCLike K]

/-- Units that an instruction acquires. -/
def acqOf (x : Instr (BtSt K)) (i : Nat) : Nat := match x with | .acquire j => if i = j then 1 else 0 | _ => 0
/-- Units that an instruction releases. -/
def relOf (x : Instr (BtSt K)) (i : Nat) : Nat := match x with | .release j m => if i = j then m else 0 | _ => 0

theorem semAfter_eq {P : Prog (BtSt K)} {k : Conf (BtSt K)} {x : Instr (BtSt K)} (he : Enabled P k x) (i : Nat) :
    semAfter k.sem x i + acqOf x i = k.sem i + relOf x i := by
  cases x with
  | act f => rfl
  | acquire j =>
    have he' : 0 < k.sem j := he
    show drop k.sem j i + (if i = j then 1 else 0) = k.sem i + 0
    unfold drop
    by_cases h : i = j
    · subst h; rw [if_pos rfl, if_pos rfl]; omega
    · rw [if_neg h, if_neg h]
  | release j m =>
    show bump k.sem j m i + 0 = k.sem i + (if i = j then m else 0)
    unfold bump
    by_cases h : i = j
    · subst h; rw [if_pos rfl, if_pos rfl]; rfl
    · rw [if_neg h, if_neg h]
  | wait t => rfl

/-- Acquisitions of a sweep up to position `p`. -/
def acqD (p : Nat) : Nat := if p < 2 then 0 else 1 + (p - 2) / 4
/-- Releases of a sweep with `ns` steps up to position `p`. -/
def relD (ns p : Nat) : Nat := (p - 4) / 4 + if p = 5 + 4 * ns then 1 else 0

theorem acqD_succ (p : Nat) : acqD (p + 1) = acqD p + if p = 1 ∨ 4 < p ∧ p % 4 = 1 then 1 else 0 := by
  unfold acqD
  split_ifs <;> omega

theorem relD_succ {ns p : Nat} (h : p < 5 + 4 * ns) :
    relD ns (p + 1) = relD ns p + if p = 4 + 4 * ns ∨ 4 < p ∧ p % 4 = 3 then 1 else 0 := by
  unfold relD
  split_ifs <;> omega

/-- Units acquired of semaphore `i`. -/
noncomputable def consumed (E : BtEnv K) (pc : Nat → Nat) (i : Nat) : Nat :=
  if i < nrSweeps E.cplx E.size then acqD (pc (E.nt + i)) else pc (E.nt + i)
/-- Units released of semaphore `i`. -/
noncomputable def produced (E : BtEnv K) (pc : Nat → Nat) (i : Nat) : Nat :=
  if i = 0 then ∑ k ∈ Finset.range E.nt, (if pc k = 4 then copyReleases E E.nt k else 0)
  else relD (nrSteps (i - 1) E.size E.b) (pc (E.nt + (i - 1)))

theorem acq_sweepInstr (E : BtEnv K) {t0 sw q i : Nat} (hq : q < 5 + 4 * nrSteps sw E.size E.b) :
    acqOf (sweepInstr E t0 sw q) i = if i = sw ∧ (q = 1 ∨ 4 < q ∧ q % 4 = 1) then 1 else 0 := by
  unfold sweepInstr
  by_cases h0 : q = 0
  · rw [if_pos h0, if_neg (show ¬ (i = sw ∧ (q = 1 ∨ 4 < q ∧ q % 4 = 1)) by omega)]
    by_cases h : maxWorkers E ≤ sw
    · rw [if_pos h]; rfl
    · rw [if_neg h]; rfl
  rw [if_neg h0]
  by_cases h1 : q = 1
  · rw [if_pos h1]
    show (if i = sw then 1 else 0) = _
    by_cases h : i = sw
    · rw [if_pos h, if_pos ⟨h, Or.inl h1⟩]
    · rw [if_neg h, if_neg (fun h' => h h'.1)]
  rw [if_neg h1]
  by_cases h2 : q = 2
  · rw [if_pos h2, if_neg (show ¬ (i = sw ∧ (q = 1 ∨ 4 < q ∧ q % 4 = 1)) by omega)]; rfl
  rw [if_neg h2]
  by_cases h3 : q = 3
  · rw [if_pos h3, if_neg (show ¬ (i = sw ∧ (q = 1 ∨ 4 < q ∧ q % 4 = 1)) by omega)]; rfl
  rw [if_neg h3]
  by_cases h4 : q = 4 + 4 * nrSteps sw E.size E.b
  · rw [if_pos h4, if_neg (show ¬ (i = sw ∧ (q = 1 ∨ 4 < q ∧ q % 4 = 1)) by omega)]; rfl
  rw [if_neg h4]
  by_cases h5 : q % 4 = 0
  · rw [if_pos h5, if_neg (show ¬ (i = sw ∧ (q = 1 ∨ 4 < q ∧ q % 4 = 1)) by omega)]; rfl
  rw [if_neg h5]
  by_cases h6 : q % 4 = 1
  · rw [if_pos h6]
    show (if i = sw then 1 else 0) = _
    by_cases h : i = sw
    · rw [if_pos h, if_pos ⟨h, Or.inr ⟨by omega, h6⟩⟩]
    · rw [if_neg h, if_neg (fun h' => h h'.1)]
  rw [if_neg h6, if_neg (show ¬ (i = sw ∧ (q = 1 ∨ 4 < q ∧ q % 4 = 1)) by omega)]
  by_cases h7 : q % 4 = 2
  · rw [if_pos h7]; rfl
  · rw [if_neg h7]; rfl

theorem rel_sweepInstr (E : BtEnv K) {t0 sw q i : Nat} (hq : q < 5 + 4 * nrSteps sw E.size E.b) :
    relOf (sweepInstr E t0 sw q) i = if i = sw + 1 ∧ (q = 4 + 4 * nrSteps sw E.size E.b ∨ 4 < q ∧ q % 4 = 3) then 1 else 0 := by
  unfold sweepInstr
  by_cases h0 : q = 0
  · rw [if_pos h0, if_neg (show ¬ (i = sw + 1 ∧ (q = 4 + 4 * nrSteps sw E.size E.b ∨ 4 < q ∧ q % 4 = 3)) by omega)]
    by_cases h : maxWorkers E ≤ sw
    · rw [if_pos h]; rfl
    · rw [if_neg h]; rfl
  rw [if_neg h0]
  by_cases h1 : q = 1
  · rw [if_pos h1, if_neg (show ¬ (i = sw + 1 ∧ (q = 4 + 4 * nrSteps sw E.size E.b ∨ 4 < q ∧ q % 4 = 3)) by omega)]; rfl
  rw [if_neg h1]
  by_cases h2 : q = 2
  · rw [if_pos h2, if_neg (show ¬ (i = sw + 1 ∧ (q = 4 + 4 * nrSteps sw E.size E.b ∨ 4 < q ∧ q % 4 = 3)) by omega)]; rfl
  rw [if_neg h2]
  by_cases h3 : q = 3
  · rw [if_pos h3, if_neg (show ¬ (i = sw + 1 ∧ (q = 4 + 4 * nrSteps sw E.size E.b ∨ 4 < q ∧ q % 4 = 3)) by omega)]; rfl
  rw [if_neg h3]
  by_cases h4 : q = 4 + 4 * nrSteps sw E.size E.b
  · rw [if_pos h4]
    show (if i = sw + 1 then 1 else 0) = _
    by_cases h : i = sw + 1
    · rw [if_pos h, if_pos ⟨h, Or.inl h4⟩]
    · rw [if_neg h, if_neg (fun h' => h h'.1)]
  rw [if_neg h4]
  by_cases h5 : q % 4 = 0
  · rw [if_pos h5, if_neg (show ¬ (i = sw + 1 ∧ (q = 4 + 4 * nrSteps sw E.size E.b ∨ 4 < q ∧ q % 4 = 3)) by omega)]; rfl
  rw [if_neg h5]
  by_cases h6 : q % 4 = 1
  · rw [if_pos h6, if_neg (show ¬ (i = sw + 1 ∧ (q = 4 + 4 * nrSteps sw E.size E.b ∨ 4 < q ∧ q % 4 = 3)) by omega)]; rfl
  rw [if_neg h6]
  by_cases h7 : q % 4 = 2
  · rw [if_pos h7, if_neg (show ¬ (i = sw + 1 ∧ (q = 4 + 4 * nrSteps sw E.size E.b ∨ 4 < q ∧ q % 4 = 3)) by omega)]; rfl
  rw [if_neg h7]
  show (if i = sw + 1 then 1 else 0) = _
  by_cases h : i = sw + 1
  · rw [if_pos h, if_pos ⟨h, Or.inr ⟨by omega, by omega⟩⟩]
  · rw [if_neg h, if_neg (fun h' => h h'.1)]

theorem acq_copyInstr (E : BtEnv K) (k q i : Nat) : acqOf (copyInstr E k q) i = 0 := by
  unfold copyInstr
  split
  · rfl
  split
  · rfl
  split
  · split <;> rfl
  · rfl

theorem rel_copyInstr (E : BtEnv K) {k q i : Nat} (hq : q < 4) :
    relOf (copyInstr E k q) i = if i = 0 ∧ q = 3 then copyReleases E E.nt k else 0 := by
  unfold copyInstr
  by_cases h0 : q = 0
  · rw [if_pos h0, if_neg (show ¬ (i = 0 ∧ q = 3) by omega)]; rfl
  rw [if_neg h0]
  by_cases h1 : q = 1
  · rw [if_pos h1, if_neg (show ¬ (i = 0 ∧ q = 3) by omega)]; rfl
  rw [if_neg h1]
  by_cases h2 : q = 2
  · rw [if_pos h2, if_neg (show ¬ (i = 0 ∧ q = 3) by omega)]
    split <;> rfl
  rw [if_neg h2]
  show (if i = 0 then copyReleases E E.nt k else 0) = _
  by_cases h : i = 0
  · rw [if_pos h, if_pos ⟨h, by omega⟩]
  · rw [if_neg h, if_neg (fun h' => h h'.1)]

theorem bandProg_len_copy {E : BtEnv K} {t : Nat} (h : t < E.nt) : (bandProg E).len t = 4 := if_pos h
theorem bandProg_len_sweep {E : BtEnv K} {sw : Nat} (h : sw < nrSweeps E.cplx E.size) :
    (bandProg E).len (E.nt + sw) = 5 + 4 * nrSteps sw E.size E.b := by
  show (if E.nt + sw < E.nt then 4 else if E.nt + sw < E.nt + nrSweeps E.cplx E.size then
    5 + 4 * nrSteps (E.nt + sw - E.nt) E.size E.b else _) = _
  rw [if_neg (by omega), if_pos (by omega), show E.nt + sw - E.nt = sw by omega]
theorem bandProg_len_fin {E : BtEnv K} : (bandProg E).len (E.nt + nrSweeps E.cplx E.size) = 1 := by
  show (if _ < E.nt then 4 else if _ < E.nt + nrSweeps E.cplx E.size then _ else if _ = _ then 1 else 3) = _
  rw [if_neg (by omega), if_neg (by omega), if_pos rfl]
theorem bandProg_len_last {E : BtEnv K} {t : Nat} (h : E.nt + nrSweeps E.cplx E.size < t) : (bandProg E).len t = 3 := by
  show (if _ < E.nt then 4 else if _ < E.nt + nrSweeps E.cplx E.size then _ else if _ = _ then 1 else 3) = _
  rw [if_neg (by omega), if_neg (by omega), if_neg (by omega)]

theorem bandProg_instr_copy {E : BtEnv K} {t q : Nat} (h : t < E.nt) : (bandProg E).instr t q = copyInstr E t q := if_pos h
theorem bandProg_instr_sweep {E : BtEnv K} {sw q : Nat} (h : sw < nrSweeps E.cplx E.size) :
    (bandProg E).instr (E.nt + sw) q = sweepInstr E E.nt sw q := by
  show (if E.nt + sw < E.nt then _ else if E.nt + sw < E.nt + nrSweeps E.cplx E.size then
    sweepInstr E E.nt (E.nt + sw - E.nt) q else _) = _
  rw [if_neg (by omega), if_pos (by omega), show E.nt + sw - E.nt = sw by omega]
theorem bandProg_instr_fin {E : BtEnv K} {q : Nat} :
    (bandProg E).instr (E.nt + nrSweeps E.cplx E.size) q = .acquire (nrSweeps E.cplx E.size) := by
  show (if _ < E.nt then _ else if _ < E.nt + nrSweeps E.cplx E.size then _ else if _ = _ then _ else _) = _
  rw [if_neg (by omega), if_neg (by omega), if_pos rfl]

/-- The instructions of the last two tasks. -/
noncomputable def lastInstr (E : BtEnv K) (t q : Nat) : Instr (BtSt K) :=
    if q = 0 then .wait (E.nt + nrSweeps E.cplx E.size)
    else if q = 1 then (if t = E.nt + nrSweeps E.cplx E.size + 2 ∧ (E.size - 1 - 1) / E.nb = (E.size - 1) / E.nb then
      .wait (E.nt + nrSweeps E.cplx E.size + 1) else .act fun s => s)
    else if t = E.nt + nrSweeps E.cplx E.size + 1 then
      .act (if E.cplx = false ∧ (E.size - 1) % E.nb = 0 then lastCopy E (E.size - 1) else fun s => s)
    else .act (lastCopy E E.size)

theorem bandProg_instr_last {E : BtEnv K} {t q : Nat} (h : E.nt + nrSweeps E.cplx E.size < t) :
    (bandProg E).instr t q = lastInstr E t q := by
  show (if _ < E.nt then _ else if _ < E.nt + nrSweeps E.cplx E.size then _ else if _ = _ then _ else lastInstr E t q) = _
  rw [if_neg (by omega), if_neg (by omega), if_neg (by omega)]

theorem acq_lastInstr (E : BtEnv K) (t q i : Nat) : acqOf (lastInstr E t q) i = 0 ∧ relOf (lastInstr E t q) i = 0 := by
  unfold lastInstr
  split
  · exact ⟨rfl, rfl⟩
  split
  · split <;> exact ⟨rfl, rfl⟩
  split <;> exact ⟨rfl, rfl⟩

/-- Which of the four kinds of tasks. -/
theorem task_cases {E : BtEnv K} (t : Nat) : t < E.nt ∨ (∃ sw < nrSweeps E.cplx E.size, t = E.nt + sw) ∨
    t = E.nt + nrSweeps E.cplx E.size ∨ E.nt + nrSweeps E.cplx E.size < t := by
  by_cases h1 : t < E.nt
  · exact Or.inl h1
  by_cases h2 : t < E.nt + nrSweeps E.cplx E.size
  · exact Or.inr (Or.inl ⟨t - E.nt, by omega, by omega⟩)
  by_cases h3 : t = E.nt + nrSweeps E.cplx E.size
  · exact Or.inr (Or.inr (Or.inl h3))
  · exact Or.inr (Or.inr (Or.inr (by omega)))

theorem consumed_step {E : BtEnv K} {pc : Nat → Nat} {t i : Nat} (hl : pc t < (bandProg E).len t) (hi : i ≤ nrSweeps E.cplx E.size) :
    consumed E (bump pc t 1) i = consumed E pc i + acqOf ((bandProg E).instr t (pc t)) i := by
  unfold consumed
  rcases task_cases (E := E) t with h | ⟨sw, hsw, h⟩ | h | h
  · rw [bandProg_instr_copy h, acq_copyInstr, bump_ne _ _ (show E.nt + i ≠ t by omega)]
    rfl
  · subst h
    rw [bandProg_len_sweep hsw] at hl
    rw [bandProg_instr_sweep hsw, acq_sweepInstr E hl]
    by_cases h : i = sw
    · subst h
      rw [if_pos hsw, if_pos hsw, bump_self, acqD_succ]
      simp only [true_and]
    · rw [bump_ne _ _ (show E.nt + i ≠ E.nt + sw by omega)]
      simp only [h, false_and, if_false, Nat.add_zero]
  · subst h
    rw [bandProg_instr_fin]
    show _ = _ + (if i = nrSweeps E.cplx E.size then 1 else 0)
    by_cases h : i = nrSweeps E.cplx E.size
    · subst h
      rw [if_neg (Nat.lt_irrefl _), if_neg (Nat.lt_irrefl _), if_pos rfl, bump_self]
    · rw [if_neg h, bump_ne _ _ (by omega)]
      rfl
  · rw [bandProg_instr_last h, (acq_lastInstr E t _ i).1, bump_ne _ _ (by omega)]
    rfl

theorem produced_step {E : BtEnv K} {pc : Nat → Nat} {t i : Nat} (hl : pc t < (bandProg E).len t) (hi : i ≤ nrSweeps E.cplx E.size) :
    produced E (bump pc t 1) i = produced E pc i + relOf ((bandProg E).instr t (pc t)) i := by
  have other : E.nt ≤ t → ∑ k ∈ Finset.range E.nt, (if bump pc t 1 k = 4 then copyReleases E E.nt k else 0) =
      ∑ k ∈ Finset.range E.nt, (if pc k = 4 then copyReleases E E.nt k else 0) := by
    intro ht
    refine Finset.sum_congr rfl fun k hk => ?_
    rw [bump_ne _ _ (show k ≠ t by have := Finset.mem_range.1 hk; omega)]
  unfold produced
  rcases task_cases (E := E) t with h | ⟨sw, hsw, h⟩ | h | h
  · rw [bandProg_len_copy h] at hl
    rw [bandProg_instr_copy h, rel_copyInstr E hl]
    by_cases hi0 : i = 0
    · rw [if_pos hi0, if_pos hi0]
      have : ∀ k ∈ Finset.range E.nt, (if bump pc t 1 k = 4 then copyReleases E E.nt k else 0) =
          (if pc k = 4 then copyReleases E E.nt k else 0) +
          if k = t then (if i = 0 ∧ pc t = 3 then copyReleases E E.nt t else 0) else 0 := by
        intro k _
        by_cases hk : k = t
        · subst hk
          rw [bump_self, if_pos rfl, if_neg (show ¬ pc k = 4 by omega), Nat.zero_add]
          by_cases h3 : pc k = 3
          · rw [if_pos (by omega), if_pos ⟨hi0, h3⟩]
          · rw [if_neg (by omega), if_neg (fun h' => h3 h'.2)]
        · rw [bump_ne _ _ hk, if_neg hk]; rfl
      rw [Finset.sum_congr rfl this, Finset.sum_add_distrib, Finset.sum_ite_eq' (Finset.range E.nt) t,
        if_pos (Finset.mem_range.2 h)]
    · rw [if_neg hi0, if_neg hi0, if_neg (fun h' => hi0 h'.1), bump_ne _ _ (by omega)]
      rfl
  · subst h
    rw [bandProg_len_sweep hsw] at hl
    rw [bandProg_instr_sweep hsw, rel_sweepInstr E hl]
    by_cases hi0 : i = 0
    · rw [if_pos hi0, if_pos hi0, other (by omega), if_neg (by omega)]; rfl
    · rw [if_neg hi0, if_neg hi0]
      by_cases h : i = sw + 1
      · subst h
        rw [show sw + 1 - 1 = sw by omega, bump_self, relD_succ hl]
        simp only [true_and]
      · rw [bump_ne _ _ (show E.nt + (i - 1) ≠ E.nt + sw by omega)]
        simp only [h, false_and, if_false, Nat.add_zero]
  · subst h
    rw [bandProg_instr_fin]
    show _ = _ + 0
    by_cases hi0 : i = 0
    · rw [if_pos hi0, if_pos hi0, other (by omega)]; rfl
    · rw [if_neg hi0, if_neg hi0, bump_ne _ _ (by omega)]; rfl
  · rw [bandProg_instr_last h, (acq_lastInstr E t _ i).2]
    by_cases hi0 : i = 0
    · rw [if_pos hi0, if_pos hi0, other (by omega)]; rfl
    · rw [if_neg hi0, if_neg hi0, bump_ne _ _ (by omega)]; rfl

/-- Counters are what was released and not yet acquired. -/
theorem sem_inv {E : BtEnv K} {s : BtSt K} {k : Conf (BtSt K)} {l : Nat} (h : Steps (bandProg E) (start s) k l) :
    ∀ i ≤ nrSweeps E.cplx E.size, k.sem i + consumed E k.pc i = produced E k.pc i := by
  generalize hk0 : start s = k0 at h
  induction h with
  | refl =>
    subst hk0
    intro i _
    unfold consumed produced
    show 0 + _ = _
    by_cases h0 : i = 0
    · simp [start, h0, acqD]
    · have hr0 : relD (nrSteps (i - 1) E.size E.b) 0 = 0 := by
        unfold relD
        rw [if_neg (by omega)]
      simp [start, h0, acqD, hr0]
  | @tail k' k'' m h1 h2 ih =>
    subst hk0
    cases h2 with
    | @step t ht hl he =>
      intro i hi
      show semAfter k'.sem _ i + consumed E (bump k'.pc t 1) i = produced E (bump k'.pc t 1) i
      rw [consumed_step hl hi, produced_step hl hi, ← ih i hi]
      have := semAfter_eq he i
      omega

end DLAF

namespace DLAF.Sem
/-- A task past a wait: the other one has ended. -/
theorem Steps.waited {S : Type*} {P : Prog S} {s : S} {k : Conf S} {l : Nat} (h : Steps P (start s) k l) :
    ∀ t q u, q < k.pc t → P.instr t q = .wait u → P.len u ≤ k.pc u := by
  generalize hk0 : start s = k0 at h
  induction h with
  | refl => subst hk0; intro t q u hq; exact absurd hq (Nat.not_lt_zero _)
  | @tail k' k'' m h1 h2 ih =>
    subst hk0
    cases h2 with
    | @step t ht hl he =>
      intro t' q u hq hi
      have mono : k'.pc u ≤ bump k'.pc t 1 u := by
        unfold bump; split <;> omega
      refine Nat.le_trans ?_ mono
      change q < bump k'.pc t 1 t' at hq
      by_cases h' : t' = t
      · subst h'
        rw [bump_self] at hq
        by_cases hq' : q < k'.pc t'
        · exact ih t' q u hq' hi
        · have : q = k'.pc t' := by omega
          subst this
          rw [hi] at he
          exact he
      · rw [bump_ne _ _ h'] at hq
        exact ih t' q u hq hi
end DLAF.Sem
