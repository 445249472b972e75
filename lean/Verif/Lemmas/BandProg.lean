import Verif.Lemmas.BandLocal
/- Every action of the reduction to tridiagonal form stays in its footprint; its result does not depend on the schedule. -/
namespace DLAF
open scoped Classical
open Sem
variable {K : Type*} [RCLike K] {E : BtEnv K}

theorem last_row {E : BtEnv K} (ok : BtOK E) {sw : Nat} (h : (sw + 1) % E.nb = 0) :
    sw / E.nb * E.nb = sw + 1 - E.nb ∧ sw - (E.nb - 1) = sw + 1 - E.nb ∧ E.nb ≤ sw + 1 := by
  have hnb := ok.hnb
  have h1 := Nat.div_add_mod (sw + 1) E.nb
  rw [h, Nat.add_zero, Nat.mul_comm] at h1
  obtain ⟨m, hm⟩ : ∃ m, (sw + 1) / E.nb = m + 1 := by
    rcases Nat.eq_zero_or_pos ((sw + 1) / E.nb) with h' | h'
    · rw [h', Nat.zero_mul] at h1; omega
    · exact ⟨_, (Nat.succ_pred_eq_of_pos h').symm⟩
  rw [hm, Nat.add_mul, Nat.one_mul] at h1
  have h2 : sw / E.nb = m := by
    rw [show sw = m * E.nb + (E.nb - 1) by omega]
    exact col_addr (by omega)
  rw [h2]
  omega

theorem eff_ite_wait {F : BtCell → Prop} {p : Prop} [Decidable p] {u : Nat} :
    Local btView F (eff (if p then Instr.wait u else Instr.act fun s : BtSt K => s)) := by
  by_cases h : p
  · rw [if_pos h]; exact Local.id _
  · rw [if_neg h]; exact Local.id _

theorem startSweep_local (ok : BtOK E) {w sw : Nat} (h : sw + 2 ≤ E.size) :
    Local btView (fun c => isWorker w c ∨ bandCols E.b sw (sw + 1) c) (startSweep E w sw) := by
  have hb := ok.hb
  exact onWorker_local (hhReflector_local hb (by omega) (by omega) (Nat.le_refl _) (Nat.lt_succ_self _))

theorem lastCopy_local (ok : BtOK E) {i lo hi : Nat} (h1 : lo ≤ (i - 1) / E.nb * E.nb)
    (h2 : min ((i - 1) / E.nb * E.nb + E.nb) E.size ≤ hi) (h3 : (i - 1) / E.nb * E.nb ≤ hi) :
    Local btView (fun c => bandCols E.b lo hi c ∨ tridRows lo hi c) (lastCopy E i) := by
  unfold lastCopy
  dsimp only
  exact copyTridiag_local ok.hb h1 (by omega) (by omega)

theorem sweepInstr_local (ok : BtOK E) {t0 sw q : Nat} (h : sw < nrSweeps E.cplx E.size)
    (hq : q < 5 + 4 * nrSteps sw E.size E.b) : Local btView (sweepFoot E sw q) (eff (sweepInstr E t0 sw q)) := by
  have hb := ok.hb
  have hS := sweeps_le (cplx := E.cplx) (size := E.size)
  unfold sweepInstr sweepFoot
  dsimp only
  by_cases h0 : q = 0
  · subst h0
    rw [if_pos rfl]
    exact eff_ite_wait
  rw [if_neg h0]
  by_cases h1 : q = 1
  · rw [if_pos h1]; exact Local.id _
  rw [if_neg h1]
  by_cases h2 : q = 2
  · rw [if_pos h2, if_pos h2]
    exact startSweep_local ok (by omega)
  rw [if_neg h2, if_neg h2]
  by_cases h3 : q = 3
  · rw [if_pos h3, if_pos h3]
    by_cases h4 : (sw + 1) % E.nb = 0
    · rw [if_pos h4, if_pos h4]
      obtain ⟨e1, e2, e3⟩ := last_row ok h4
      rw [e1, e2]
      exact copyTridiag_local hb (Nat.le_refl _) (by omega) (by omega)
    · rw [if_neg h4, if_neg h4]; exact Local.id _
  rw [if_neg h3, if_neg h3, if_neg (show ¬ q < 4 by omega)]
  by_cases h4 : q = 4 + 4 * nrSteps sw E.size E.b
  · rw [if_pos h4]; exact Local.id _
  rw [if_neg h4]
  have hst : (q - 4) / 4 < nrSteps sw E.size E.b := by omega
  have hlt := nrSteps_lt hb (by omega) hst
  by_cases h5 : q % 4 = 0
  · rw [if_pos h5, if_pos ⟨h5, hst⟩]
    exact copyRefl_local ok hlt
  rw [if_neg h5, if_neg (fun h' => h5 h'.1)]
  by_cases h6 : q % 4 = 1
  · rw [if_pos h6]; exact Local.id _
  rw [if_neg h6]
  by_cases h7 : q % 4 = 2
  · rw [if_pos h7, if_pos h7]
    exact onWorker_local (stepFull_local hb hlt)
  · rw [if_neg h7, if_neg h7]; exact Local.id _

/-- What an instruction does stays in its footprint. -/
theorem eff_local (ok : BtOK E) {t q : Nat} (htn : t < (bandProg E).n) (hq : q < (bandProg E).len t) :
    Local btView (btFoot E t q) (eff ((bandProg E).instr t q)) := by
  have hb := ok.hb
  have hsz := ok.hs
  have hnb := ok.hnb
  rcases task_cases (E := E) t with h | ⟨sw, hsw, h⟩ | h | h
  · rw [foot_copy h, bandProg_instr_copy h]
    unfold copyInstr
    by_cases h0 : q = 0
    · rw [if_pos h0, if_pos (by omega)]; exact copyDiag_local ok h
    rw [if_neg h0]
    by_cases h1 : q = 1
    · rw [if_pos h1, if_pos (by omega)]
      by_cases h2 : t < E.nt - 1
      · rw [if_pos h2]; exact copyOffDiag_local ok (by omega)
      · rw [if_neg h2]; exact Local.id _
    rw [if_neg h1]
    by_cases h2 : q = 2
    · rw [if_pos h2]
      by_cases h3 : t = 0
      · rw [if_pos h3]; exact Local.id _
      · rw [if_neg h3]; exact Local.id _
    · rw [if_neg h2]; exact Local.id _
  · subst h
    rw [bandProg_len_sweep hsw] at hq
    rw [foot_sweep hsw, bandProg_instr_sweep hsw]
    exact sweepInstr_local ok hsw hq
  · subst h
    rw [bandProg_instr_fin]; exact Local.id _
  · have hn : t < E.nt + nrSweeps E.cplx E.size + 3 := htn
    rw [bandProg_len_last h] at hq
    rw [foot_last h, bandProg_instr_last h]
    unfold lastInstr lastFoot
    by_cases h0 : q = 0
    · rw [if_pos h0]; exact Local.id _
    rw [if_neg h0]
    by_cases h1 : q = 1
    · rw [if_pos h1]
      exact eff_ite_wait
    have h2 : q = 2 := by omega
    rw [if_neg h1]
    by_cases h3 : t = E.nt + nrSweeps E.cplx E.size + 1
    · rw [if_pos h3]
      by_cases h4 : E.cplx = false ∧ (E.size - 1) % E.nb = 0
      · rw [if_pos h4, if_pos ⟨h2, h3, h4.1, h4.2⟩]
        have h5 := Nat.div_add_mod (E.size - 1) E.nb
        rw [h4.2, Nat.add_zero, Nat.mul_comm] at h5
        rcases Nat.eq_zero_or_pos ((E.size - 1) / E.nb) with h6 | h6
        · rw [h6, Nat.zero_mul] at h5
          have h7 : (E.size - 1 - 1) / E.nb = 0 := by
            rw [show E.size - 1 - 1 = 0 by omega]; exact Nat.zero_div _
          refine lastCopy_local ok (Nat.le_refl _) ?_ ?_ <;> rw [h7, Nat.zero_mul] <;> omega
        · obtain ⟨m, hm⟩ : ∃ m, (E.size - 1) / E.nb = m + 1 := ⟨_, (Nat.succ_pred_eq_of_pos h6).symm⟩
          rw [hm, Nat.add_mul, Nat.one_mul] at h5
          have h7 : (E.size - 1 - 1) / E.nb = m := by
            rw [show E.size - 1 - 1 = m * E.nb + (E.nb - 1) by omega]
            exact col_addr (by omega)
          refine lastCopy_local ok (Nat.le_refl _) ?_ ?_ <;> rw [h7] <;> omega
      · rw [if_neg h4]; exact Local.id _
    · rw [if_neg h3, if_neg (fun h' => h3 h'.2.1), if_pos ⟨h2, by omega⟩]
      have h5 := Nat.div_mul_le_self (E.size - 1) E.nb
      exact lastCopy_local ok (Nat.le_refl _) (by omega) (by omega)

/-- The tasks do not race, and every schedule gives the result of executing them one after the other. -/
theorem band_one_result (ok : BtOK E) (s : BtSt K) :
    OneResult (bandProg E) s (runAll (bandProg E) (fun _ => 0) (bandProg E).n s) := by
  refine one_result (fun k l hr t htn hl f hf t' ht' q hq hq' s' => ?_) fun k l hr t htn hl hd => first_enabled ok hr htn hl hd
  have h1 := eff_local ok htn hl
  rw [hf] at h1
  have h2 := eff_local ok (t := t') (q := q) (by omega) hq'
  exact Local.comm (fun _ _ h => btView_ext h) h2 h1 (fun c hc => foot_disj ok hr htn ht' hl hq hq' c ⟨hc.2, hc.1⟩) s'

theorem band_race_free (ok : BtOK E) (s : BtSt K) : RaceFree (bandProg E) (btFoot E) s := by
  intro k l hr t ht t' ht' hne hl hl' f g hf hg c hc
  rcases Nat.lt_or_gt_of_ne hne with h | h
  · exact foot_disj ok hr ht' h hl' (Nat.le_refl _) hl c ⟨hc.2, hc.1⟩
  · exact foot_disj ok hr ht h hl (Nat.le_refl _) hl' c hc

end DLAF
