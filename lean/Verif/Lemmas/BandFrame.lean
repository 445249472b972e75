import Verif.Lemmas.BandProg
/- The cells that the tasks of `bandProg` touch lie in the allocated memory. -/
namespace DLAF
open Sem
open scoped Classical
variable {K : Type*} [RCLike K] {E : BtEnv K}

/-- Where a cell may be: see `foot_bound`. -/
def CellOK (E : BtEnv K) : BtCell → Prop
  | .mem a => a < E.size * (2 * E.b)
  | .worker w => w < maxWorkers E
  | .refl x y => y < nrSweeps E.cplx E.size ∧ y / E.b * E.b ≤ x ∧ x < E.size
  | .trid i => i < E.size

theorem bandCols_ok (hb : 2 ≤ E.b) {lo hi : Nat} (h : hi ≤ E.size) {c : BtCell} (hc : bandCols E.b lo hi c) : CellOK E c := by
  obtain ⟨a, rfl, h1, h2⟩ := bandCols_mem hc
  show a < E.size * (2 * E.b)
  exact (Nat.div_lt_iff_lt_mul (by omega)).1 (by omega)

theorem tridRows_ok {lo hi : Nat} (h : hi ≤ E.size) {c : BtCell} (hc : tridRows lo hi c) : CellOK E c := by
  obtain ⟨a, rfl, h1, h2⟩ := tridRows_mem hc
  show a < E.size
  omega

theorem foot_bound (ok : BtOK E) {t q : Nat} {c : BtCell} (h : btFoot E t q c) : CellOK E c := by
  have hb := ok.hb
  have hsz := ok.hs
  have hS := sweeps_le (cplx := E.cplx) (size := E.size)
  rcases task_cases (E := E) t with h1 | ⟨sw, hsw, h1⟩ | h1 | h1
  · rw [foot_copy h1] at h
    by_cases h2 : q < 2
    · rw [if_pos h2] at h; exact bandCols_ok hb (Nat.min_le_right _ _) h
    · rw [if_neg h2] at h; exact h.elim
  · subst h1
    rw [foot_sweep hsw] at h
    have hw : ∀ {c}, isWorker (sw % maxWorkers E) c → CellOK E c := by
      rintro c rfl
      exact Nat.mod_lt _ ok.workers
    unfold sweepFoot at h
    dsimp only at h
    by_cases h2 : q = 2
    · rw [if_pos h2] at h
      exact h.elim hw (bandCols_ok hb (by omega))
    rw [if_neg h2] at h
    by_cases h3 : q = 3
    · rw [if_pos h3] at h
      by_cases hm : (sw + 1) % E.nb = 0
      · rw [if_pos hm] at h
        exact h.elim (bandCols_ok hb (by omega)) (tridRows_ok (by omega))
      · rw [if_neg hm] at h; exact h.elim
    rw [if_neg h3] at h
    by_cases h4 : q < 4
    · rw [if_pos h4] at h; exact h.elim
    rw [if_neg h4] at h
    by_cases h5 : q % 4 = 0 ∧ (q - 4) / 4 < nrSteps sw E.size E.b
    · rw [if_pos h5] at h
      refine h.elim hw fun h => ?_
      obtain ⟨x, rfl, h6, h7⟩ := reflCol_mem h
      refine ⟨hsw, ?_, ?_⟩
      · rw [Nat.add_mul] at h6; omega
      · rw [Nat.add_mul] at h7
        have := Nat.div_mul_le_self sw E.b
        have := nrSteps_lt hb (by omega) h5.2
        omega
    rw [if_neg h5] at h
    by_cases h6 : q % 4 = 2
    · rw [if_pos h6] at h
      exact h.elim hw (bandCols_ok hb (Nat.min_le_right _ _))
    · rw [if_neg h6] at h; exact h.elim
  · subst h1
    rw [foot_fin] at h; exact h.elim
  · rw [foot_last h1] at h
    unfold lastFoot at h
    by_cases h2 : q = 2 ∧ t = E.nt + nrSweeps E.cplx E.size + 1 ∧ E.cplx = false ∧ (E.size - 1) % E.nb = 0
    · rw [if_pos h2] at h
      exact h.elim (bandCols_ok hb (by omega)) (tridRows_ok (by omega))
    rw [if_neg h2] at h
    by_cases h3 : q = 2 ∧ t = E.nt + nrSweeps E.cplx E.size + 2
    · rw [if_pos h3] at h
      exact h.elim (bandCols_ok hb (by omega)) (tridRows_ok (by omega))
    · rw [if_neg h3] at h; exact h.elim

/-- Cells in no footprint never change. -/
theorem steps_frame (ok : BtOK E) {s : BtSt K} {k : Conf (BtSt K)} {l : Nat} (h : Steps (bandProg E) (start s) k l) {c : BtCell}
    (hc : ¬ CellOK E c) : btView c k.s = btView c s := by
  generalize hk0 : start s = k0 at h
  induction h with
  | refl => rw [← hk0]; rfl
  | tail h1 h2 ih =>
    rw [← ih]
    cases h2 with
    | @step t ht hl he => exact (eff_local ok ht hl).1 _ c fun hf => hc (foot_bound ok hf)

end DLAF
