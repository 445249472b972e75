import Verif.Lemmas.BandSem
import Verif.Lemmas.Tasks
/- The tasks of the reduction to tridiagonal form do not race, and are never blocked for ever. -/
namespace DLAF
open scoped Classical
open Sem
variable {K : Type*} [RCLike K]

/-- Preconditions, with a nonempty matrix and at least one thread. -/
structure BtOK (E : BtEnv K) : Prop where
  hb : 2 ≤ E.b
  hd : E.nb % E.b = 0
  hnb : 0 < E.nb
  hs : 0 < E.size
  ht : 0 < E.threads

theorem BtOK.nbdiv {E : BtEnv K} (h : BtOK E) : E.nb / E.b * E.b = E.nb := by
  have := Nat.div_add_mod E.nb E.b
  rw [h.hd, Nat.mul_comm] at this
  exact this

theorem BtOK.workers {E : BtEnv K} (h : BtOK E) : 0 < maxWorkers E := by
  have hb := h.hb
  have hs := h.hs
  have ht := h.ht
  unfold maxWorkers
  have : 0 < (E.size + (2 * E.b - 1) - 1) / (2 * E.b - 1) := Nat.div_pos (by omega) (by omega)
  omega

theorem BtOK.nt_pos {E : BtEnv K} (h : BtOK E) : 0 < E.nt := by
  have hnb := h.hnb
  have hs := h.hs
  exact Nat.div_pos (by omega) hnb

theorem BtOK.lt_size {E : BtEnv K} (h : BtOK E) {t : Nat} (ht : t < E.nt) : t * E.nb < E.size := by
  have hnb := h.hnb
  have h1 : (t + 1) * E.nb ≤ E.size + E.nb - 1 := (Nat.le_div_iff_mul_le hnb).1 ht
  rw [Nat.add_mul, Nat.one_mul] at h1
  omega

theorem BtOK.size_le {E : BtEnv K} (h : BtOK E) : E.size ≤ E.nt * E.nb := by
  have hnb := h.hnb
  have h1 := Nat.div_add_mod (E.size + E.nb - 1) E.nb
  have h2 := Nat.mod_lt (E.size + E.nb - 1) hnb
  have h3 : E.nt * E.nb = E.nb * ((E.size + E.nb - 1) / E.nb) := Nat.mul_comm _ _
  omega

/-! ### numbers of steps -/

theorem ceil_mul {N b : Nat} (hb : 0 < b) : N ≤ (N + b - 1) / b * b ∧ (N + b - 1) / b * b < N + b := by
  have h1 := Nat.div_add_mod (N + b - 1) b
  have h2 := Nat.mod_lt (N + b - 1) hb
  rw [Nat.mul_comm] at h1
  omega

theorem nrSteps_pos {sw size b : Nat} (hb : 0 < b) (h : sw + 2 ≤ size) : 1 ≤ nrSteps sw size b := by
  unfold nrSteps
  split
  · exact Nat.le_refl 1
  · exact Nat.div_pos (by omega) hb

theorem nrSteps_succ {sw size b : Nat} (hb : 0 < b) (h : sw + 3 ≤ size) :
    nrSteps (sw + 1) size b ≤ nrSteps sw size b ∧ nrSteps sw size b ≤ nrSteps (sw + 1) size b + 1 := by
  have hp := nrSteps_pos hb (show sw + 1 + 2 ≤ size by omega)
  have hp' := nrSteps_pos hb (show sw + 2 ≤ size by omega)
  by_cases h1 : sw + 1 + 2 = size
  · have e1 : nrSteps (sw + 1) size b = 1 := if_pos h1
    have e2 : nrSteps sw size b = (size - sw - 2 + b - 1) / b := if_neg (by omega)
    rw [show size - sw - 2 + b - 1 = b by omega, Nat.div_self hb] at e2
    omega
  · have e1 : nrSteps (sw + 1) size b = (size - (sw + 1) - 2 + b - 1) / b := if_neg h1
    have e2 : nrSteps sw size b = (size - sw - 2 + b - 1) / b := if_neg (by omega)
    rw [e1, e2]
    constructor
    · exact Nat.div_le_div_right (by omega)
    · rw [← Nat.add_div_right _ hb]
      exact Nat.div_le_div_right (by omega)

/-- The steps of a sweep reach the last two rows. -/
theorem nrSteps_mul {sw size b : Nat} (hb : 2 ≤ b) : size ≤ 2 + sw + nrSteps sw size b * b := by
  unfold nrSteps
  split
  · omega
  · have := (ceil_mul (N := size - sw - 2) (show 0 < b by omega)).1
    omega

/-- Steps start before the last row (or in it, in the last sweep). -/
theorem nrSteps_lt {sw size b st : Nat} (hb : 2 ≤ b) (hs : sw + 2 ≤ size) (h : st < nrSteps sw size b) :
    1 + sw + st * b < size := by
  unfold nrSteps at h
  split at h
  · have : st = 0 := by omega
    subst this
    omega
  · have h2 := (ceil_mul (N := size - sw - 2) (show 0 < b by omega)).2
    have h3 : (st + 1) * b ≤ (size - sw - 2 + b - 1) / b * b := Nat.mul_le_mul_right b h
    rw [Nat.add_mul, Nat.one_mul] at h3
    omega

theorem sweeps_le {cplx : Bool} {size : Nat} : nrSweeps cplx size ≤ size - 1 ∧ size - 2 ≤ nrSweeps cplx size := by
  unfold nrSweeps
  split <;> omega

/-- The steps of the `d`-th sweep from the end. -/
theorem nrSteps_end {cplx : Bool} {size b sw d : Nat} (hb : 0 < b) (hd : sw + d = nrSweeps cplx size) (hd1 : 1 ≤ d) :
    nrSteps sw size b ≤ d := by
  have hS := sweeps_le (cplx := cplx) (size := size)
  unfold nrSteps
  split
  · exact hd1
  · have : (size - sw - 2 + b - 1) / b * b < size - sw - 2 + b := (ceil_mul hb).2
    by_contra hc
    push Not at hc
    have h3 : (d + 1) * b ≤ (size - sw - 2 + b - 1) / b * b := Nat.mul_le_mul_right b hc
    have h4 : d * 1 ≤ d * b := Nat.mul_le_mul_left d hb
    rw [Nat.add_mul, Nat.one_mul] at h3
    omega

/-! ### who is ahead -/

theorem rel_ahead {ns p a : Nat} (ha : 1 ≤ a) (h : a ≤ relD ns p) : 4 + 4 * min a ns ≤ p := by
  unfold relD at h
  split at h <;> omega

section reach
variable {E : BtEnv K} {s : BtSt K} {k : Conf (BtSt K)} {l : Nat}

theorem consumed_sweep {sw : Nat} (h : sw < nrSweeps E.cplx E.size) : consumed E k.pc sw = acqD (k.pc (E.nt + sw)) := if_pos h

/-- A sweep that has acquired `1 + i` units is behind the sweep before it. -/
theorem ahead_one (hr : Steps (bandProg E) (start s) k l) {sw a : Nat} (hs : sw + 1 ≤ nrSweeps E.cplx E.size) (ha : 1 ≤ a)
    (h : a ≤ consumed E k.pc (sw + 1)) : 4 + 4 * min a (nrSteps sw E.size E.b) ≤ k.pc (E.nt + sw) := by
  have h1 := sem_inv hr (sw + 1) hs
  have h2 : produced E k.pc (sw + 1) = relD (nrSteps sw E.size E.b) (k.pc (E.nt + sw)) := if_neg (by omega)
  exact rel_ahead ha (by omega)

/-- ... and behind all the earlier ones, by one step more for each. -/
theorem ahead (ok : BtOK E) (hr : Steps (bandProg E) (start s) k l) {sw i : Nat} (hs : sw ≤ nrSweeps E.cplx E.size)
    (h : 1 + i ≤ consumed E k.pc sw) : ∀ d, d < sw →
      4 + 4 * min (i + (d + 1)) (nrSteps (sw - (d + 1)) E.size E.b) ≤ k.pc (E.nt + (sw - (d + 1))) := by
  have hb := ok.hb
  have hS := sweeps_le (cplx := E.cplx) (size := E.size)
  intro d
  induction d with
  | zero =>
    intro hd
    have := ahead_one hr (sw := sw - 1) (a := 1 + i) (by omega) (by omega) (by rw [show sw - 1 + 1 = sw by omega]; exact h)
    rw [Nat.add_comm 1 i] at this
    exact this
  | succ d ih =>
    intro hd
    have h1 := ih (by omega)
    have hlt : sw - (d + 1) < nrSweeps E.cplx E.size := by omega
    have h2 : 1 + min (i + (d + 1)) (nrSteps (sw - (d + 1)) E.size E.b) ≤ consumed E k.pc (sw - (d + 1)) := by
      rw [consumed_sweep hlt]
      unfold acqD
      split <;> omega
    have h3 := ahead_one hr (sw := sw - (d + 1 + 1)) (a := 1 + min (i + (d + 1)) (nrSteps (sw - (d + 1)) E.size E.b)) (by omega)
      (by omega) (by rw [show sw - (d + 1 + 1) + 1 = sw - (d + 1) by omega]; exact h2)
    have h4 := (nrSteps_succ (sw := sw - (d + 1 + 1)) (size := E.size) (b := E.b) (by omega) (by omega)).2
    rw [show sw - (d + 1 + 1) + 1 = sw - (d + 1) by omega] at h4
    omega

/-- ... in terms of the earlier sweep. -/
theorem ahead' (ok : BtOK E) (hr : Steps (bandProg E) (start s) k l) {sw sw' i : Nat} (hs : sw ≤ nrSweeps E.cplx E.size)
    (h : 1 + i ≤ consumed E k.pc sw) (hlt : sw' < sw) :
    4 + 4 * min (i + (sw - sw')) (nrSteps sw' E.size E.b) ≤ k.pc (E.nt + sw') := by
  have := ahead ok hr hs h (sw - sw' - 1) (by omega)
  rw [show sw - (sw - sw' - 1 + 1) = sw' by omega, show sw - sw' - 1 + 1 = sw - sw' by omega] at this
  exact this

theorem copy_wait (hr : Steps (bandProg E) (start s) k l) {t : Nat} (ht : t + 1 < E.nt) (h : 3 ≤ k.pc (t + 1)) : k.pc t = 4 := by
  have h1 := hr.waited (t + 1) 2 t (by omega) (by
    rw [bandProg_instr_copy ht]
    unfold copyInstr
    rw [if_neg (by omega), if_neg (by omega), if_pos rfl, if_neg (by omega)]
    rfl)
  have h2 := hr.pc_le t
  rw [bandProg_len_copy (by omega)] at h1 h2
  omega

theorem copy_prefix (hr : Steps (bandProg E) (start s) k l) {t : Nat} (h : k.pc t ≠ 4) : ∀ i, t + i < E.nt → k.pc (t + i) ≠ 4
  | 0, _ => h
  | i + 1, hi => fun h4 => copy_prefix hr h i (by omega) (copy_wait hr (by omega) (show 3 ≤ k.pc (t + i + 1) by
      rw [show t + i + 1 = t + (i + 1) by omega]; omega))

/-- The units of the first semaphore bound the copies that are still missing. -/
theorem copies_ahead0 (ok : BtOK E) (hr : Steps (bandProg E) (start s) k l) {a t : Nat} (h : a ≤ consumed E k.pc 0)
    (ht : t < E.nt) (h4 : k.pc t ≠ 4) : a * E.b ≤ t * E.nb := by
  have h1 := sem_inv hr 0 (Nat.zero_le _)
  have h2 : produced E k.pc 0 = ∑ u ∈ Finset.range E.nt, (if k.pc u = 4 then copyReleases E E.nt u else 0) := if_pos rfl
  have h3 : ∑ u ∈ Finset.range E.nt, (if k.pc u = 4 then copyReleases E E.nt u else 0) ≤
      ∑ u ∈ Finset.range E.nt, if u < t then E.nb / E.b else 0 := by
    refine Finset.sum_le_sum fun u hu => ?_
    have hu' := Finset.mem_range.1 hu
    by_cases hut : u < t
    · rw [if_pos hut]
      have : copyReleases E E.nt u = E.nb / E.b := if_pos (by omega)
      rw [this]
      split
      · exact Nat.le_refl _
      · exact Nat.zero_le _
    · rw [if_neg hut, if_neg (by
        have := copy_prefix hr h4 (u - t) (by omega)
        rw [show t + (u - t) = u by omega] at this
        exact this)]
  have h5 : ∑ u ∈ Finset.range E.nt, (if u < t then E.nb / E.b else 0) = t * (E.nb / E.b) := by
    rw [← Finset.sum_filter, show (Finset.range E.nt).filter (fun u => u < t) = Finset.range t by
      ext u; simp only [Finset.mem_filter, Finset.mem_range]; omega, Finset.sum_const, Finset.card_range]
    rfl
  have h6 : a ≤ t * (E.nb / E.b) := by omega
  calc a * E.b ≤ t * (E.nb / E.b) * E.b := Nat.mul_le_mul_right _ h6
    _ = t * E.nb := by rw [Nat.mul_assoc, ok.nbdiv]

theorem copies_ahead (ok : BtOK E) (hr : Steps (bandProg E) (start s) k l) {sw i t : Nat} (hs : sw ≤ nrSweeps E.cplx E.size)
    (h : 1 + i ≤ consumed E k.pc sw) (ht : t < E.nt) (h4 : k.pc t ≠ 4) : (1 + i + sw) * E.b ≤ t * E.nb := by
  have hb := ok.hb
  by_cases h0 : sw = 0
  · subst h0
    rw [Nat.add_zero]
    exact copies_ahead0 ok hr h ht h4
  · have hS := sweeps_le (cplx := E.cplx) (size := E.size)
    have h1 := ahead' ok hr hs h (sw' := 0) (by omega)
    have h2 : 1 + min (i + sw) (nrSteps 0 E.size E.b) ≤ consumed E k.pc 0 := by
      rw [consumed_sweep (by omega)]
      unfold acqD
      rw [Nat.add_zero] at h1 ⊢
      split <;> omega
    have h3 := copies_ahead0 ok hr h2 ht h4
    have h5 := ok.lt_size ht
    have h6 := nrSteps_mul (sw := 0) (size := E.size) (b := E.b) hb
    by_cases hm : i + sw ≤ nrSteps 0 E.size E.b
    · rw [Nat.min_eq_left hm] at h3
      rw [Nat.add_assoc]
      exact h3
    · rw [Nat.min_eq_right (by omega), Nat.add_mul, Nat.one_mul] at h3
      omega

/-- A worker is held by one sweep at a time. -/
theorem worker_done (ok : BtOK E) (hr : Steps (bandProg E) (start s) k l) : ∀ sw, sw < nrSweeps E.cplx E.size →
    1 ≤ k.pc (E.nt + sw) → ∀ sw' < sw, sw' % maxWorkers E = sw % maxWorkers E →
    k.pc (E.nt + sw') = (bandProg E).len (E.nt + sw') := by
  have hW := ok.workers
  intro sw
  induction sw using Nat.strongRecOn with
  | _ sw ih =>
    intro hs h1 sw' hlt hmod
    have hge : sw' + maxWorkers E ≤ sw := by
      have a1 := Nat.div_add_mod sw (maxWorkers E)
      have a2 := Nat.div_add_mod sw' (maxWorkers E)
      rw [hmod] at a2
      have a3 : sw' / maxWorkers E < sw / maxWorkers E := by
        by_contra hc
        have := Nat.mul_le_mul_left (maxWorkers E) (show sw / maxWorkers E ≤ sw' / maxWorkers E by omega)
        omega
      have a4 := Nat.mul_le_mul_left (maxWorkers E) a3
      rw [Nat.succ_eq_add_one, Nat.mul_add, Nat.mul_one] at a4
      omega
    have hw := hr.waited (E.nt + sw) 0 (E.nt + (sw - maxWorkers E)) (by omega) (by
      rw [bandProg_instr_sweep hs]
      unfold sweepInstr
      rw [if_pos rfl, if_pos (by omega)])
    have hle := hr.pc_le (E.nt + (sw - maxWorkers E))
    by_cases he : sw' = sw - maxWorkers E
    · rw [he]; omega
    · refine ih (sw - maxWorkers E) (by omega) (by omega) ?_ sw' (by omega) ?_
      · rw [bandProg_len_sweep (by omega)] at hw
        omega
      · rw [hmod]
        exact Nat.mod_eq_sub_mod (by omega)

end reach

end DLAF
