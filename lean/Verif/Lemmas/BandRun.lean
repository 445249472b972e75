import Verif.Lemmas.BandSweep
import Mathlib.Data.List.Range
/- The sweeps one after the other. -/
namespace DLAF
open scoped Classical
open Sem
variable {K : Type*} [RCLike K] {E : BtEnv K}

/-! ### products of reflectors -/

theorem hhSweep_succ (m b : Nat) (V : Nat → Nat → K) (sw k : Nat) :
    hhSweep m b V sw (k + 1) = hhSweep m b V sw k * hht m b V sw k := by
  unfold hhSweep
  rw [List.range_succ, List.map_append, List.prod_append, List.map_singleton, List.prod_singleton]

theorem hhSweeps_succ (m b : Nat) (V : Nat → Nat → K) (sw : Nat) :
    hhSweeps m b V (sw + 1) = hhSweeps m b V sw * hhSweep m b V sw (reflsOf b m sw) := by
  unfold hhSweeps
  rw [List.range_succ, List.map_append, List.prod_append, List.map_singleton, List.prod_singleton]

theorem hht_congr {m b : Nat} {V V' : Nat → Nat → K} {sw st : Nat} (hb : 0 < b) (h : ∀ x, x < (sw / b + st) * b + b → V x sw = V' x sw) :
    hht m b V sw st = hht m b V' sw st := by
  unfold hht
  have hv : hhVec m b V sw st = hhVec m b V' sw st := by
    funext x
    unfold hhVec
    dsimp only
    generalize (sw / b + st) * b = pos at h ⊢
    split
    · rfl
    split
    · rfl
    split
    · exact h _ (by omega)
    · rfl
  rw [hv, h _ (by omega)]

theorem hhSweep_congr {m b : Nat} {V V' : Nat → Nat → K} {sw : Nat} (hb : 0 < b) : ∀ k,
    (∀ x, x < (sw / b + k) * b → V x sw = V' x sw) → hhSweep m b V sw k = hhSweep m b V' sw k
  | 0, _ => rfl
  | k + 1, h => by
    have e : (sw / b + (k + 1)) * b = (sw / b + k) * b + b := by rw [← Nat.add_assoc, Nat.add_mul _ 1, Nat.one_mul]
    rw [e] at h
    rw [hhSweep_succ, hhSweep_succ, hhSweep_congr hb k (fun x hx => h x (by omega)), hht_congr hb h]

theorem hhSweeps_congr {m b : Nat} {V V' : Nat → Nat → K} (hb : 0 < b) : ∀ sw, (∀ s < sw, ∀ x, V x s = V' x s) →
    hhSweeps m b V sw = hhSweeps m b V' sw
  | 0, _ => rfl
  | sw + 1, h => by
    rw [hhSweeps_succ, hhSweeps_succ, hhSweeps_congr hb sw (fun s hs => h s (by omega)),
      hhSweep_congr hb _ (fun x _ => h sw (by omega) x)]

/-! ### invariants -/

/-- The Hermitian matrix given by the band. -/
noncomputable def bandM (E : BtEnv K) : Matrix (Fin E.size) (Fin E.size) K := hermM E.size (bandLow E.b E.size E.a)

/-- The copied part of the tridiagonal matrix. -/
def DE (E : BtEnv K) (c : Nat) (s : BtSt K) : Prop :=
  ∀ i < c, s.d i = RCLike.re (lo E.b s.mem i i) ∧ s.e i = RCLike.re (lo E.b s.mem (i + 1) i)

/-- Between sweeps. -/
def RestS (E : BtEnv K) (sw : Nat) (s : BtSt K) : Prop := ∃ G,
  toM E.size E.size G = (hhSweeps E.size E.b s.refl sw).conjTranspose * bandM E * hhSweeps E.size E.b s.refl sw ∧
  (hhSweeps E.size E.b s.refl sw).conjTranspose * hhSweeps E.size E.b s.refl sw = 1 ∧
  Rest E sw G s.mem ∧ DE E (sw / E.nb * E.nb) s

/-- Before step `k` of a sweep. -/
def PendS (E : BtEnv K) (sw k : Nat) (s : BtSt K) : Prop := ∃ G,
  toM E.size E.size G = (hhSweeps E.size E.b s.refl sw * hhSweep E.size E.b s.refl sw k).conjTranspose * bandM E *
    (hhSweeps E.size E.b s.refl sw * hhSweep E.size E.b s.refl sw k) ∧
  (hhSweeps E.size E.b s.refl sw * hhSweep E.size E.b s.refl sw k).conjTranspose *
    (hhSweeps E.size E.b s.refl sw * hhSweep E.size E.b s.refl sw k) = 1 ∧
  Pend E sw k G ⟨s.mem, s.tau (sw % maxWorkers E), s.v (sw % maxWorkers E)⟩ ∧ DE E ((sw + 1) / E.nb * E.nb) s

theorem lo_col {b : Nat} {m m' : Nat → K} {c x y : Nat} (h : ∀ a, a / (2 * b) < c → m a = m' a) (hy : y < c) (hx : x - y < 2 * b) :
    lo b m x y = lo b m' x y := h _ (by rw [col_addr hx]; exact hy)

theorem DE_mem (hb : 2 ≤ E.b) {c : Nat} {s s' : BtSt K} (hd : s'.d = s.d) (he : s'.e = s.e)
    (h : ∀ a, a / (2 * E.b) < c → s'.mem a = s.mem a) (hs : DE E c s) : DE E c s' := by
  intro i hi
  rw [hd, he, lo_col h hi (by omega), lo_col h hi (by omega)]
  exact hs i hi

theorem copyTridiag_d (hb : 2 ≤ E.b) (start nd ne : Nat) (s : BtSt K) (i : Nat) :
    (copyTridiag E start nd ne start s).d i = if start ≤ i ∧ i < start + nd then RCLike.re (lo E.b s.mem i i) else s.d i := by
  show (if start ≤ i ∧ i < start + nd then _ else s.d i) = _
  by_cases h : start ≤ i ∧ i < start + nd
  · rw [if_pos h, if_pos h]
    unfold lo
    rw [ptr_eq hb, ld_succ hb, Nat.sub_mul]
    have := Nat.mul_le_mul_right (2 * E.b) h.1
    congr 2
    omega
  · rw [if_neg h, if_neg h]

theorem copyTridiag_e (hb : 2 ≤ E.b) (start nd ne : Nat) (s : BtSt K) (i : Nat) :
    (copyTridiag E start nd ne start s).e i = if start ≤ i ∧ i < start + ne then RCLike.re (lo E.b s.mem (i + 1) i) else s.e i := by
  show (if start ≤ i ∧ i < start + ne then _ else s.e i) = _
  by_cases h : start ≤ i ∧ i < start + ne
  · rw [if_pos h, if_pos h]
    unfold lo
    rw [ptr_eq hb, ld_succ hb, Nat.sub_mul]
    have := Nat.mul_le_mul_right (2 * E.b) h.1
    congr 2
    omega
  · rw [if_neg h, if_neg h]

/-- The first part of a sweep. -/
theorem sweep_start (ok : BtOK E) (hl : LarfgSpec E.larfg) {sw : Nat} (hsw : sw + 2 ≤ E.size) {s : BtSt K} (h : RestS E sw s) :
    PendS E sw 0 ((if (sw + 1) % E.nb = 0 then copyTridiag E (sw - (E.nb - 1)) E.nb E.nb (sw / E.nb * E.nb) else fun s => s)
      (startSweep E (sw % maxWorkers E) sw s)) := by
  have hb := ok.hb
  have hnb := ok.hnb
  obtain ⟨G, h1, h2, h3, h4⟩ := h
  have hp := pend_start ok hl hsw (w := ⟨s.mem, s.tau (sw % maxWorkers E), s.v (sw % maxWorkers E)⟩) h3
  have hloc := (startSweep_local ok (w := sw % maxWorkers E) hsw).1 s
  have hmem : ∀ a, a / (2 * E.b) < sw → (startSweep E (sw % maxWorkers E) sw s).mem a = s.mem a := by
    intro a ha
    refine hloc (.mem a) ?_
    rintro (h | h)
    · cases h
    · have := h.1; omega
  have hlow : sw / E.nb * E.nb ≤ sw := Nat.div_mul_le_self _ _
  have hde := DE_mem hb (s := s) (s' := startSweep E (sw % maxWorkers E) sw s) rfl rfl
    (fun a ha => hmem a (by omega)) h4
  have hP : Pend E sw 0 G ⟨(startSweep E (sw % maxWorkers E) sw s).mem, (startSweep E (sw % maxWorkers E) sw s).tau (sw % maxWorkers E),
      (startSweep E (sw % maxWorkers E) sw s).v (sw % maxWorkers E)⟩ := by
    have e1 : (startSweep E (sw % maxWorkers E) sw s).tau (sw % maxWorkers E) = (hhReflector E (min (E.size - sw - 1) E.b) (E.ptr 1 sw)
      ⟨s.mem, s.tau (sw % maxWorkers E), s.v (sw % maxWorkers E)⟩).tau := if_pos rfl
    have e2 : (startSweep E (sw % maxWorkers E) sw s).v (sw % maxWorkers E) = (hhReflector E (min (E.size - sw - 1) E.b) (E.ptr 1 sw)
      ⟨s.mem, s.tau (sw % maxWorkers E), s.v (sw % maxWorkers E)⟩).v := if_pos rfl
    rw [e1, e2]
    exact hp
  have hr : (startSweep E (sw % maxWorkers E) sw s).refl = s.refl := rfl
  rw [← hr] at h1 h2
  generalize startSweep E (sw % maxWorkers E) sw s = s1 at *
  have hone : hhSweeps E.size E.b s1.refl sw * hhSweep E.size E.b s1.refl sw 0 = hhSweeps E.size E.b s1.refl sw := by
    show _ * (1 : Matrix _ _ K) = _
    rw [Matrix.mul_one]
  by_cases h5 : (sw + 1) % E.nb = 0
  · rw [if_pos h5]
    obtain ⟨e1, e2, e3⟩ := last_row ok h5
    rw [e1, e2]
    rw [e1] at hde
    refine ⟨G, ?_, ?_, hP, ?_⟩
    · have hr2 : (copyTridiag E (sw + 1 - E.nb) E.nb E.nb (sw + 1 - E.nb) s1).refl = s1.refl := rfl
      rw [hr2, hone]; exact h1
    · have hr2 : (copyTridiag E (sw + 1 - E.nb) E.nb E.nb (sw + 1 - E.nb) s1).refl = s1.refl := rfl
      rw [hr2, hone]; exact h2
    · intro i hi
      have h6 := Nat.div_mul_le_self (sw + 1) E.nb
      have h7 : (copyTridiag E (sw + 1 - E.nb) E.nb E.nb (sw + 1 - E.nb) s1).mem = s1.mem := rfl
      rw [copyTridiag_d hb, copyTridiag_e hb, h7]
      by_cases h8 : sw + 1 - E.nb ≤ i
      · rw [if_pos ⟨h8, by omega⟩, if_pos ⟨h8, by omega⟩]; exact ⟨rfl, rfl⟩
      · rw [if_neg (by omega), if_neg (by omega)]
        exact hde i (by omega)
  · rw [if_neg h5]
    have h6 : (sw + 1) / E.nb = sw / E.nb := by
      rw [Nat.succ_div, if_neg (fun h => h5 (Nat.mod_eq_zero_of_dvd h)), Nat.add_zero]
    refine ⟨G, by rw [hone]; exact h1, by rw [hone]; exact h2, hP, by rw [h6]; exact hde⟩

theorem conj_step {n : Nat} {G A : Matrix (Fin n) (Fin n) K} {P H : Matrix (Fin n) (Fin n) K}
    (h1 : G = P.conjTranspose * A * P) : H.conjTranspose * G * H = (P * H).conjTranspose * A * (P * H) := by
  rw [h1, Matrix.conjTranspose_mul]
  simp only [Matrix.mul_assoc]

theorem unit_step {n : Nat} {P H : Matrix (Fin n) (Fin n) K} (h1 : P.conjTranspose * P = 1) (h2 : H.conjTranspose * H = 1) :
    (P * H).conjTranspose * (P * H) = 1 := by
  rw [Matrix.conjTranspose_mul, Matrix.mul_assoc, ← Matrix.mul_assoc P.conjTranspose, h1, Matrix.one_mul, h2]

/-- The reflector that `copyRefl` stores. -/
theorem hht_copy (ok : BtOK E) {w sw k : Nat} (hj : 1 + sw + k * E.b < E.size) (s : BtSt K) (hv : s.v w 0 = 1) :
    hht E.size E.b (copyRefl E w sw k s).refl sw k =
      reflector E.size (emb (firstRow E sw k) (sizeHHR E sw k) (s.v w)) (s.tau w) := by
  have hb := ok.hb
  rw [copyRefl_eq ok]
  unfold hht
  dsimp only
  rw [if_pos ⟨rfl, rfl⟩]
  congr 1
  funext x
  unfold hhVec emb sizeHHR firstRow
  dsimp only
  generalize (sw / E.b + k) * E.b = pos
  generalize 1 + sw + k * E.b = j at hj ⊢
  by_cases h1 : x < j
  · rw [if_pos h1, if_neg (by omega)]
  rw [if_neg h1]
  by_cases h2 : x = j
  · rw [if_pos h2, if_pos (by omega), h2, Nat.sub_self, hv]
  rw [if_neg h2]
  by_cases h3 : x < j + min E.b (E.size - j)
  · rw [if_pos h3, if_neg (by omega), if_pos (by omega), if_pos (by omega)]
    congr 1
    omega
  · rw [if_neg h3, if_neg (by omega)]

/-- What a step does to the invariant. -/
theorem sweep_step (ok : BtOK E) {sw k : Nat} (hj : 1 + sw + k * E.b < E.size) {s : BtSt K} (h : PendS E sw k s) {s' : BtSt K}
    (hs' : s' = doStep E (sw % maxWorkers E) sw k (copyRefl E (sw % maxWorkers E) sw k s)) :
    ∃ G, Pend E sw k G ⟨s.mem, s.tau (sw % maxWorkers E), s.v (sw % maxWorkers E)⟩ ∧
      toM E.size E.size (congF E.size (emb (firstRow E sw k) (sizeHHR E sw k) (s.v (sw % maxWorkers E))) (s.tau (sw % maxWorkers E)) G) =
        (hhSweeps E.size E.b s'.refl sw * hhSweep E.size E.b s'.refl sw (k + 1)).conjTranspose * bandM E *
          (hhSweeps E.size E.b s'.refl sw * hhSweep E.size E.b s'.refl sw (k + 1)) ∧
      (hhSweeps E.size E.b s'.refl sw * hhSweep E.size E.b s'.refl sw (k + 1)).conjTranspose *
        (hhSweeps E.size E.b s'.refl sw * hhSweep E.size E.b s'.refl sw (k + 1)) = 1 ∧
      (⟨s'.mem, s'.tau (sw % maxWorkers E), s'.v (sw % maxWorkers E)⟩ : Wk K) =
        stepFull E sw k ⟨s.mem, s.tau (sw % maxWorkers E), s.v (sw % maxWorkers E)⟩ ∧ DE E ((sw + 1) / E.nb * E.nb) s' := by
  have hb := ok.hb
  obtain ⟨G, h1, h2, h3, h4⟩ := h
  have hloc := (onWorker_local (w := sw % maxWorkers E) (stepFull_local hb hj)).1 (copyRefl E (sw % maxWorkers E) sw k s)
  have hlow : (sw + 1) / E.nb * E.nb ≤ sw + 1 := Nat.div_mul_le_self _ _
  have hde : DE E ((sw + 1) / E.nb * E.nb) s' := by
    subst hs'
    refine DE_mem hb (s := s) rfl rfl (fun a ha => ?_) h4
    have := hloc (.mem a) (by
      rintro (h | h)
      · cases h
      · have := h.1; omega)
    exact this
  have hrefl : s'.refl = (copyRefl E (sw % maxWorkers E) sw k s).refl := by subst hs'; rfl
  have hw : (⟨s'.mem, s'.tau (sw % maxWorkers E), s'.v (sw % maxWorkers E)⟩ : Wk K) =
      stepFull E sw k ⟨s.mem, s.tau (sw % maxWorkers E), s.v (sw % maxWorkers E)⟩ := by
    subst hs'
    have e1 : (doStep E (sw % maxWorkers E) sw k (copyRefl E (sw % maxWorkers E) sw k s)).tau (sw % maxWorkers E) =
      (stepFull E sw k ⟨s.mem, s.tau (sw % maxWorkers E), s.v (sw % maxWorkers E)⟩).tau := if_pos rfl
    have e2 : (doStep E (sw % maxWorkers E) sw k (copyRefl E (sw % maxWorkers E) sw k s)).v (sw % maxWorkers E) =
      (stepFull E sw k ⟨s.mem, s.tau (sw % maxWorkers E), s.v (sw % maxWorkers E)⟩).v := if_pos rfl
    rw [e1, e2]
    rfl
  have hH := hht_copy ok hj s h3.v0
  have hmem1 : hhSweeps E.size E.b s'.refl sw = hhSweeps E.size E.b s.refl sw := by
    rw [hrefl, copyRefl_eq ok]
    refine hhSweeps_congr (by omega) sw fun c hc x => ?_
    dsimp only
    rw [if_neg (by omega), if_neg (by omega)]
  have hmem2 : hhSweep E.size E.b s'.refl sw k = hhSweep E.size E.b s.refl sw k := by
    rw [hrefl, copyRefl_eq ok]
    refine hhSweep_congr (by omega) k fun x hx => ?_
    dsimp only
    generalize (sw / E.b + k) * E.b = pos at hx ⊢
    rw [if_neg (by omega), if_neg (by omega)]
  have hprod : hhSweeps E.size E.b s'.refl sw * hhSweep E.size E.b s'.refl sw (k + 1) =
      hhSweeps E.size E.b s.refl sw * hhSweep E.size E.b s.refl sw k *
        reflector E.size (emb (firstRow E sw k) (sizeHHR E sw k) (s.v (sw % maxWorkers E))) (s.tau (sw % maxWorkers E)) := by
    rw [hhSweep_succ, hmem1, hmem2, hrefl, hH, Matrix.mul_assoc]
  refine ⟨G, h3, ?_, ?_, hw, hde⟩
  · rw [hprod, toM_congF]
    exact conj_step h1
  · rw [hprod]
    refine unit_step h2 (emb_unitary ?_ h3.unit)
    unfold sizeHHR firstRow
    omega

/-! ### the task of a sweep -/

theorem runT_add {S : Type*} (P : Prog S) (t p : Nat) (m : Nat) : ∀ m' (s : S), runT P t p (m + m') s = runT P t (p + m) m' (runT P t p m s)
  | 0, s => rfl
  | m' + 1, s => by rw [← Nat.add_assoc, runT_succ_last, runT_add P t p m m' s, runT_succ_last, Nat.add_assoc]

theorem sweep_head {sw : Nat} (hsw : sw < nrSweeps E.cplx E.size) (s : BtSt K) :
    runT (bandProg E) (E.nt + sw) 0 4 s =
      (if (sw + 1) % E.nb = 0 then copyTridiag E (sw - (E.nb - 1)) E.nb E.nb (sw / E.nb * E.nb) else fun s => s)
        (startSweep E (sw % maxWorkers E) sw s) := by
  simp only [runT, bandProg_instr_sweep hsw]
  have e0 : ∀ s : BtSt K, eff (sweepInstr E E.nt sw 0) s = s := by
    intro s
    unfold sweepInstr
    dsimp only
    rw [if_pos rfl]
    by_cases h : maxWorkers E ≤ sw
    · rw [if_pos h]; rfl
    · rw [if_neg h]; rfl
  rw [e0]
  rfl

theorem sweep_four {sw k : Nat} (hsw : sw < nrSweeps E.cplx E.size) (hk : k < nrSteps sw E.size E.b) (s : BtSt K) :
    runT (bandProg E) (E.nt + sw) (4 + 4 * k) 4 s = doStep E (sw % maxWorkers E) sw k (copyRefl E (sw % maxWorkers E) sw k s) := by
  simp only [runT, bandProg_instr_sweep hsw]
  have q : ∀ i, i < 4 → sweepInstr E E.nt sw (4 + 4 * k + i) = if i = 0 then .act (copyRefl E (sw % maxWorkers E) sw k)
      else if i = 1 then .acquire sw else if i = 2 then .act (doStep E (sw % maxWorkers E) sw k) else .release (sw + 1) 1 := by
    intro i hi
    unfold sweepInstr
    dsimp only
    rw [if_neg (by omega), if_neg (by omega), if_neg (by omega), if_neg (by omega), if_neg (by omega),
      show (4 + 4 * k + i - 4) / 4 = k by omega, show (4 + 4 * k + i) % 4 = i by omega]
  have q0 := q 0 (by omega)
  have q1 := q 1 (by omega)
  have q2 := q 2 (by omega)
  have q3 := q 3 (by omega)
  rw [Nat.add_zero] at q0
  rw [show 4 + 4 * k + 1 + 1 + 1 = 4 + 4 * k + 3 by omega, show 4 + 4 * k + 1 + 1 = 4 + 4 * k + 2 by omega, q0, q1, q2, q3]
  rfl

/-- One sweep. -/
theorem sweep_run (ok : BtOK E) (hl : LarfgSpec E.larfg) {sw : Nat} (hsw : sw < nrSweeps E.cplx E.size) {s : BtSt K}
    (h : RestS E sw s) :
    RestS E (sw + 1) (runT (bandProg E) (E.nt + sw) 0 ((bandProg E).len (E.nt + sw)) s) := by
  have hb := ok.hb
  have hS := sweeps_le (cplx := E.cplx) (size := E.size)
  have hK := nrSteps_pos (b := E.b) (by omega) (show sw + 2 ≤ E.size by omega)
  have hlen := bandProg_len_sweep (E := E) hsw
  have key : ∀ k, k < nrSteps sw E.size E.b → PendS E sw k (runT (bandProg E) (E.nt + sw) 0 (4 + 4 * k) s) := by
    intro k
    induction k with
    | zero =>
      intro _
      rw [show 4 + 4 * 0 = 4 by omega, sweep_head hsw]
      exact sweep_start ok hl (by omega) h
    | succ k ih =>
      intro hk
      rw [show 4 + 4 * (k + 1) = (4 + 4 * k) + 4 by omega, runT_add, Nat.zero_add, sweep_four hsw (by omega)]
      obtain ⟨G, g1, g2, g3, g4, g5⟩ := sweep_step ok (nrSteps_lt hb (by omega) (show k < nrSteps sw E.size E.b by omega))
        (ih (by omega)) rfl
      refine ⟨_, g2, g3, ?_, g5⟩
      rw [g4]
      refine pend_step ok hl ?_ g1
      unfold nrSteps at hk
      split at hk
      · omega
      · have := (Nat.le_div_iff_mul_le (show 0 < E.b by omega)).1 (show k + 1 + 1 ≤ _ from hk)
        rw [Nat.add_mul (k + 1)] at this
        omega
  have hlt := nrSteps_lt hb (show sw + 2 ≤ E.size by omega) (show nrSteps sw E.size E.b - 1 < nrSteps sw E.size E.b by omega)
  have hend := nrSteps_mul (sw := sw) (size := E.size) hb
  obtain ⟨k, hk⟩ : ∃ k, nrSteps sw E.size E.b = k + 1 := ⟨_, (Nat.succ_pred_eq_of_pos hK).symm⟩
  have hsplit : runT (bandProg E) (E.nt + sw) 0 ((bandProg E).len (E.nt + sw)) s =
      doStep E (sw % maxWorkers E) sw k (copyRefl E (sw % maxWorkers E) sw k (runT (bandProg E) (E.nt + sw) 0 (4 + 4 * k) s)) := by
    rw [hlen, hk, show 5 + 4 * (k + 1) = ((4 + 4 * k) + 4) + 1 by omega, runT_succ_last, bandProg_instr_sweep hsw]
    have : sweepInstr E E.nt sw (0 + (4 + 4 * k + 4)) = .release (sw + 1) 1 := by
      unfold sweepInstr
      dsimp only
      rw [if_neg (by omega), if_neg (by omega), if_neg (by omega), if_neg (by omega), if_pos (by rw [hk]; omega)]
    rw [this]
    show runT _ _ _ _ _ = _
    rw [runT_add, Nat.zero_add, sweep_four hsw (by omega)]
  rw [hsplit]
  rw [hk] at hlt hend key
  rw [show k + 1 - 1 = k by omega] at hlt
  obtain ⟨G, g1, g2, g3, g4, g5⟩ := sweep_step ok hlt (key k (by omega)) rfl
  have hnr : reflsOf E.b E.size sw = k + 1 := hk
  refine ⟨_, by rw [hhSweeps_succ, hnr]; exact g2, by rw [hhSweeps_succ, hnr]; exact g3, ?_, g5⟩
  have := congrArg Wk.mem g4
  dsimp only at this
  rw [this]
  rw [Nat.add_mul] at hend
  refine pend_end ok hlt ?_ g1
  unfold firstRow
  omega

end DLAF
