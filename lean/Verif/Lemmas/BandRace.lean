import Verif.Lemmas.BandOrder
/- Disjoint footprints and progress. -/
namespace DLAF
open scoped Classical
open Sem
variable {K : Type*} [RCLike K]
variable {E : BtEnv K} {s : BtSt K} {k : Conf (BtSt K)} {l : Nat}

theorem bandCols_mem {b lo hi : Nat} {c : BtCell} (h : bandCols b lo hi c) :
    ∃ a, c = .mem a ∧ lo ≤ a / (2 * b) ∧ a / (2 * b) < hi := by
  cases c with
  | mem a => exact ⟨a, rfl, h⟩
  | worker w => exact h.elim
  | refl x y => exact h.elim
  | trid i => exact h.elim

theorem tridRows_mem {lo hi : Nat} {c : BtCell} (h : tridRows lo hi c) : ∃ i, c = .trid i ∧ lo ≤ i ∧ i < hi := by
  cases c with
  | mem a => exact h.elim
  | worker w => exact h.elim
  | refl x y => exact h.elim
  | trid i => exact ⟨i, rfl, h⟩

theorem reflCol_mem {lo hi y : Nat} {c : BtCell} (h : reflCol lo hi y c) : ∃ x, c = .refl x y ∧ lo ≤ x ∧ x < hi := by
  cases c with
  | mem a => exact h.elim
  | worker w => exact h.elim
  | refl x y' => obtain ⟨h1, h2, h3⟩ := h; subst h3; exact ⟨x, rfl, h1, h2⟩
  | trid i => exact h.elim

theorem foot_copy {t q : Nat} (ht : t < E.nt) :
    btFoot E t q = if q < 2 then bandCols E.b (t * E.nb) (min ((t + 1) * E.nb) E.size) else fun _ => False := by
  unfold btFoot
  rw [if_pos ht]

/-- Footprint of a sweep. -/
noncomputable def sweepFoot (E : BtEnv K) (sw q : Nat) : BtCell → Prop :=
    let w := sw % maxWorkers E
    if q = 2 then fun c => isWorker w c ∨ bandCols E.b sw (sw + 1) c
    else if q = 3 then (if (sw + 1) % E.nb = 0 then
      fun c => bandCols E.b (sw + 1 - E.nb) (sw + 1) c ∨ tridRows (sw + 1 - E.nb) (sw + 1) c else fun _ => False)
    else if q < 4 then fun _ => False
    else
      let st := (q - 4) / 4
      if q % 4 = 0 ∧ st < nrSteps sw E.size E.b then
        fun c => isWorker w c ∨ reflCol ((sw / E.b + st) * E.b) ((sw / E.b + st) * E.b + min E.b (E.size - (1 + sw + st * E.b))) sw c
      else if q % 4 = 2 then fun c => isWorker w c ∨ bandCols E.b (1 + sw + st * E.b) (min (1 + sw + st * E.b + E.b) E.size) c
      else fun _ => False

theorem foot_sweep {sw q : Nat} (h : sw < nrSweeps E.cplx E.size) : btFoot E (E.nt + sw) q = sweepFoot E sw q := by
  unfold btFoot
  dsimp only
  rw [if_neg (by omega), if_pos (by omega), show E.nt + sw - E.nt = sw by omega]
  rfl

/-- What a cell of the footprint of a sweep is. -/
theorem sweepFoot_cases {sw q : Nat} {c : BtCell} (h : sweepFoot E sw q c) :
    (c = .worker (sw % maxWorkers E) ∧ (q = 2 ∨ 4 ≤ q)) ∨
    (∃ a, c = .mem a ∧ ((q = 2 ∨ q = 3) ∧ a / (2 * E.b) ≤ sw ∨
      4 ≤ q ∧ q % 4 = 2 ∧ 1 + sw + (q - 4) / 4 * E.b ≤ a / (2 * E.b) ∧ a / (2 * E.b) < 1 + sw + (q - 4) / 4 * E.b + E.b)) ∨
    (∃ i, c = .trid i ∧ q = 3 ∧ i ≤ sw) ∨
    (∃ x, c = .refl x sw ∧ 4 ≤ q ∧ q % 4 = 0 ∧ (q - 4) / 4 < nrSteps sw E.size E.b) := by
  unfold sweepFoot at h
  dsimp only at h
  by_cases h2 : q = 2
  · rw [if_pos h2] at h
    rcases h with h | h
    · exact Or.inl ⟨h, Or.inl h2⟩
    · obtain ⟨a, h3, h4, h5⟩ := bandCols_mem h
      exact Or.inr (Or.inl ⟨a, h3, Or.inl ⟨Or.inl h2, by omega⟩⟩)
  rw [if_neg h2] at h
  by_cases h3 : q = 3
  · rw [if_pos h3] at h
    by_cases hm : (sw + 1) % E.nb = 0
    · rw [if_pos hm] at h
      rcases h with h | h
      · obtain ⟨a, h4, h5, h6⟩ := bandCols_mem h
        exact Or.inr (Or.inl ⟨a, h4, Or.inl ⟨Or.inr h3, by omega⟩⟩)
      · obtain ⟨i, h4, h5, h6⟩ := tridRows_mem h
        exact Or.inr (Or.inr (Or.inl ⟨i, h4, h3, by omega⟩))
    · rw [if_neg hm] at h; exact h.elim
  rw [if_neg h3] at h
  by_cases h4 : q < 4
  · rw [if_pos h4] at h; exact h.elim
  rw [if_neg h4] at h
  by_cases h5 : q % 4 = 0 ∧ (q - 4) / 4 < nrSteps sw E.size E.b
  · rw [if_pos h5] at h
    rcases h with h | h
    · exact Or.inl ⟨h, Or.inr (by omega)⟩
    · obtain ⟨x, h6, _, _⟩ := reflCol_mem h
      exact Or.inr (Or.inr (Or.inr ⟨x, h6, by omega, h5.1, h5.2⟩))
  rw [if_neg h5] at h
  by_cases h6 : q % 4 = 2
  · rw [if_pos h6] at h
    rcases h with h | h
    · exact Or.inl ⟨h, Or.inr (by omega)⟩
    · obtain ⟨a, h7, h8, h9⟩ := bandCols_mem h
      exact Or.inr (Or.inl ⟨a, h7, Or.inr ⟨by omega, h6, h8, by omega⟩⟩)
  · rw [if_neg h6] at h; exact h.elim

theorem foot_fin {q : Nat} : btFoot E (E.nt + nrSweeps E.cplx E.size) q = fun _ => False := by
  unfold btFoot
  dsimp only
  rw [if_neg (by omega), if_neg (by omega), if_neg (by omega), if_neg (by omega)]

/-- Footprint of the last copies. -/
noncomputable def lastFoot (E : BtEnv K) (t q : Nat) : BtCell → Prop :=
  if q = 2 ∧ t = E.nt + nrSweeps E.cplx E.size + 1 ∧ E.cplx = false ∧ (E.size - 1) % E.nb = 0 then
    fun c => bandCols E.b ((E.size - 1 - 1) / E.nb * E.nb) (max (E.size - 1) 1) c ∨
      tridRows ((E.size - 1 - 1) / E.nb * E.nb) (max (E.size - 1) 1) c
  else if q = 2 ∧ t = E.nt + nrSweeps E.cplx E.size + 2 then
    fun c => bandCols E.b ((E.size - 1) / E.nb * E.nb) E.size c ∨ tridRows ((E.size - 1) / E.nb * E.nb) E.size c
  else fun _ => False

theorem foot_last {t q : Nat} (h : E.nt + nrSweeps E.cplx E.size < t) : btFoot E t q = lastFoot E t q := by
  unfold btFoot
  dsimp only
  rw [if_neg (by omega), if_neg (by omega)]
  rfl

theorem lastFoot_cases {t q : Nat} {c : BtCell} (h : lastFoot E t q c) : q = 2 ∧
    ((t = E.nt + nrSweeps E.cplx E.size + 1 ∧ (E.size - 1) % E.nb = 0 ∧
      ((∃ a, c = .mem a ∧ a / (2 * E.b) < max (E.size - 1) 1) ∨ ∃ i, c = .trid i ∧ i < max (E.size - 1) 1)) ∨
    (t = E.nt + nrSweeps E.cplx E.size + 2 ∧
      ((∃ a, c = .mem a ∧ (E.size - 1) / E.nb * E.nb ≤ a / (2 * E.b)) ∨ ∃ i, c = .trid i ∧ (E.size - 1) / E.nb * E.nb ≤ i))) := by
  unfold lastFoot at h
  by_cases h1 : q = 2 ∧ t = E.nt + nrSweeps E.cplx E.size + 1 ∧ E.cplx = false ∧ (E.size - 1) % E.nb = 0
  · rw [if_pos h1] at h
    refine ⟨h1.1, Or.inl ⟨h1.2.1, h1.2.2.2, ?_⟩⟩
    rcases h with h | h
    · obtain ⟨a, h2, h3, h4⟩ := bandCols_mem h
      exact Or.inl ⟨a, h2, h4⟩
    · obtain ⟨i, h2, h3, h4⟩ := tridRows_mem h
      exact Or.inr ⟨i, h2, h4⟩
  rw [if_neg h1] at h
  by_cases h1' : q = 2 ∧ t = E.nt + nrSweeps E.cplx E.size + 2
  · rw [if_pos h1'] at h
    refine ⟨h1'.1, Or.inr ⟨h1'.2, ?_⟩⟩
    rcases h with h | h
    · obtain ⟨a, h2, h3, h4⟩ := bandCols_mem h
      exact Or.inl ⟨a, h2, h3⟩
    · obtain ⟨i, h2, h3, h4⟩ := tridRows_mem h
      exact Or.inr ⟨i, h2, h3⟩
  · rw [if_neg h1'] at h; exact h.elim

/-- A task that is about to act touches nothing that an earlier task has still to touch. -/
theorem foot_disj (ok : BtOK E) (hr : Steps (bandProg E) (start s) k l) {t t' q : Nat} (htn : t < (bandProg E).n) (hlt : t' < t)
    (hl : k.pc t < (bandProg E).len t) (hq : k.pc t' ≤ q) (hq' : q < (bandProg E).len t') (c : BtCell) :
    ¬ (btFoot E t (k.pc t) c ∧ btFoot E t' q c) := by
  have hb := ok.hb
  have hS := sweeps_le (cplx := E.cplx) (size := E.size)
  rintro ⟨hc, hc'⟩
  -- copies that are not finished
  have hcopy : ∀ sw i, sw ≤ nrSweeps E.cplx E.size → 1 + i ≤ consumed E k.pc sw → t' < E.nt →
      ∃ a, c = .mem a ∧ (1 + i + sw) * E.b ≤ a / (2 * E.b) ∧ a / (2 * E.b) < E.size := by
    intro sw i hsw hi ht'
    rw [foot_copy ht'] at hc'
    by_cases h2 : q < 2
    · rw [if_pos h2] at hc'
      obtain ⟨a, h3, h4, h5⟩ := bandCols_mem hc'
      have := copies_ahead ok hr hsw hi ht' (by omega)
      exact ⟨a, h3, by omega, by omega⟩
    · rw [if_neg h2] at hc'; exact hc'.elim
  rcases task_cases (E := E) t with h | ⟨sw, hsw, h⟩ | h | h
  · -- two copies
    rw [foot_copy h] at hc
    rw [foot_copy (by omega)] at hc'
    by_cases h2 : k.pc t < 2
    · rw [if_pos h2] at hc
      by_cases h2' : q < 2
      · rw [if_pos h2'] at hc'
        obtain ⟨a, h3, h4, h5⟩ := bandCols_mem hc
        obtain ⟨a', h3', h4', h5'⟩ := bandCols_mem hc'
        rw [h3] at h3'
        have e : a = a' := BtCell.mem.inj h3'
        subst e
        have := Nat.mul_le_mul_right E.nb (show t' + 1 ≤ t by omega)
        omega
      · rw [if_neg h2'] at hc'; exact hc'.elim
    · rw [if_neg h2] at hc; exact hc.elim
  · subst h
    rw [foot_sweep hsw] at hc
    have hcs := sweepFoot_cases hc
    rw [bandProg_len_sweep hsw] at hl
    have hp2 : 2 ≤ k.pc (E.nt + sw) := by
      rcases hcs with ⟨_, h⟩ | ⟨a, _, h | h⟩ | ⟨i, _, h, _⟩ | ⟨x, _, h, _⟩ <;> omega
    have hcons : ∀ i, 2 + 4 * i ≤ k.pc (E.nt + sw) → 1 + i ≤ consumed E k.pc sw := by
      intro i hi
      rw [consumed_sweep hsw]
      unfold acqD
      split <;> omega
    rcases task_cases (E := E) t' with h' | ⟨sw', hsw', h'⟩ | h' | h'
    · obtain ⟨a, h1, h2, h3⟩ := hcopy sw 0 (by omega) (hcons 0 (by omega)) h'
      rcases hcs with ⟨h, _⟩ | ⟨a', h, h4⟩ | ⟨i, h, _⟩ | ⟨x, h, _⟩
      · rw [h1] at h; cases h
      · rw [h1] at h
        have e := BtCell.mem.inj h
        subst e
        rcases h4 with ⟨_, h5⟩ | ⟨h5, h6, h7, h8⟩
        · have := Nat.mul_le_mul_left (1 + 0 + sw) (show 1 ≤ E.b by omega)
          omega
        · obtain ⟨a2, g1, g2, g3⟩ := hcopy sw (1 + (k.pc (E.nt + sw) - 4) / 4) (by omega) (hcons _ (by omega)) h'
          rw [h1] at g1
          have e2 := BtCell.mem.inj g1
          subst e2
          have e3 := Nat.mul_le_mul_left (1 + sw) (show 1 ≤ E.b by omega)
          have e4 : (1 + (1 + (k.pc (E.nt + sw) - 4) / 4) + sw) * E.b =
              (1 + sw) * E.b + ((k.pc (E.nt + sw) - 4) / 4 * E.b + E.b) := by ring
          omega
      · rw [h1] at h; cases h
      · rw [h1] at h; cases h
    · subst h'
      rw [foot_sweep hsw'] at hc'
      rw [bandProg_len_sweep hsw'] at hq'
      have hns := nrSteps_pos (sw := sw') (size := E.size) (b := E.b) (by omega) (by omega)
      have h0 := ahead' ok hr (sw' := sw') (by omega) (hcons 0 (by omega)) (by omega)
      have hne : sw' % maxWorkers E ≠ sw % maxWorkers E := by
        intro he
        have := worker_done ok hr sw hsw (by omega) sw' (by omega) he
        rw [bandProg_len_sweep hsw'] at this
        omega
      rcases sweepFoot_cases hc' with ⟨g, _⟩ | ⟨a, g, g4⟩ | ⟨i, g, g1, _⟩ | ⟨x, g, _⟩
      · rcases hcs with ⟨h, _⟩ | ⟨a', h, _⟩ | ⟨i, h, _⟩ | ⟨x, h, _⟩
        · rw [g] at h; exact hne (BtCell.worker.inj h)
        · rw [g] at h; cases h
        · rw [g] at h; cases h
        · rw [g] at h; cases h
      · rcases hcs with ⟨h, _⟩ | ⟨a', h, h4⟩ | ⟨i, h, _⟩ | ⟨x, h, _⟩
        · rw [g] at h; cases h
        · rw [g] at h
          have e := BtCell.mem.inj h
          subst e
          rcases g4 with ⟨g5, _⟩ | ⟨g5, g6, g7, g8⟩
          · omega
          · rcases h4 with ⟨_, h5⟩ | ⟨h5, h6, h7, h8⟩
            · have h9 : sw - sw' ≤ (q - 4) / 4 := by omega
              have h10 := Nat.mul_le_mul_right E.b h9
              have h11 := Nat.mul_le_mul_left (sw - sw') (show 1 ≤ E.b by omega)
              omega
            · have h9 := ahead' ok hr (sw' := sw') (i := 1 + (k.pc (E.nt + sw) - 4) / 4) (by omega) (hcons _ (by omega)) (by omega)
              have h10 : 1 + (k.pc (E.nt + sw) - 4) / 4 + (sw - sw') ≤ (q - 4) / 4 := by omega
              have h11 := Nat.mul_le_mul_right E.b h10
              have h12 := Nat.mul_le_mul_left (sw - sw') (show 1 ≤ E.b by omega)
              have e4 : (1 + (k.pc (E.nt + sw) - 4) / 4 + (sw - sw')) * E.b =
                  (k.pc (E.nt + sw) - 4) / 4 * E.b + E.b + (sw - sw') * E.b := by ring
              omega
        · rw [g] at h; cases h
        · rw [g] at h; cases h
      · omega
      · rcases hcs with ⟨h, _⟩ | ⟨a', h, h4⟩ | ⟨i, h, _⟩ | ⟨x', h, _⟩
        · rw [g] at h; cases h
        · rw [g] at h; cases h
        · rw [g] at h; cases h
        · rw [g] at h
          have := (BtCell.refl.inj h).2
          omega
    · omega
    · omega
  · subst h
    rw [foot_fin] at hc
    exact hc
  · rw [foot_last h] at hc
    have hcs := lastFoot_cases hc
    have hfin : 1 ≤ k.pc (E.nt + nrSweeps E.cplx E.size) := by
      have := hr.waited t 0 (E.nt + nrSweeps E.cplx E.size) (by omega) (by
        rw [bandProg_instr_last h]
        unfold lastInstr
        rw [if_pos rfl])
      rw [bandProg_len_fin] at this
      exact this
    have hcons : 1 + 0 ≤ consumed E k.pc (nrSweeps E.cplx E.size) := by
      unfold consumed
      rw [if_neg (Nat.lt_irrefl _)]
      exact hfin
    have hsz := ok.hs
    rcases task_cases (E := E) t' with h' | ⟨sw', hsw', h'⟩ | h' | h'
    · obtain ⟨a, h1, h2, h3⟩ := hcopy _ 0 (Nat.le_refl _) hcons h'
      have h4 := Nat.mul_le_mul_left (1 + 0 + nrSweeps E.cplx E.size) hb
      omega
    · subst h'
      rw [foot_sweep hsw'] at hc'
      rw [bandProg_len_sweep hsw'] at hq'
      have hns := nrSteps_pos (sw := sw') (size := E.size) (b := E.b) (by omega) (by omega)
      have hnd := nrSteps_end (cplx := E.cplx) (size := E.size) (b := E.b) (sw := sw') (d := nrSweeps E.cplx E.size - sw') (by omega)
        (by omega) (by omega)
      have h0 := ahead' ok hr (sw' := sw') (Nat.le_refl _) hcons hsw'
      rw [Nat.min_eq_right (by omega)] at h0
      have hq4 : q = 4 + 4 * nrSteps sw' E.size E.b := by omega
      unfold sweepFoot at hc'
      dsimp only at hc'
      rw [if_neg (by omega), if_neg (by omega), if_neg (by omega), if_neg (by omega), if_neg (by omega)] at hc'
      exact hc'
    · subst h'
      rw [foot_fin] at hc'
      exact hc'
    · rw [foot_last h'] at hc'
      have hcs' := lastFoot_cases hc'
      have hn : t < E.nt + nrSweeps E.cplx E.size + 3 := htn
      obtain ⟨p1, p2⟩ := hcs
      obtain ⟨p1', p2'⟩ := hcs'
      have et : t = E.nt + nrSweeps E.cplx E.size + 2 := by omega
      have et' : t' = E.nt + nrSweeps E.cplx E.size + 1 := by omega
      rcases p2 with ⟨p3, _⟩ | ⟨_, p4⟩
      · omega
      rcases p2' with ⟨_, p5, p6⟩ | ⟨p3', _⟩
      swap
      · omega
      have hdiv : (E.size - 1) / E.nb * E.nb = E.size - 1 := by
        have := Nat.div_add_mod (E.size - 1) E.nb
        rw [p5, Nat.mul_comm] at this
        exact this
      by_cases h1 : E.size = 1
      · have := hr.waited t 1 t' (by omega) (by
          rw [bandProg_instr_last h]
          unfold lastInstr
          rw [if_neg (by omega), if_pos rfl, if_pos ⟨et, by rw [h1]⟩, et'])
        omega
      · rw [hdiv] at p4
        rcases p4 with ⟨a, q1, q2⟩ | ⟨a, q1, q2⟩ <;> rcases p6 with ⟨a', q3, q4⟩ | ⟨a', q3, q4⟩ <;> rw [q1] at q3
        · have := BtCell.mem.inj q3; subst this; omega
        · cases q3
        · cases q3
        · have := BtCell.trid.inj q3; subst this; omega

/-! ### progress -/

theorem releases_enough (ok : BtOK E) (h : ∀ t < E.nt, k.pc t = 4) : nrSteps 0 E.size E.b + 1 ≤ produced E k.pc 0 := by
  have hb := ok.hb
  have hsz := ok.hs
  have hnt := ok.nt_pos
  have h1 : produced E k.pc 0 = ∑ u ∈ Finset.range E.nt, copyReleases E E.nt u := by
    unfold produced
    rw [if_pos rfl]
    exact Finset.sum_congr rfl fun u hu => if_pos (h u (Finset.mem_range.1 hu))
  obtain ⟨m, hm⟩ : ∃ m, E.nt = m + 1 := ⟨E.nt - 1, by omega⟩
  have h2 : ∑ u ∈ Finset.range E.nt, copyReleases E E.nt u =
      m * (E.nb / E.b) + ((E.size - m * E.nb + E.b - 1) / E.b + 1) := by
    rw [hm, Finset.sum_range_succ]
    congr 1
    · have : ∀ u ∈ Finset.range m, copyReleases E (m + 1) u = E.nb / E.b := fun u hu =>
        if_pos (by have := Finset.mem_range.1 hu; omega)
      rw [Finset.sum_congr rfl this, Finset.sum_const, Finset.card_range]
      rfl
    · exact if_neg (by omega)
  have h3 := (ceil_mul (N := E.size - m * E.nb) (b := E.b) (by omega)).1
  have h4 : produced E k.pc 0 * E.b = m * E.nb + ((E.size - m * E.nb + E.b - 1) / E.b * E.b + E.b) := by
    rw [h1, h2, Nat.add_mul, Nat.mul_assoc, ok.nbdiv, Nat.add_mul, Nat.one_mul]
  have h5 : nrSteps 0 E.size E.b * E.b < E.size + E.b := by
    unfold nrSteps
    split
    · omega
    · have := (ceil_mul (N := E.size - 0 - 2) (b := E.b) (by omega)).2
      omega
  by_contra hc
  have h6 := Nat.mul_le_mul_right E.b (show produced E k.pc 0 ≤ nrSteps 0 E.size E.b by omega)
  omega

theorem first_enabled (ok : BtOK E) (hr : Steps (bandProg E) (start s) k l) {t : Nat} (htn : t < (bandProg E).n)
    (hl : k.pc t < (bandProg E).len t) (hd : ∀ t' < t, (bandProg E).len t' ≤ k.pc t') :
    Enabled (bandProg E) k ((bandProg E).instr t (k.pc t)) := by
  have hb := ok.hb
  have hS := sweeps_le (cplx := E.cplx) (size := E.size)
  have hcop : E.nt ≤ t → nrSteps 0 E.size E.b + 1 ≤ produced E k.pc 0 := by
    intro ht
    refine releases_enough ok fun u hu => ?_
    have h1 := hd u (by omega)
    have h2 := hr.pc_le u
    rw [bandProg_len_copy hu] at h1 h2
    omega
  have hsw' : ∀ sw, sw < nrSweeps E.cplx E.size → E.nt + sw < t → produced E k.pc (sw + 1) = nrSteps sw E.size E.b + 1 := by
    intro sw h1 h2
    have h3 := hd _ h2
    have h4 := hr.pc_le (E.nt + sw)
    rw [bandProg_len_sweep h1] at h3 h4
    unfold produced relD
    rw [if_neg (by omega), show sw + 1 - 1 = sw by omega, show k.pc (E.nt + sw) = 5 + 4 * nrSteps sw E.size E.b by omega, if_pos rfl]
    omega
  rcases task_cases (E := E) t with h | ⟨sw, hsw, h⟩ | h | h
  · rw [bandProg_instr_copy h]
    unfold copyInstr
    split
    · trivial
    split
    · trivial
    split
    · split
      · trivial
      · exact hd _ (by omega)
    · trivial
  · subst h
    rw [bandProg_len_sweep hsw] at hl
    rw [bandProg_instr_sweep hsw]
    have hacq : (k.pc (E.nt + sw) = 1 ∨ 4 < k.pc (E.nt + sw) ∧ k.pc (E.nt + sw) % 4 = 1) → 0 < k.sem sw := by
      intro hp
      have h1 := sem_inv hr sw (by omega)
      rw [consumed_sweep hsw] at h1
      have h2 : acqD (k.pc (E.nt + sw)) ≤ nrSteps sw E.size E.b := by
        have := nrSteps_pos (sw := sw) (size := E.size) (b := E.b) (by omega) (by omega)
        unfold acqD
        split <;> omega
      have h3 : nrSteps sw E.size E.b + 1 ≤ produced E k.pc sw := by
        by_cases h0 : sw = 0
        · subst h0; exact hcop (by omega)
        · have h4 := hsw' (sw - 1) (by omega) (by omega)
          rw [show sw - 1 + 1 = sw by omega] at h4
          have h5 := (nrSteps_succ (sw := sw - 1) (size := E.size) (b := E.b) (by omega) (by omega)).1
          rw [show sw - 1 + 1 = sw by omega] at h5
          omega
      omega
    unfold sweepInstr
    dsimp only
    split
    · split
      · exact hd _ (by have := ok.workers; omega)
      · trivial
    split
    · exact hacq (Or.inl (by assumption))
    split
    · trivial
    split
    · trivial
    split
    · trivial
    split
    · trivial
    split
    · exact hacq (Or.inr ⟨by omega, by assumption⟩)
    split <;> trivial
  · subst h
    rw [bandProg_instr_fin]
    rw [bandProg_len_fin] at hl
    show 0 < k.sem _
    have h1 := sem_inv hr _ (Nat.le_refl _)
    have h2 : consumed E k.pc (nrSweeps E.cplx E.size) = 0 := by
      unfold consumed
      rw [if_neg (Nat.lt_irrefl _)]
      omega
    have h3 : 1 ≤ produced E k.pc (nrSweeps E.cplx E.size) := by
      by_cases h0 : nrSweeps E.cplx E.size = 0
      · rw [h0]
        have := hcop (by omega)
        omega
      · have h4 := hsw' (nrSweeps E.cplx E.size - 1) (by omega) (by omega)
        rw [show nrSweeps E.cplx E.size - 1 + 1 = nrSweeps E.cplx E.size by omega] at h4
        omega
    omega
  · rw [bandProg_instr_last h]
    unfold lastInstr
    split
    · exact hd _ h
    split
    · split
      · exact hd _ (by omega)
      · trivial
    split <;> trivial

end DLAF
