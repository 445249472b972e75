import Verif.Lemmas.BandStep
/- One sweep of the reduction to tridiagonal form. -/
namespace DLAF
open scoped Classical
variable {K : Type*} [RCLike K] {E : BtEnv K}

/-- Last row of column `y` that may be nonzero, between sweeps. -/
def bdB (b s y : Nat) : Nat := if y < s then y + 1 else if y = s then s + b else s + ((y - s - 1) / b + 2) * b

/-- Last row of column `y` that may be nonzero, before step `k` of sweep `s`. -/
def bd (b s k y : Nat) : Nat :=
  if y ≤ s then y + 1 else if (y - s - 1) % b = 0 ∧ (y - s - 1) / b < k then y + b else s + ((y - s - 1) / b + 2) * b

/-- Zeros of the lower triangle. -/
def Fill (n : Nat) (F : Nat → Nat → K) (f : Nat → Nat) : Prop := ∀ x < n, ∀ y ≤ x, f y < x → F x y = 0

/-- Real elements below the diagonal, in the first columns. -/
def RealSub (n c : Nat) (F : Nat → Nat → K) : Prop := ∀ y < c, y + 1 < n → star (F (y + 1) y) = F (y + 1) y

/-- Between sweeps. -/
structure Rest (E : BtEnv K) (sw : Nat) (G : Nat → Nat → K) (mem : Nat → K) : Prop where
  herm : HermF E.size G
  hold : HoldsG E.b E.size mem G
  fill : Fill E.size G (bdB E.b sw)
  real : RealSub E.size sw G

/-- Before step `k` of a sweep: the columns before the reflector are already transformed. -/
def pendF (E : BtEnv K) (sw k : Nat) (G : Nat → Nat → K) (w : Wk K) : Nat → Nat → K := fun x y =>
  if y < firstRow E sw k then congF E.size (emb (firstRow E sw k) (sizeHHR E sw k) w.v) w.tau G x y else G x y

/-- Before step `k` of a sweep. -/
structure Pend (E : BtEnv K) (sw k : Nat) (G : Nat → Nat → K) (w : Wk K) : Prop where
  herm : HermF E.size G
  v0 : w.v 0 = 1
  unit : w.tau * star w.tau * (∑ z ∈ Finset.range (sizeHHR E sw k), star (w.v z) * w.v z) = w.tau + star w.tau
  hold : HoldsG E.b E.size w.mem (pendF E sw k G w)
  fill : Fill E.size (pendF E sw k G w) (bd E.b sw k)
  real : RealSub E.size (sw + 1) (pendF E sw k G w)

theorem applyLeft_zero {m p ld : Nat} {tau : K} {v mem : Nat → K} : applyLeft m 0 tau v p ld mem = mem := by
  funext a
  unfold applyLeft putW
  dsimp only
  rw [if_neg (fun h => Nat.not_lt_zero _ h.2.2.1)]

/-- Columns with zeros in the rows of the reflector do not change. -/
theorem congF_same {n p m y : Nat} {v : Nat → K} {tau : K} {G : Nat → Nat → K} (hy : y < p)
    (hz : ∀ x < n, p ≤ x → x < p + m → G x y = 0) (x : Nat) : congF n (emb p m v) tau G x y = G x y := by
  rw [congF_col (emb_out v (by omega)), leftF_col]
  intro z hz'
  by_cases h6 : p ≤ z ∧ z < p + m
  · exact Or.inr (hz z hz' h6.1 h6.2)
  · exact Or.inl (emb_out v h6)

theorem pend_start (ok : BtOK E) (hl : LarfgSpec E.larfg) {sw : Nat} (hsw : sw + 2 ≤ E.size) {G : Nat → Nat → K} {w : Wk K}
    (h : Rest E sw G w.mem) : Pend E sw 0 G (hhReflector E (min (E.size - sw - 1) E.b) (E.ptr 1 sw) w) := by
  have hb := ok.hb
  generalize hm : min (E.size - sw - 1) E.b = m
  have hnz : ∀ y < sw, ∀ x < E.size, sw + 1 ≤ x → x < sw + 1 + m → G x y = 0 := by
    intro y hy x hx h1 h2
    refine h.fill x hx y (by omega) ?_
    unfold bdB
    rw [if_pos hy]; omega
  obtain ⟨tau, v, e1, e2, e3, e4, e5, e6, e7⟩ := new_refl hb hl (n := E.size) (j := sw) (nn := 1) (m := m) (by omega) (by omega) (by omega)
    (by omega) (by omega) w h.hold (fun x hx y hy h1 h2 => hnz y hy x hx h1 h2)
  rw [show 1 - 1 = 0 by omega, applyLeft_zero] at e5
  have f0 : firstRow E sw 0 = sw + 1 := by unfold firstRow; omega
  have s0 : sizeHHR E sw 0 = m := by unfold sizeHHR; rw [f0]; omega
  have hpf : pendF E sw 0 G (hhReflector E m (E.ptr 1 sw) w) =
      fun x y => if y < sw + 1 then congF E.size (emb (sw + 1) m v) tau G x y else G x y := by
    unfold pendF
    rw [f0, s0, e1, e2]
  refine ⟨h.herm, by rw [e2]; exact e3, by rw [e1, e2, s0]; exact e4, by rw [hpf]; exact e5, ?_, ?_⟩
  · rw [hpf]
    intro x hx y hyx hbd
    beta_reduce
    unfold bd at hbd
    by_cases hy : y < sw
    · rw [if_pos (by omega)] at hbd
      rw [if_pos (by omega), congF_same (by omega) (hnz y hy)]
      refine h.fill x hx y hyx ?_
      unfold bdB
      rw [if_pos hy]; omega
    · by_cases hy2 : y = sw
      · subst hy2
        rw [if_pos (by omega)] at hbd
        rw [if_pos (by omega)]
        by_cases h2 : x < y + 1 + m
        · exact e7 x hbd h2
        · rw [congF_col (emb_out v (by omega)), leftF_zero (emb_out v (by omega))]
          refine h.fill x hx y hyx ?_
          unfold bdB
          rw [if_neg (by omega), if_pos rfl]; omega
      · rw [if_neg (by omega), if_neg (fun h => Nat.not_lt_zero _ h.2)] at hbd
        rw [if_neg (by omega)]
        refine h.fill x hx y hyx ?_
        unfold bdB
        rw [if_neg (by omega), if_neg hy2]; exact hbd
  · rw [hpf]
    intro y hy hyn
    beta_reduce
    rw [if_pos hy]
    by_cases hy2 : y = sw
    · subst hy2; exact e6
    · rw [congF_same (by omega) (hnz y (by omega))]
      exact h.real y (by omega) hyn

theorem div_block {b s k y : Nat} (h1 : 1 + s + k * b ≤ y) (h2 : y < 1 + s + k * b + b) : (y - s - 1) / b = k := by
  rw [show y - s - 1 = k * b + (y - (1 + s + k * b)) by omega]
  exact col_addr (by omega)

theorem mod_block {b s k y : Nat} (h1 : 1 + s + k * b ≤ y) (h2 : y < 1 + s + k * b + b) : (y - s - 1) % b = y - (1 + s + k * b) := by
  rw [show y - s - 1 = k * b + (y - (1 + s + k * b)) by omega]
  exact off_addr (by omega)

theorem div_before {b s k y : Nat} (hb : 0 < b) (hs : s < y) (h : y < 1 + s + k * b) : (y - s - 1) / b < k := by
  rw [Nat.div_lt_iff_lt_mul hb]
  omega

theorem div_after {b s k y : Nat} (hb : 0 < b) (h : 1 + s + k * b ≤ y) : k ≤ (y - s - 1) / b := by
  rw [Nat.le_div_iff_mul_le hb]
  omega

/-- The first part of a step. -/
theorem pend_mid (ok : BtOK E) {sw k : Nat} {G : Nat → Nat → K} {w : Wk K} (hj : firstRow E sw k < E.size) (h : Pend E sw k G w) {m : Nat}
    (hm : m = min E.b (E.size - E.b - firstRow E sw k)) {G' : Nat → Nat → K}
    (hG' : G' = congF E.size (emb (firstRow E sw k) (sizeHHR E sw k) w.v) w.tau G) :
    HermF E.size G' ∧
    HoldsG E.b E.size (if 0 < m then applyRight m (sizeHHR E sw k) w.tau w.v (E.ptr (sizeHHR E sw k) (firstRow E sw k)) E.ld
      (applyHerm (sizeHHR E sw k) w.tau w.v (E.ptr 0 (firstRow E sw k)) E.ld w.mem) else
      applyHerm (sizeHHR E sw k) w.tau w.v (E.ptr 0 (firstRow E sw k)) E.ld w.mem) G' ∧
    Fill E.size G' (bd E.b sw k) ∧ RealSub E.size (sw + 1) G' := by
  have hb := ok.hb
  have hjd : firstRow E sw k = 1 + sw + k * E.b := rfl
  have hnd : sizeHHR E sw k = min E.b (E.size - firstRow E sw k) := rfl
  have hfill := h.fill
  have hhold := h.hold
  have hreal := h.real
  unfold pendF at hfill hhold hreal
  generalize firstRow E sw k = j at *
  generalize sizeHHR E sw k = nh at *
  have hz : ∀ x < E.size, ∀ y, j ≤ y → y < j + nh → j + nh + m ≤ x → G x y = 0 := by
    intro x hx y h1 h2 h3
    have := hfill x hx y (by omega) (by
      unfold bd
      rw [if_neg (by omega), div_block (k := k) (by omega) (by omega), if_neg (by omega), Nat.add_mul]
      omega)
    beta_reduce at this
    rw [if_neg (by omega)] at this
    exact this
  refine ⟨by rw [hG']; exact h.herm.congF, ?_, ?_, ?_⟩
  · rw [hG']
    exact finish_step hb h.herm (by omega) (by omega) (by omega) w.mem hhold hz
  · intro x hx y hyx hbd
    have h0 := hfill x hx y hyx hbd
    beta_reduce at h0
    by_cases h1 : y < j
    · rw [if_pos h1] at h0; rw [hG']; exact h0
    · rw [if_neg h1] at h0
      by_cases h2 : y < j + nh
      · have hx2 : j + nh + m ≤ x := by
          unfold bd at hbd
          rw [if_neg (by omega), div_block (k := k) (by omega) (by omega), if_neg (by omega), Nat.add_mul] at hbd
          omega
        rw [hG', congF_row (emb_out w.v (by omega)), rightF_row, h0]
        intro z _
        by_cases h6 : j ≤ z ∧ z < j + nh
        · exact Or.inr (hz x hx z h6.1 h6.2 hx2)
        · exact Or.inl (emb_out w.v h6)
      · rw [hG', congF_row (emb_out w.v (by omega)), rightF_zero (emb_out w.v (by omega)), h0]
  · intro y hy hyn
    have h0 := hreal y hy hyn
    beta_reduce at h0
    rw [if_pos (by omega)] at h0
    rw [hG']
    exact h0

theorem stepFull_eq (w : Wk K) (sw k : Nat) {m : Nat} (hm : m = min E.b (E.size - E.b - firstRow E sw k)) {mem2 : Nat → K}
    (h2 : mem2 = (if 0 < m then applyRight m (sizeHHR E sw k) w.tau w.v (E.ptr (sizeHHR E sw k) (firstRow E sw k)) E.ld
      (applyHerm (sizeHHR E sw k) w.tau w.v (E.ptr 0 (firstRow E sw k)) E.ld w.mem) else
      applyHerm (sizeHHR E sw k) w.tau w.v (E.ptr 0 (firstRow E sw k)) E.ld w.mem)) :
    stepFull E sw k w = if 1 < m then
      { mem := applyLeft m (sizeHHR E sw k - 1) (hhReflector E m (E.ptr (sizeHHR E sw k) (firstRow E sw k)) ⟨mem2, w.tau, w.v⟩).tau
          (hhReflector E m (E.ptr (sizeHHR E sw k) (firstRow E sw k)) ⟨mem2, w.tau, w.v⟩).v
          (E.ptr (sizeHHR E sw k - 1) (firstRow E sw k + 1)) E.ld
          (hhReflector E m (E.ptr (sizeHHR E sw k) (firstRow E sw k)) ⟨mem2, w.tau, w.v⟩).mem
        tau := (hhReflector E m (E.ptr (sizeHHR E sw k) (firstRow E sw k)) ⟨mem2, w.tau, w.v⟩).tau
        v := (hhReflector E m (E.ptr (sizeHHR E sw k) (firstRow E sw k)) ⟨mem2, w.tau, w.v⟩).v }
      else ⟨mem2, w.tau, w.v⟩ := by
  unfold stepFull
  dsimp only
  rw [← hm]
  by_cases h0 : 0 < m
  · rw [if_pos h0] at h2
    simp only [if_pos h0]
    rw [h2]
  · rw [if_neg h0] at h2
    simp only [if_neg h0]
    rw [h2]

theorem pend_step (ok : BtOK E) (hl : LarfgSpec E.larfg) {sw k : Nat} {G : Nat → Nat → K} {w : Wk K}
    (hj : 1 + sw + (k + 1) * E.b + 1 < E.size) (h : Pend E sw k G w) :
    Pend E sw (k + 1) (congF E.size (emb (firstRow E sw k) (sizeHHR E sw k) w.v) w.tau G) (stepFull E sw k w) := by
  have hb := ok.hb
  have hjd : firstRow E sw k = 1 + sw + k * E.b := rfl
  have hnd : sizeHHR E sw k = min E.b (E.size - firstRow E sw k) := rfl
  have hj1 : firstRow E sw (k + 1) = firstRow E sw k + E.b := by unfold firstRow; rw [Nat.add_mul]; omega
  have hn1 : sizeHHR E sw (k + 1) = min E.b (E.size - (firstRow E sw k + E.b)) := by rw [← hj1]; rfl
  have hj2 : firstRow E sw k + E.b + 1 < E.size := by rw [← hj1]; exact hj
  have hnb : sizeHHR E sw k = E.b := by omega
  obtain ⟨g1, g2, g3, g4⟩ := pend_mid ok (by omega) h rfl rfl
  rw [stepFull_eq w sw k rfl rfl, if_pos (by omega)]
  have hm : sizeHHR E sw (k + 1) = min E.b (E.size - E.b - firstRow E sw k) := by omega
  rw [← hm] at g2 ⊢
  rw [hnb] at *
  generalize congF E.size (emb (firstRow E sw k) E.b w.v) w.tau G = G' at *
  generalize (if 0 < sizeHHR E sw (k + 1) then _ else _ : Nat → K) = mem2 at *
  generalize firstRow E sw k = j at *
  generalize sizeHHR E sw (k + 1) = m at *
  have hnz : ∀ y < j, ∀ x < E.size, j + E.b ≤ x → x < j + E.b + m → G' x y = 0 := by
    intro y hy x hx h1 h2
    refine g3 x hx y (by omega) ?_
    unfold bd
    by_cases hs : y ≤ sw
    · rw [if_pos hs]; omega
    · rw [if_neg hs]
      have hk := div_before (k := k) (b := E.b) (by omega) (show sw < y by omega) (by omega)
      by_cases h3 : (y - sw - 1) % E.b = 0 ∧ (y - sw - 1) / E.b < k
      · rw [if_pos h3]; omega
      · rw [if_neg h3]
        have := Nat.mul_le_mul_right E.b (show (y - sw - 1) / E.b + 2 ≤ k + 1 by omega)
        rw [Nat.add_mul k] at this
        omega
  obtain ⟨tau, v, e1, e2, e3, e4, e5, e6, e7⟩ := new_refl hb hl (n := E.size) (j := j) (nn := E.b) (m := m) (by omega) (by omega) (by omega)
    (by omega) (by omega) (⟨mem2, w.tau, w.v⟩ : Wk K) g2 (fun x hx y hy h1 h2 => hnz y hy x hx h1 h2)
  rw [e1, e2]
  have hs1 : sizeHHR E sw (k + 1) = m := by unfold sizeHHR; rw [hj1]; omega
  have hpf : ∀ mm, pendF E sw (k + 1) G' ⟨mm, tau, v⟩ =
      fun x y => if y < j + E.b then congF E.size (emb (j + E.b) m v) tau G' x y else G' x y := by
    intro mm
    unfold pendF
    rw [hj1, hs1]
  refine ⟨g1, e3, ?_, ?_, ?_, ?_⟩
  · rw [hs1]; exact e4
  · rw [hpf]; exact e5
  · rw [hpf]
    intro x hx y hyx hbd
    beta_reduce
    by_cases hy : y < j
    · rw [if_pos (by omega), congF_same (by omega) (hnz y hy)]
      refine g3 x hx y hyx ?_
      unfold bd at hbd ⊢
      by_cases hs : y ≤ sw
      · rw [if_pos hs] at hbd ⊢; exact hbd
      · rw [if_neg hs] at hbd ⊢
        have hk := div_before (k := k) (b := E.b) (by omega) (show sw < y by omega) (by omega)
        by_cases h3 : (y - sw - 1) % E.b = 0
        · rw [if_pos ⟨h3, by omega⟩] at hbd; rw [if_pos ⟨h3, hk⟩]; exact hbd
        · rw [if_neg (fun h => h3 h.1)] at hbd ⊢; exact hbd
    · by_cases hy2 : y < j + E.b
      · rw [if_pos hy2]
        have hq := div_block (b := E.b) (s := sw) (k := k) (y := y) (by omega) (by omega)
        have hr := mod_block (b := E.b) (s := sw) (k := k) (y := y) (by omega) (by omega)
        unfold bd at hbd
        rw [if_neg (by omega), hq, hr] at hbd
        have hfar : j + E.b + m ≤ x → congF E.size (emb (j + E.b) m v) tau G' x y = 0 := by
          intro h5
          rw [congF_col (emb_out v (by omega)), leftF_zero (emb_out v (by omega))]
          refine g3 x hx y hyx ?_
          unfold bd
          rw [if_neg (by omega), hq, if_neg (by omega), Nat.add_mul]
          omega
        by_cases hy3 : y = j
        · rw [if_pos ⟨by omega, by omega⟩] at hbd
          by_cases h5 : x < j + E.b + m
          · rw [hy3]; exact e7 x (by omega) h5
          · exact hfar (by omega)
        · rw [if_neg (by omega), Nat.add_mul] at hbd
          exact hfar (by omega)
      · rw [if_neg hy2]
        refine g3 x hx y hyx ?_
        have hk := div_after (k := k + 1) (b := E.b) (s := sw) (y := y) (by omega) (by rw [Nat.add_mul]; omega)
        unfold bd at hbd ⊢
        rw [if_neg (by omega), if_neg (by omega)] at hbd ⊢
        exact hbd
  · rw [hpf]
    intro y hy hyn
    beta_reduce
    rw [if_pos (by omega), congF_same (by omega) (hnz y (by omega))]
    exact g4 y hy hyn

theorem pend_end (ok : BtOK E) {sw k : Nat} {G : Nat → Nat → K} {w : Wk K} (hj : firstRow E sw k < E.size)
    (hm : E.size ≤ firstRow E sw k + E.b + 1) (h : Pend E sw k G w) :
    Rest E (sw + 1) (congF E.size (emb (firstRow E sw k) (sizeHHR E sw k) w.v) w.tau G) (stepFull E sw k w).mem := by
  have hb := ok.hb
  have hjd : firstRow E sw k = 1 + sw + k * E.b := rfl
  obtain ⟨g1, g2, g3, g4⟩ := pend_mid ok hj h rfl rfl
  rw [stepFull_eq w sw k rfl rfl, if_neg (by omega)]
  refine ⟨g1, g2, fun x hx y hyx hbd => g3 x hx y hyx ?_, g4⟩
  unfold bdB at hbd
  unfold bd
  generalize firstRow E sw k = j at *
  by_cases h1 : y < sw + 1
  · rw [if_pos h1] at hbd
    rw [if_pos (by omega)]
    exact hbd
  rw [if_neg h1] at hbd
  rw [if_neg (by omega)]
  by_cases h2 : y = sw + 1
  · rw [if_pos h2] at hbd
    have e : y - sw - 1 = 0 := by omega
    rw [e, Nat.zero_mod, Nat.zero_div]
    by_cases h3 : 0 < k
    · rw [if_pos ⟨rfl, h3⟩]; omega
    · have : k = 0 := by omega
      subst this
      omega
  · rw [if_neg h2] at hbd
    by_cases h3 : (y - sw - 1) % E.b = 0
    · have h4 := Nat.div_add_mod (y - sw - 1) E.b
      rw [h3, Nat.add_zero, Nat.mul_comm] at h4
      obtain ⟨q, hq⟩ : ∃ q, (y - sw - 1) / E.b = q + 1 := by
        rcases Nat.eq_zero_or_pos ((y - sw - 1) / E.b) with h' | h'
        · rw [h', Nat.zero_mul] at h4; omega
        · exact ⟨_, (Nat.succ_pred_eq_of_pos h').symm⟩
      rw [hq, Nat.add_mul, Nat.one_mul] at h4
      have h5 : (y - (sw + 1) - 1) / E.b = q := by
        rw [show y - (sw + 1) - 1 = q * E.b + (E.b - 1) by omega]
        exact col_addr (by omega)
      rw [h5, Nat.add_mul] at hbd
      by_cases h6 : q + 1 < k
      · rw [hq, if_pos ⟨h3, h6⟩]; omega
      · have := Nat.mul_le_mul_right E.b (show k ≤ q + 1 by omega)
        rw [Nat.add_mul q] at this
        omega
    · rw [if_neg (fun h => h3 h.1)]
      have h4 := Nat.div_add_mod (y - sw - 1) E.b
      have h7 := Nat.mod_lt (y - sw - 1) (show 0 < E.b by omega)
      rw [Nat.mul_comm] at h4
      have h5 : (y - (sw + 1) - 1) / E.b = (y - sw - 1) / E.b := by
        conv => lhs; rw [show y - (sw + 1) - 1 = (y - sw - 1) / E.b * E.b + ((y - sw - 1) % E.b - 1) by omega]
        exact col_addr (by omega)
      rw [h5] at hbd
      omega

end DLAF
