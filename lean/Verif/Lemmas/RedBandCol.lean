import Verif.Lemmas.RedBandRefl
import Verif.Spec.RedBand
import Mathlib.Tactic.FieldSimp
import Mathlib.Tactic.LinearCombination
/- The panel of the reduction to band: what the reflectors do to its columns. -/
namespace DLAF
open scoped Classical
variable {K : Type*} [RCLike K]

/-! ### one reflector -/

theorem house_algebra {x0 y S : K} (hy : star y = y) (hs : y * y = star x0 * x0 + S) (h0 : y ≠ 0) (hne : x0 - y ≠ 0) :
    star ((y - x0) / y) * (x0 + star (1 / (x0 - y)) * S) = x0 - y ∧
    (y - x0) / y * star ((y - x0) / y) * (1 + star (1 / (x0 - y)) * (1 / (x0 - y)) * S) =
      (y - x0) / y + star ((y - x0) / y) := by
  have hne' : star x0 - y ≠ 0 := by
    intro h
    apply hne
    have := congrArg star h
    rw [star_sub, star_star, hy, star_zero] at this
    exact this
  have e1 : star ((y - x0) / y) = (y - star x0) / y := by rw [star_div₀, star_sub, hy]
  have e2 : star (1 / (x0 - y)) = 1 / (star x0 - y) := by rw [star_div₀, star_sub, hy, star_one]
  rw [e1, e2]
  generalize star x0 = xb at *
  have hS : S = y * y - xb * x0 := by rw [hs]; ring
  subst hS
  constructor
  · field_simp
    ring
  · field_simp
    ring

theorem sq_real (f : Nat → K) (s : Finset Nat) :
    (∑ x ∈ s, star (f x) * f x) = ((∑ x ∈ s, ‖f x‖ ^ 2 : ℝ) : K) := by
  rw [RCLike.ofReal_sum]
  refine Finset.sum_congr rfl fun x _ => ?_
  have := RCLike.conj_mul (f x)
  rw [RCLike.ofReal_pow]
  exact this

/-- The norm with the chosen sign. -/
theorem house_sign {f : Nat → K} {a e : Nat} (hae : a < e) {sq y : K}
    (hsq : sq = ∑ x ∈ Finset.Ico a e, star (f x) * f x) (h0 : sq ≠ 0) {sb : Bool}
    (hb : (0 < RCLike.re (f a) → sb = false) ∧ (RCLike.re (f a) < 0 → sb = true))
    (hy : y = (Real.sqrt (RCLike.re sq) : ℝ) ∧ sb = true ∨ y = -((Real.sqrt (RCLike.re sq) : ℝ) : K) ∧ sb = false) :
    star y = y ∧ y * y = star (f a) * f a + ∑ x ∈ Finset.Ico (a + 1) e, star (f x) * f x ∧ y ≠ 0 ∧ f a - y ≠ 0 := by
  rw [sq_real] at hsq
  have hN : 0 ≤ ∑ x ∈ Finset.Ico a e, ‖f x‖ ^ 2 := Finset.sum_nonneg fun x _ => by positivity
  have hre : RCLike.re sq = ∑ x ∈ Finset.Ico a e, ‖f x‖ ^ 2 := by rw [hsq, RCLike.ofReal_re]
  have hpos : 0 < ∑ x ∈ Finset.Ico a e, ‖f x‖ ^ 2 := by
    refine lt_of_le_of_ne hN fun h => h0 ?_
    rw [hsq, ← h, RCLike.ofReal_zero]
  have hsp : 0 < Real.sqrt (RCLike.re sq) := by rw [hre]; exact Real.sqrt_pos.2 hpos
  have hss : ((Real.sqrt (RCLike.re sq) : ℝ) : K) * ((Real.sqrt (RCLike.re sq) : ℝ) : K) = sq := by
    rw [← RCLike.ofReal_mul, Real.mul_self_sqrt (by rw [hre]; exact hN), hre, hsq]
  have hsplit : sq = star (f a) * f a + ∑ x ∈ Finset.Ico (a + 1) e, star (f x) * f x := by
    rw [hsq, ← sq_real, Finset.sum_eq_sum_Ico_succ_bot hae]
  have hst : star ((Real.sqrt (RCLike.re sq) : ℝ) : K) = ((Real.sqrt (RCLike.re sq) : ℝ) : K) := RCLike.conj_ofReal _
  have hn0 : ((Real.sqrt (RCLike.re sq) : ℝ) : K) ≠ 0 := by
    intro h
    rw [RCLike.ofReal_eq_zero] at h
    exact hsp.ne' h
  generalize Real.sqrt (RCLike.re sq) = r at *
  rcases hy with ⟨rfl, hb1⟩ | ⟨rfl, hb1⟩
  · refine ⟨hst, by rw [hss, hsplit], hn0, ?_⟩
    intro h
    have := congrArg RCLike.re h
    rw [map_sub, RCLike.ofReal_re, map_zero] at this
    have hb2 := hb.1
    rw [hb1] at hb2
    have : ¬ 0 < RCLike.re (f a) := fun h => by simpa using hb2 h
    linarith
  · refine ⟨by rw [star_neg, hst], by rw [neg_mul_neg, hss, hsplit], neg_ne_zero.2 hn0, ?_⟩
    intro h
    have := congrArg RCLike.re h
    rw [map_sub, map_neg, RCLike.ofReal_re, map_zero] at this
    have hb2 := hb.2
    rw [hb1] at hb2
    have : ¬ RCLike.re (f a) < 0 := fun h => by simpa using hb2 h
    linarith

/-- One iteration of the bulk. -/
noncomputable def colStep (g : PanelCfg K) (nw j : Nat) (s : PanelSt K) : PanelSt K :=
  let s1 := reflTau g j s
  if s1.taus j = 0 then s1 else if g.cols ≤ j + 1 then s1 else panelTrail g nw j s1

/-- The reflector `j` in the panel. -/
noncomputable def hhCol (g : PanelCfg K) (a : Elems K) (j x : Nat) : K :=
  if x < g.r0 + j then 0 else if x = g.r0 + j then 1 else a x (g.c0 + j)

theorem sum_hhCol {g : PanelCfg K} {e j : Nat} (hlt : g.r0 + j < e) (a : Elems K) (f : Nat → K) :
    ∑ z ∈ Finset.range e, star (hhCol g a j z) * f z =
      f (g.r0 + j) + ∑ z ∈ Finset.Ico (g.r0 + j + 1) e, star (a z (g.c0 + j)) * f z := by
  rw [Finset.range_eq_Ico, ← Finset.sum_Ico_consecutive _ (Nat.zero_le (g.r0 + j)) (by omega),
    Finset.sum_eq_zero (s := Finset.Ico 0 (g.r0 + j)), zero_add, Finset.sum_eq_sum_Ico_succ_bot hlt]
  · congr 1
    · unfold hhCol
      rw [if_neg (by omega), if_pos rfl, star_one, one_mul]
    · refine Finset.sum_congr rfl fun z hz => ?_
      rw [Finset.mem_Ico] at hz
      unfold hhCol
      rw [if_neg (by omega), if_neg (by omega)]
  · intro z hz
    rw [Finset.mem_Ico] at hz
    unfold hhCol
    rw [if_pos hz.2, star_zero, zero_mul]

theorem PanelCfg.OK.lt {g : PanelCfg K} {e j : Nat} (h : g.OK e) (hj : j < g.nrefls) : g.r0 + j < e := by
  obtain ⟨p, ps, h1, h2, h3⟩ := head_chain h (j := j + 1) (by have := h.head; omega)
  have := h3.le
  omega

theorem colStep_spec {g : PanelCfg K} {e j nw : Nat} (h : g.OK e) (hj : j < g.nrefls) (hw : 0 < nw)
    (hsb : GoodSign g.signbit) (s : PanelSt K) :
    (∀ x < e, ∀ c, g.c0 + j ≤ c → c < g.c0 + g.cols →
      (if c = g.c0 + j ∧ g.r0 + j < x then 0 else (colStep g nw j s).a x c) =
        s.a x c - star ((colStep g nw j s).taus j) * hhCol g (colStep g nw j s).a j x *
          ∑ z ∈ Finset.range e, star (hhCol g (colStep g nw j s).a j z) * s.a z c) ∧
    (colStep g nw j s).taus j * star ((colStep g nw j s).taus j) *
      (∑ z ∈ Finset.range e, star (hhCol g (colStep g nw j s).a j z) * hhCol g (colStep g nw j s).a j z) =
      (colStep g nw j s).taus j + star ((colStep g nw j s).taus j) ∧
    (∀ x c, ¬ ((g.r0 + j ≤ x ∧ x < e) ∧ g.c0 + j ≤ c ∧ c < g.c0 + g.cols) → (colStep g nw j s).a x c = s.a x c) ∧
    ∀ i, i ≠ j → (colStep g nw j s).taus i = s.taus i := by
  have hlt := h.lt hj
  have hwd := h.width
  obtain ⟨sq, hsq, hcase⟩ := reflTau_eq h hj s
  rcases hcase with ⟨h0, hr⟩ | ⟨h0, y, hy, hr⟩
  · have hcs : colStep g nw j s = { s with taus := fun i => if i = j then 0 else s.taus i } := by
      unfold colStep
      rw [hr]
      simp
    have hzero : ∀ x, g.r0 + j ≤ x → x < e → s.a x (g.c0 + j) = 0 := by
      rw [hsq, sq_real, RCLike.ofReal_eq_zero, Finset.sum_eq_zero_iff_of_nonneg (fun x _ => by positivity)] at h0
      intro x hx hxe
      have := h0 x (Finset.mem_Ico.2 ⟨hx, hxe⟩)
      simpa using this
    rw [hcs]
    refine ⟨?_, by simp, fun _ _ _ => rfl, fun i hi => if_neg hi⟩
    intro x hx c hc1 hc2
    simp only [if_true, star_zero, zero_mul, sub_zero]
    by_cases hc : c = g.c0 + j ∧ g.r0 + j < x
    · rw [if_pos hc, hc.1, hzero x (by omega) hx]
    · rw [if_neg hc]
  · obtain ⟨y1, y2, y3, y4⟩ := house_sign (f := fun x => s.a x (g.c0 + j)) hlt hsq h0 (hsb _) hy
    obtain ⟨q1, q2⟩ := house_algebra y1 y2 y3 y4
    have y4 : s.a (g.r0 + j) (g.c0 + j) - y ≠ 0 := y4
    have hτ : (y - s.a (g.r0 + j) (g.c0 + j)) / y ≠ 0 := by
      rw [div_ne_zero_iff]
      exact ⟨fun hh => y4 (by rw [sub_eq_zero] at hh ⊢; exact hh.symm), y3⟩
    have ht1 : (reflTau g j s).taus j = (y - s.a (g.r0 + j) (g.c0 + j)) / y := by rw [hr]; simp
    -- elements after the first step
    have ha1 : ∀ x c, (reflTau g j s).a x c = if c = g.c0 + j ∧ g.r0 + (j + 1) ≤ x ∧ x < e then
        1 / (s.a (g.r0 + j) (g.c0 + j) - y) * s.a x c else if x = g.r0 + j ∧ c = g.c0 + j then y else s.a x c := by
      intro x c; rw [hr]
    have ha2 : ∀ x c, c ≠ g.c0 + j → (reflTau g j s).a x c = s.a x c := by
      intro x c hc
      rw [ha1, if_neg (by omega), if_neg (by omega)]
    -- after the iteration
    have hfin : (colStep g nw j s).taus = (reflTau g j s).taus ∧ ∀ x c, (colStep g nw j s).a x c =
        if (g.r0 + j ≤ x ∧ x < e) ∧ g.c0 + j + 1 ≤ c ∧ c < g.c0 + g.cols then
          s.a x c - star ((y - s.a (g.r0 + j) (g.c0 + j)) / y) * withHead g j (reflTau g j s).a x (g.c0 + j) *
            ∑ z ∈ Finset.Ico (g.r0 + j) e, star (withHead g j (reflTau g j s).a z (g.c0 + j)) * s.a z c
        else (reflTau g j s).a x c := by
      unfold colStep
      simp only
      rw [if_neg (by rw [ht1]; exact hτ)]
      by_cases hc : g.cols ≤ j + 1
      · rw [if_pos hc]
        refine ⟨rfl, fun x c => ?_⟩
        rw [if_neg (by omega)]
      · rw [if_neg hc]
        obtain ⟨t1, t2⟩ := panelTrail_eq h hj hw (reflTau g j s)
        refine ⟨t1, fun x c => ?_⟩
        rw [t2]
        simp only
        by_cases hx : (g.r0 + j ≤ x ∧ x < e) ∧ g.c0 + j + 1 ≤ c ∧ c < g.c0 + g.cols
        · rw [if_pos hx, if_pos hx, ht1, ha2 x c (by omega)]
          congr 2
          refine Finset.sum_congr rfl fun z _ => ?_
          rw [ha2 z c (by omega)]
        · rw [if_neg hx, if_neg hx]
    obtain ⟨f1, f2⟩ := hfin
    have f3 : ∀ x, (colStep g nw j s).a x (g.c0 + j) = (reflTau g j s).a x (g.c0 + j) := by
      intro x
      rw [f2, if_neg (by omega)]
    have hhead : ∀ x, g.r0 + j ≤ x → withHead g j (reflTau g j s).a x (g.c0 + j) = hhCol g (colStep g nw j s).a j x := by
      intro x hx
      unfold withHead hhCol
      rw [if_neg (show ¬ x < g.r0 + j by omega), f3]
      by_cases hx2 : x = g.r0 + j
      · rw [if_pos ⟨hx2, rfl⟩, if_pos hx2]
      · rw [if_neg (by omega), if_neg hx2]
    have hbelow : ∀ z, g.r0 + j + 1 ≤ z → z < e → (colStep g nw j s).a z (g.c0 + j) =
        1 / (s.a (g.r0 + j) (g.c0 + j) - y) * s.a z (g.c0 + j) := by
      intro z hz hze
      rw [f3, ha1, if_pos ⟨rfl, by omega, hze⟩]
    rw [f1, ht1]
    refine ⟨?_, ?_, ?_, ?_⟩
    · intro x hx c hc1 hc2
      by_cases hc : c = g.c0 + j
      · subst hc
        have esum : ∑ z ∈ Finset.range e, star (hhCol g (colStep g nw j s).a j z) * s.a z (g.c0 + j) =
            s.a (g.r0 + j) (g.c0 + j) + star (1 / (s.a (g.r0 + j) (g.c0 + j) - y)) *
              ∑ z ∈ Finset.Ico (g.r0 + j + 1) e, star (s.a z (g.c0 + j)) * s.a z (g.c0 + j) := by
          rw [sum_hhCol hlt, Finset.mul_sum]
          congr 1
          refine Finset.sum_congr rfl fun z hz => ?_
          rw [Finset.mem_Ico] at hz
          rw [hbelow z hz.1 hz.2, star_mul']
          ring
        have e3 : star ((y - s.a (g.r0 + j) (g.c0 + j)) / y) * hhCol g (colStep g nw j s).a j x *
            ∑ z ∈ Finset.range e, star (hhCol g (colStep g nw j s).a j z) * s.a z (g.c0 + j) =
            (s.a (g.r0 + j) (g.c0 + j) - y) * hhCol g (colStep g nw j s).a j x := by
          rw [esum]
          linear_combination (hhCol g (colStep g nw j s).a j x) * q1
        rw [e3]
        by_cases hx1 : x < g.r0 + j
        · rw [if_neg (by omega), f3, ha1, if_neg (by omega), if_neg (by omega)]
          unfold hhCol
          rw [if_pos hx1]
          ring
        · by_cases hx2 : x = g.r0 + j
          · subst hx2
            rw [if_neg (by omega), f3, ha1, if_neg (by omega), if_pos ⟨rfl, rfl⟩]
            unfold hhCol
            rw [if_neg (by omega), if_pos rfl]
            ring
          · rw [if_pos ⟨rfl, by omega⟩]
            unfold hhCol
            rw [if_neg hx1, if_neg hx2, hbelow x (by omega) hx]
            field_simp
            ring
      · rw [if_neg (by omega), f2]
        by_cases hx1 : g.r0 + j ≤ x
        · rw [if_pos ⟨⟨hx1, hx⟩, by omega, hc2⟩, hhead x hx1]
          congr 2
          rw [Finset.range_eq_Ico, ← Finset.sum_Ico_consecutive _ (Nat.zero_le (g.r0 + j)) (by omega),
            Finset.sum_eq_zero (s := Finset.Ico 0 (g.r0 + j)), zero_add]
          · refine Finset.sum_congr rfl fun z hz => ?_
            rw [Finset.mem_Ico] at hz
            rw [hhead z hz.1]
          · intro z hz
            rw [Finset.mem_Ico] at hz
            unfold hhCol
            rw [if_pos hz.2, star_zero, zero_mul]
        · rw [if_neg (by omega), ha2 x c hc]
          have : hhCol g (colStep g nw j s).a j x = 0 := if_pos (by omega)
          rw [this]
          ring
    · have esum : ∑ z ∈ Finset.range e, star (hhCol g (colStep g nw j s).a j z) * hhCol g (colStep g nw j s).a j z =
          1 + star (1 / (s.a (g.r0 + j) (g.c0 + j) - y)) * (1 / (s.a (g.r0 + j) (g.c0 + j) - y)) *
            ∑ z ∈ Finset.Ico (g.r0 + j + 1) e, star (s.a z (g.c0 + j)) * s.a z (g.c0 + j) := by
        rw [sum_hhCol hlt, Finset.mul_sum]
        congr 1
        · unfold hhCol
          rw [if_neg (by omega), if_pos rfl]
        · refine Finset.sum_congr rfl fun z hz => ?_
          rw [Finset.mem_Ico] at hz
          unfold hhCol
          rw [if_neg (by omega), if_neg (by omega), hbelow z hz.1 hz.2, star_mul']
          ring
      rw [esum]
      exact q2
    · intro x c hxc
      rw [f2, if_neg (by omega), ha1, if_neg (by omega), if_neg (by omega)]
    · intro i hi
      rw [hr]
      exact if_neg hi

/-! ### all the reflectors of the panel -/

/-- The panel after `j` reflectors, without the stored reflectors. -/
noncomputable def clean (g : PanelCfg K) (j : Nat) (a : Elems K) : Elems K := fun x c =>
  if (g.c0 ≤ c ∧ c < g.c0 + j) ∧ g.r0 + (c - g.c0) < x then 0 else a x c

/-- `Hᴴ M`, elementwise. -/
theorem reflector_conj_mul {n m : Nat} (v : Nat → K) (tau : K) (M : Elems K) (x : Fin n) (c : Fin m) :
    ((reflector n v tau).conjTranspose * toM n m M) x c =
      M x c - star tau * v x * ∑ z ∈ Finset.range n, star (v z) * M z c := by
  unfold reflector
  rw [Matrix.conjTranspose_sub, Matrix.conjTranspose_one, Matrix.conjTranspose_smul, Matrix.sub_mul, Matrix.one_mul,
    Matrix.sub_apply, Matrix.smul_mul, Matrix.smul_apply, Matrix.mul_apply, smul_eq_mul]
  simp only [Matrix.conjTranspose_apply, Matrix.vecMulVec_apply, toM]
  rw [Finset.sum_range, mul_assoc, Finset.mul_sum (a := v x)]
  congr 2
  refine Finset.sum_congr rfl fun z _ => ?_
  rw [star_mul, star_star]
  ring

/-- A unitary reflector. -/
theorem reflector_unitary {n : Nat} {v : Nat → K} {tau : K}
    (h : tau * star tau * (∑ z ∈ Finset.range n, star (v z) * v z) = tau + star tau) :
    (reflector n v tau).conjTranspose * reflector n v tau = 1 := by
  ext x y
  have e : reflector n v tau = toM n n (fun x y => (if x = y then 1 else 0) - tau * (v x * star (v y))) := by
    ext x y
    unfold reflector
    simp only [Matrix.sub_apply, Matrix.smul_apply, Matrix.vecMulVec_apply, toM, smul_eq_mul, Matrix.one_apply, Fin.ext_iff]
  have h2 := reflector_conj_mul v tau (fun x y => (if x = y then 1 else 0) - tau * (v x * star (v y))) x y
  rw [← e] at h2
  refine h2.trans ?_
  have e2 : ∑ z ∈ Finset.range n, star (v z) * ((if z = (y : Nat) then 1 else 0) - tau * (v z * star (v y))) =
      star (v y) - tau * (∑ z ∈ Finset.range n, star (v z) * v z) * star (v y) := by
    have : ∀ z ∈ Finset.range n, star (v z) * ((if z = (y : Nat) then 1 else 0) - tau * (v z * star (v y))) =
        (if z = (y : Nat) then star (v z) else 0) - tau * (star (v z) * v z) * star (v y) := by
      intro z _
      split <;> ring
    rw [Finset.sum_congr rfl this, Finset.sum_sub_distrib, Finset.sum_ite_eq' , if_pos (Finset.mem_range.2 y.2),
      ← Finset.sum_mul, ← Finset.mul_sum]
  rw [e2, Matrix.one_apply]
  simp only [Fin.ext_iff]
  linear_combination (v x * star (v y)) * h

theorem panel_spec {g : PanelCfg K} {e nw : Nat} (h : g.OK e) (hw : 0 < nw) (hsb : GoodSign g.signbit) :
    ∀ fuel j, fuel = g.nrefls - j → j ≤ g.nrefls → ∀ s : PanelSt K,
    (∀ x : Fin e, ∀ c : Fin e, g.c0 ≤ c → c < g.c0 + g.cols →
      clean g g.nrefls (panelFrom g nw fuel j s).a x c =
        ((reflectorProd e (fun x i => hhCol g (panelFrom g nw fuel j s).a (j + i) x)
          (fun i => (panelFrom g nw fuel j s).taus (j + i)) fuel).conjTranspose * toM e e (clean g j s.a)) x c) ∧
    (∀ i < fuel, (panelFrom g nw fuel j s).taus (j + i) * star ((panelFrom g nw fuel j s).taus (j + i)) *
      (∑ z ∈ Finset.range e, star (hhCol g (panelFrom g nw fuel j s).a (j + i) z) * hhCol g (panelFrom g nw fuel j s).a (j + i) z) =
      (panelFrom g nw fuel j s).taus (j + i) + star ((panelFrom g nw fuel j s).taus (j + i))) ∧
    (∀ x c, ¬ ((g.r0 + j ≤ x ∧ x < e) ∧ g.c0 + j ≤ c ∧ c < g.c0 + g.cols) → (panelFrom g nw fuel j s).a x c = s.a x c) ∧
    ∀ i, ¬ (j ≤ i ∧ i < g.nrefls) → (panelFrom g nw fuel j s).taus i = s.taus i := by
  intro fuel
  induction fuel with
  | zero =>
    intro j hf hj s
    have : j = g.nrefls := by omega
    subst this
    refine ⟨?_, fun i hi => by omega, fun _ _ _ => rfl, fun _ _ => rfl⟩
    intro x c _ _
    simp [reflectorProd, panelFrom, toM]
  | succ fuel ih =>
    intro j hf hj s
    have hjl : j < g.nrefls := by omega
    have hstep : panelFrom g nw (fuel + 1) j s = panelFrom g nw fuel (j + 1) (colStep g nw j s) := by
      rw [panelFrom]
      unfold colStep
      simp only
      split
      · rfl
      · split
        · rename_i hc
          have := h.width
          have : fuel = 0 := by omega
          subst this
          rfl
        · rfl
    rw [hstep]
    obtain ⟨i1, i2, i3, i4⟩ := ih (j + 1) (by omega) (by omega) (colStep g nw j s)
    obtain ⟨c1, c2, c3, c4⟩ := colStep_spec h hjl hw hsb s
    generalize panelFrom g nw fuel (j + 1) (colStep g nw j s) = s' at *
    have hv : ∀ x, hhCol g s'.a j x = hhCol g (colStep g nw j s).a j x := by
      intro x
      unfold hhCol
      rw [i3 x (g.c0 + j) (by omega)]
    have ht : s'.taus j = (colStep g nw j s).taus j := i4 j (by omega)
    have hprod : reflectorProd e (fun x i => hhCol g s'.a (j + i) x) (fun i => s'.taus (j + i)) (fuel + 1) =
        reflector e (hhCol g (colStep g nw j s).a j) ((colStep g nw j s).taus j) *
          reflectorProd e (fun x i => hhCol g s'.a (j + 1 + i) x) (fun i => s'.taus (j + 1 + i)) fuel := by
      rw [Nat.add_comm fuel 1, reflectorProd_add]
      congr 1
      · unfold reflectorProd
        simp only [List.range_one, List.map_cons, List.map_nil, List.prod_singleton, Nat.add_zero, ht, hv]
      · refine reflectorProd_congr fun i _ => ?_
        rw [Nat.add_assoc]
        exact ⟨fun _ _ => rfl, rfl⟩
    refine ⟨?_, ?_, ?_, ?_⟩
    · intro x c hc1 hc2
      rw [hprod, Matrix.conjTranspose_mul, Matrix.mul_assoc, i1 x c hc1 hc2, Matrix.mul_apply, Matrix.mul_apply]
      refine Finset.sum_congr rfl fun z _ => ?_
      congr 1
      rw [reflector_conj_mul]
      show clean g (j + 1) (colStep g nw j s).a z c = _
      by_cases hcj : g.c0 + j ≤ (c : Nat)
      · have hcl : ∀ z : Nat, clean g j s.a z c = s.a z c := fun z => if_neg (by omega)
        rw [hcl]
        simp only [hcl]
        rw [← c1 z z.2 c hcj hc2]
        unfold clean
        by_cases hz : (c : Nat) = g.c0 + j ∧ g.r0 + j < (z : Nat)
        · rw [if_pos hz, if_pos (by omega)]
        · rw [if_neg hz, if_neg (by omega)]
      · rw [Finset.sum_eq_zero, mul_zero, sub_zero]
        · unfold clean
          by_cases hz : g.r0 + ((c : Nat) - g.c0) < (z : Nat)
          · rw [if_pos (by omega), if_pos (by omega)]
          · rw [if_neg (by omega), if_neg (by omega), c3 z c (by omega)]
        · intro y hy
          by_cases hyj : y < g.r0 + j
          · have : hhCol g (colStep g nw j s).a j y = 0 := if_pos hyj
            rw [this, star_zero, zero_mul]
          · have : clean g j s.a y c = 0 := if_pos (by omega)
            rw [this, mul_zero]
    · intro i hi
      by_cases hi0 : i = 0
      · subst hi0
        simp only [Nat.add_zero, ht, hv]
        exact c2
      · have := i2 (i - 1) (by omega)
        rw [show j + 1 + (i - 1) = j + i by omega] at this
        exact this
    · intro x c hxc
      rw [i3 x c (by omega), c3 x c hxc]
    · intro i hi
      rw [i4 i (by omega), c4 i (by omega)]

end DLAF
