import Verif.Lemmas.RedBandLoop
import Verif.Lemmas.Threads
/- C46: reduction of a Hermitian matrix to band form (local). -/
namespace DLAF
open scoped Classical
variable {K : Type*} [RCLike K]

/-- C46: for every order `n`, tile size, band width (at least 2, dividing the tile size), number of workers, choice of the sign
of a zero, previous contents of the work spaces, and every Hermitian matrix (given by its lower triangle, with a real
diagonal), the call returns; with `Q = H_0 H_1 ... H_{n-band-2}` the product of the reflectors that it leaves below the `band`-th
subdiagonal, with the returned taus, `Q` is unitary, the Hermitian matrix given by the band of the result is `Qᴴ A Q`, and
neither the strictly upper triangle nor anything outside of the matrix, nor taus without a reflector, change. -/
theorem C46_reduction_to_band {E : RedEnv K} {n nb band : Nat} (hT : 0 < E.availT) (hP : 0 < E.availP)
    (hsb : GoodSign E.signbit) (hb : 2 ≤ band) (hnb : 0 < nb) (hd : nb % band = 0) (A : Elems K) (taus : Nat → K)
    (hA : ∀ x < n, star (A x x) = A x x) :
    ∃ A' taus', reductionToBand E n nb band A taus = some (A', taus') ∧
      (reflectorProd n (storedRefl band A') taus' (n - band - 1)).conjTranspose *
        reflectorProd n (storedRefl band A') taus' (n - band - 1) = 1 ∧
      hermM n (bandLow band n A') =
        (reflectorProd n (storedRefl band A') taus' (n - band - 1)).conjTranspose * hermM n A *
          reflectorProd n (storedRefl band A') taus' (n - band - 1) ∧
      (∀ x y, ¬ (y ≤ x ∧ x < n) → A' x y = A x y) ∧ ∀ i, n - band - 1 ≤ i → taus' i = taus i := by
  have hband : ∀ (m : Nat) (B : Elems K), n - band - 1 ≤ m → m ≤ n →
      hermM n (bandLow band m B) = hermM n (bandLow band n B) := by
    intro m B hm1 hm2
    have : ∀ x y : Fin n, bandLow band m B x y = bandLow band n B x y := by
      intro x y
      unfold bandLow
      by_cases h : (y : Nat) < m ∧ (y : Nat) + band < x
      · rw [if_pos h, if_pos (by omega)]
      · rw [if_neg h, if_neg (by omega)]
    ext x y
    simp only [hermM, lowE, this]
  have hzero : hermM n (bandLow band 0 A) = hermM n A := by
    ext x y
    simp only [hermM, lowE, bandLow, Nat.not_lt_zero, false_and, if_false]
  unfold reductionToBand
  rw [if_neg (by simp [hb, hd])]
  by_cases h0 : n - band - 1 = 0
  · rw [if_pos h0]
    refine ⟨A, taus, rfl, ?_, ?_, fun _ _ _ => rfl, fun _ _ => rfl⟩
    · rw [h0]; simp [reflectorProd]
    · rw [h0, ← hband 0 A (by omega) (by omega), hzero]
      simp [reflectorProd]
  rw [if_neg h0]
  have hcol : ∀ m, m < (n - band - 1 - 1) / band + 1 → m * band < n - band - 1 := by
    intro m hm
    have := (Nat.le_div_iff_mul_le (x := m) (y := n - band - 1 - 1) (show 0 < band by omega)).1 (by omega)
    omega
  have key : ∀ m, m ≤ (n - band - 1 - 1) / band + 1 → ∃ A' taus',
      forM' (upto 0 m) (A, taus) (redBandStep E n nb band) = some (A', taus') ∧
      (reflectorProd n (storedRefl band A') taus' (min (m * band) (n - band - 1))).conjTranspose *
        reflectorProd n (storedRefl band A') taus' (min (m * band) (n - band - 1)) = 1 ∧
      hermM n (bandLow band (min (m * band) (n - band - 1)) A') =
        (reflectorProd n (storedRefl band A') taus' (min (m * band) (n - band - 1))).conjTranspose * hermM n A *
          reflectorProd n (storedRefl band A') taus' (min (m * band) (n - band - 1)) ∧
      (∀ x y, ¬ (y ≤ x ∧ x < n) → A' x y = A x y) ∧ (∀ i, n - band - 1 ≤ i → taus' i = taus i) := by
    intro m
    induction m with
    | zero =>
      intro _
      refine ⟨A, taus, by rw [upto_self]; rfl, ?_, ?_, fun _ _ _ => rfl, fun _ _ => rfl⟩
      · simp [reflectorProd]
      · rw [Nat.zero_mul, Nat.zero_min, hzero]; simp [reflectorProd]
    | succ m ih =>
      intro hm
      obtain ⟨A1, t1, i1, i2, i3, i4, i5⟩ := ih (by omega)
      have hc := hcol m (by omega)
      rw [show min (m * band) (n - band - 1) = m * band by omega] at i2 i3
      -- the diagonal stays real
      have hA1 : ∀ x < n, star (A1 x x) = A1 x x := by
        intro x hx
        have h1 := congrFun (congrFun i3 ⟨x, hx⟩) ⟨x, hx⟩
        have h2 := conj_conj (P := reflectorProd n (storedRefl band A1) t1 (m * band)) (hermM_conj hA)
        rw [← i3] at h2
        have h3 := congrFun (congrFun h2 ⟨x, hx⟩) ⟨x, hx⟩
        rw [Matrix.conjTranspose_apply] at h3
        simp only [hermM, lowE, bandLow_diag, Nat.le_refl, if_true] at h3
        exact h3
      obtain ⟨A2, t2, j1, j2, j3, j4, j5⟩ := redBandStep_spec (j := m) hT hP hsb (by omega) hnb hd hc A1 t1 hA1 rfl
      have e1 : min ((m + 1) * band) (n - band - 1) = m * band + min band (n - band - 1 - m * band) := by
        rw [Nat.add_mul, Nat.one_mul]; omega
      have e2 : reflectorProd n (storedRefl band A2) t2 (m * band + min band (n - band - 1 - m * band)) =
          reflectorProd n (storedRefl band A1) t1 (m * band) *
          reflectorProd n (fun x i => storedRefl band A2 x (m * band + i)) (fun i => t2 (m * band + i))
            (min band (n - band - 1 - m * band)) := by
        rw [reflectorProd_add]
        congr 1
        refine reflectorProd_congr fun i hi => ⟨fun x _ => ?_, j5 i (by omega)⟩
        unfold storedRefl
        rw [j4 x i (by omega)]
      refine ⟨A2, t2, ?_, ?_, ?_, ?_, ?_⟩
      · rw [upto_succ (Nat.zero_le m), forM'_append, i1]
        show forM' [m] (A1, t1) _ = _
        rw [forM'_cons, j1]
        rfl
      · rw [e1, e2, Matrix.conjTranspose_mul, Matrix.mul_assoc,
          ← Matrix.mul_assoc (reflectorProd n (storedRefl band A1) t1 (m * band)).conjTranspose, i2, Matrix.one_mul, j3]
      · rw [e1, e2, j2, i3, Matrix.conjTranspose_mul]
        simp only [Matrix.mul_assoc]
      · intro x y hxy
        rw [j4 x y (by omega), i4 x y hxy]
      · intro i hi
        rw [j5 i (by omega), i5 i hi]
  obtain ⟨A', taus', k1, k2, k3, k4, k5⟩ := key _ (Nat.le_refl _)
  have hfin : min (((n - band - 1 - 1) / band + 1) * band) (n - band - 1) = n - band - 1 := by
    have h1 := Nat.div_add_mod (n - band - 1 - 1) band
    have h2 := Nat.mod_lt (n - band - 1 - 1) (show 0 < band by omega)
    rw [Nat.add_mul, Nat.one_mul, Nat.mul_comm]
    omega
  rw [hfin] at k2 k3
  exact ⟨A', taus', k1, k2, by rw [← hband (n - band - 1) A' (Nat.le_refl _) (by omega), k3], k4, k5⟩

/-- C46: band widths below two and those that do not divide the tile size are refused. -/
theorem C46_bad_band_refused {E : RedEnv K} {n nb band : Nat} (h : band < 2 ∨ nb % band ≠ 0) (A : Elems K) (taus : Nat → K) :
    reductionToBand E n nb band A taus = none := by
  unfold reductionToBand
  rw [if_pos (by omega)]

/-- C46: the threads that reduce a panel do not race: under every schedule of every number of workers they end, without a
deadlock at the barriers, in the state of the sequential reduction that the model uses. -/
theorem C46_panel_every_schedule {n nb band j nw : Nat} (hw : 0 < nw) (hb : 0 < band) (hnb : 0 < nb) (hd : nb % band = 0)
    (hj : j * band < n - band - 1) (signbit : K → Bool) (s : PanelSt K) :
    Bulk.OneResult (panelCode ⟨pieces nb n ((j + 1) * band), j * band, band, min band (n - band - 1 - j * band), signbit⟩ nw)
      nw .start s
      (panelFrom ⟨pieces nb n ((j + 1) * band), j * band, band, min band (n - band - 1 - j * band), signbit⟩ nw
        (min band (n - band - 1 - j * band)) 0 s) := by
  have e0 : (j + 1) * band = j * band + band := by rw [Nat.add_mul, Nat.one_mul]
  have hn : (j + 1) * band < n := by omega
  obtain ⟨p, ps, q1, q2, q3⟩ := pieces_head hb hnb hd hn
  have hc := pieces_chain hnb hn
  obtain ⟨m, hm⟩ := (panel_seq (g := (⟨pieces nb n ((j + 1) * band), j * band, band, min band (n - band - 1 - j * band),
    signbit⟩ : PanelCfg K)) (e := n) (nw := nw) ⟨by
      have : PanelCfg.r0 (⟨pieces nb n ((j + 1) * band), j * band, band, min band (n - band - 1 - j * band),
          signbit⟩ : PanelCfg K) = (j + 1) * band := by
        unfold PanelCfg.r0
        rw [q1]
        exact q2
      rw [this]
      exact hc, by rw [q1]; simp, by rw [q1]; show _ ≤ p.2; dsimp only; omega, by dsimp only; omega⟩ hw
    (min band (n - band - 1 - j * band)) 0 rfl).1 .start s rfl
  exact hm.one

/- Non-vacuity: order 4, band 2, tiles of size 2, over `ℝ`: one reflector; the result is not the input. -/
section example_
private noncomputable def exE : RedEnv ℝ := ⟨2, 3, fun x => decide (x < 0), fun _ _ _ => 7⟩
private def exA : Elems ℝ := fun x y => if x + y = 3 ∨ x = y then 1 else if x = 2 ∧ y = 0 then 3 else if x = 3 ∧ y = 0 then 4 else 0

private theorem exSign : GoodSign exE.signbit := by
  intro x
  simp only [exE, RCLike.re_to_real, decide_eq_false_iff_not, decide_eq_true_eq]
  exact ⟨fun h => by linarith, fun h => h⟩

example : ∃ A' taus', reductionToBand exE 4 2 2 exA (fun _ => 0) = some (A', taus') ∧
    (reflectorProd 4 (storedRefl 2 A') taus' 1).conjTranspose * hermM 4 exA * reflectorProd 4 (storedRefl 2 A') taus' 1 =
      hermM 4 (bandLow 2 4 A') ∧ taus' 0 ≠ 0 := by
  obtain ⟨A', taus', h1, h2, h3, h4, h5⟩ := C46_reduction_to_band (E := exE) (n := 4) (nb := 2) (band := 2) (by decide)
    (by decide) exSign (by decide) (by decide) (by decide) exA (fun _ => 0) (fun x _ => by simp)
  refine ⟨A', taus', h1, h3.symm, ?_⟩
  intro h0
  have hq : reflectorProd 4 (storedRefl 2 A') taus' (4 - 2 - 1) = 1 := by
    simp [reflectorProd, reflector, h0]
  rw [hq, Matrix.conjTranspose_one, Matrix.one_mul, Matrix.mul_one] at h3
  have := congrFun (congrFun h3 ⟨3, by omega⟩) ⟨0, by omega⟩
  simp [hermM, lowE, bandLow, exA] at this
end example_

end DLAF
