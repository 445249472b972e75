import Verif.Lemmas.RedBandTrail
import Mathlib.Tactic.NoncommRing
/- One panel of the reduction to band. -/
namespace DLAF
open scoped Classical
variable {K : Type*} [RCLike K]

/-! ### the tiles of the panel -/

theorem pieces_head {nb n band j : Nat} (hb : 0 < band) (hnb : 0 < nb) (hd : nb % band = 0) (hn : (j + 1) * band < n) :
    ∃ p ps, pieces nb n ((j + 1) * band) = p :: ps ∧ p.1 = (j + 1) * band ∧ min band (n - (j + 1) * band) ≤ p.2 := by
  have hch := pieces_chain hnb hn
  have hdm := Nat.div_add_mod ((j + 1) * band) nb
  have hml := Nat.mod_lt ((j + 1) * band) hnb
  have hlt : (j + 1) * band / nb < (n + nb - 1) / nb := by
    rw [Nat.lt_iff_add_one_le, Nat.le_div_iff_mul_le hnb, Nat.add_mul, Nat.mul_comm]
    omega
  unfold pieces at *
  rw [upto_cons hlt, List.map_cons, if_pos rfl] at *
  refine ⟨_, _, rfl, hch.1, ?_⟩
  dsimp only
  have hdvd : band ∣ (j + 1) * band % nb := by
    rw [Nat.dvd_mod_iff (Nat.dvd_of_mod_eq_zero hd)]
    exact Nat.dvd_mul_left _ _
  obtain ⟨q, hq⟩ := hdvd
  obtain ⟨r, hr⟩ := Nat.dvd_of_mod_eq_zero hd
  have hqr : q + 1 ≤ r := by
    by_contra h
    have : r ≤ q := by omega
    have := Nat.mul_le_mul_left band this
    omega
  have h4 := Nat.mul_le_mul_left band hqr
  rw [Nat.mul_add] at h4
  rw [Nat.mul_comm] at hdm
  omega

/-- The tiles of the panel: all but the first only if the panel is full. -/
theorem pieces_single {nb n band j : Nat} (hb : 0 < band) (hnb : 0 < nb) (hd : nb % band = 0) (hn : (j + 1) * band < n)
    {p : Nat × Nat} {ps : List (Nat × Nat)} (h : pieces nb n ((j + 1) * band) = p :: ps)
    (hk : n ≤ (j + 1) * band + band) : ps = [] := by
  obtain ⟨p', ps', h1, h2, h3⟩ := pieces_head hb hnb hd hn
  rw [h] at h1
  obtain ⟨rfl, rfl⟩ := List.cons.inj h1
  have hch := pieces_chain hnb hn
  rw [h] at hch
  cases ps with
  | nil => rfl
  | cons q qs =>
    have h4 := pieces_pos hnb (p := q) (off := (j + 1) * band) (n := n) (by rw [h]; simp) hn
    have h5 := hch.2.1
    have h6 := hch.2.2.le
    omega

theorem setupPanelV_eq {nb n band j k : Nat} (hb : 0 < band) (hnb : 0 < nb) (hd : nb % band = 0) (hn : (j + 1) * band < n)
    (hk : k = min band (n - band - 1 - j * band)) (A V : Elems K) :
    ∃ V', setupPanelV (pieces nb n ((j + 1) * band)) (j * band) band k A V = some V' ∧
      ∀ x, (j + 1) * band ≤ x → x < n → ∀ c < k, V' x c = storedRefl band A x (j * band + c) := by
  have e0 : (j + 1) * band = j * band + band := by rw [Nat.add_mul, Nat.one_mul]
  obtain ⟨p, ps, h1, h2, h3⟩ := pieces_head hb hnb hd hn
  have hch := pieces_chain hnb hn
  rw [h1] at hch
  rw [h1]
  unfold setupPanelV
  have hmin : min k band = k := by omega
  rw [hmin]
  have hhead : ∀ x, p.1 ≤ x → x < p.1 + p.2 → ∀ c < k,
      putB V p.1 0 (lasetHH 0 (getB A p.1 (j * band) p.2 k)) x c = storedRefl band A x (j * band + c) := by
    intro x hx1 hx2 c hc
    simp only [putB, lasetHH, getB, Nat.zero_le, true_and, Nat.zero_add, Nat.sub_zero, Nat.not_lt_zero, if_false]
    rw [if_pos ⟨hx1, hx2, hc⟩]
    unfold storedRefl
    by_cases h4 : x - p.1 < c
    · rw [if_pos h4, if_pos (by omega)]
    · rw [if_neg h4, if_neg (show ¬ x < j * band + c + band by omega)]
      by_cases h5 : x - p.1 = c
      · rw [if_pos h5, if_pos (by omega)]
      · rw [if_neg h5, if_neg (by omega), show p.1 + (x - p.1) = x by omega]
  by_cases hs : ps = []
  · subst hs
    have : (j + 1) * band + p.2 = n := hch.2
    refine ⟨_, rfl, fun x hx1 hx2 c hc => hhead x (by omega) (by omega) c hc⟩
  · have hfull : band = k := by
      by_contra hne
      exact hs (pieces_single hb hnb hd hn h1 (by omega))
    have hl := rows_loop (g := fun p => p) (ps := ps) (a := (j + 1) * band + p.2) (e := n) (c0 := 0) (cw := k)
      (by simpa using hch.2) (fun x y _ => A x (j * band + y))
      (body := fun V p => if band = k then some (putB V p.1 0 (getB A p.1 (j * band) p.2 band)) else none) (by
        intro M q hq
        rw [if_pos hfull]
        refine ⟨_, rfl, rfl, hfull, fun r _ c _ => by simp [getB]⟩) (putB V p.1 0 (lasetHH 0 (getB A p.1 (j * band) p.2 k)))
    refine ⟨_, hl, ?_⟩
    intro x hx1 hx2 c hc
    beta_reduce
    by_cases hx : (j + 1) * band + p.2 ≤ x
    · rw [if_pos ⟨⟨hx, hx2⟩, by omega⟩]
      unfold storedRefl
      rw [if_neg (by omega), if_neg (by omega)]
    · rw [if_neg (by omega), hhead x (by omega) (by omega) c hc]

/-! ### the two-sided update -/

theorem two_sided {n k : Nat} (H : Matrix (Fin n) (Fin n) K) (V W : Matrix (Fin n) (Fin k) K) (hH : H.conjTranspose = H) :
    H - (H * W - (1 / 2 : K) • (V * (W.conjTranspose * (H * W)))) * V.conjTranspose -
      V * (H * W - (1 / 2 : K) • (V * (W.conjTranspose * (H * W)))).conjTranspose =
    (1 - W * V.conjTranspose).conjTranspose * H * (1 - W * V.conjTranspose) := by
  have h2 : star (1 / 2 : K) = 1 / 2 := by
    rw [star_div₀, star_one]
    congr 1
    exact star_ofNat 2
  have h3 : ∀ M : Matrix (Fin n) (Fin n) K, (1 / 2 : K) • M + (1 / 2 : K) • M = M := by
    intro M
    rw [← add_smul]
    norm_num
  rw [Matrix.conjTranspose_sub, Matrix.conjTranspose_sub, Matrix.conjTranspose_smul, h2, Matrix.conjTranspose_one]
  simp only [Matrix.conjTranspose_mul, Matrix.conjTranspose_conjTranspose, hH, Matrix.sub_mul, Matrix.mul_sub,
    Matrix.smul_mul, Matrix.mul_smul, Matrix.one_mul, Matrix.mul_one, Matrix.mul_assoc]
  have h4 := h3 (V * (W.conjTranspose * (H * (W * V.conjTranspose))))
  generalize V * (W.conjTranspose * (H * (W * V.conjTranspose))) = Z at *
  generalize V * (W.conjTranspose * H) = Z1
  generalize H * (W * V.conjTranspose) = Z2
  have : H - (Z2 - (1 / 2 : K) • Z) - (Z1 - (1 / 2 : K) • Z) = H - Z1 - Z2 + ((1 / 2 : K) • Z + (1 / 2 : K) • Z) := by
    abel
  rw [this, h4]
  abel

theorem hermM_conj {n : Nat} {A : Elems K} (hd : ∀ x < n, star (A x x) = A x x) : (hermM n A).conjTranspose = hermM n A := by
  ext x y
  simp only [hermM, Matrix.conjTranspose_apply, lowE]
  by_cases h : (x : Nat) ≤ y
  · rw [if_pos h]
    by_cases h2 : (y : Nat) ≤ x
    · rw [if_pos h2, show (y : Nat) = x by omega, hd x x.2]
    · rw [if_neg h2]
  · rw [if_neg h, if_pos (by omega), star_star]

/-- The trailing update. -/
theorem trail_spec {nb n band j k : Nat} (hb : 0 < band) (hnb : 0 < nb) (hn : (j + 1) * band < n)
    {F : Nat → Nat → K} (hF : ∀ c < k, ∀ i < k, c < i → F i c = 0) {V' : Elems K} (hz : ∀ x < (j + 1) * band, ∀ c < k, V' x c = 0)
    (V W0 X0 A : Elems K) (hV : ∀ x, (j + 1) * band ≤ x → x < n → ∀ c < k, V x c = V' x c)
    (hd : ∀ x < n, star (A x x) = A x x) :
    ∃ A', (do
      let W ← trmmComputeW (pieces nb n ((j + 1) * band)) k ⟨k, k, F⟩ V W0
      let X ← hemmComputeX (pieces nb n ((j + 1) * band)) k A W X0
      let w2 ← gemmComputeW2 (pieces nb n ((j + 1) * band)) k W X
      let X ← gemmUpdateX (pieces nb n ((j + 1) * band)) k w2 V X
      her2kUpdate (pieces nb n ((j + 1) * band)) k V X A) = some A' ∧
      (∀ x y : Fin n, (j + 1) * band ≤ (y : Nat) → (y : Nat) ≤ x →
        A' x y = ((1 - toM n k V' * toM k k F * (toM n k V').conjTranspose).conjTranspose * hermM n A *
          (1 - toM n k V' * toM k k F * (toM n k V').conjTranspose) : Matrix (Fin n) (Fin n) K) x y) ∧
      ∀ x y, ¬ (((j + 1) * band ≤ y ∧ y ≤ x) ∧ x < n) → A' x y = A x y := by
  generalize hr0 : (j + 1) * band = r0 at *
  have hc := pieces_chain hnb hn
  have hp : ∀ p ∈ pieces nb n r0, 0 < p.2 := fun p hp => pieces_pos hnb hp hn
  simp only [Option.bind_eq_bind]
  have e1 := trmmComputeW_eq hc hF V W0 hV
  generalize hWd : (fun x y => if (r0 ≤ x ∧ x < n) ∧ (0 ≤ y ∧ y < 0 + k) then
    ∑ l ∈ Finset.range k, V' x l * F l y else W0 x y) = W at e1
  have e2 := hemmComputeX_eq (k := k) hc hp A W X0
  generalize hXd : (fun x y => if (r0 ≤ x ∧ x < n) ∧ y < k then
    ∑ z ∈ Finset.Ico r0 n, lowE A x z * W z y else X0 x y) = X at e2
  rw [e1, Option.bind_some, e2, Option.bind_some]
  obtain ⟨w2, g1, g2⟩ := gemmComputeW2_eq (k := k) hc W X
  rw [g1, Option.bind_some, gemmUpdateX_eq hc g2 V X hV, Option.bind_some, her2kUpdate_eq hc hp]
  refine ⟨_, rfl, ?_, fun x y hxy => if_neg hxy⟩
  intro x y hy hyx
  beta_reduce
  rw [if_pos ⟨⟨hy, hyx⟩, x.2⟩, ← two_sided _ _ _ (hermM_conj hd)]
  unfold her2kE
  -- elements of the matrices
  have hWe : ∀ z : Fin n, r0 ≤ (z : Nat) → ∀ c : Fin k, W z c = (toM n k V' * toM k k F) z c := by
    intro z hz1 c
    rw [← hWd]
    beta_reduce
    rw [if_pos ⟨⟨hz1, z.2⟩, Nat.zero_le _, by omega⟩, Matrix.mul_apply, Finset.sum_range]
    rfl
  have hW0 : ∀ z : Fin n, (z : Nat) < r0 → ∀ c : Fin k, (toM n k V' * toM k k F) z c = 0 := by
    intro z hz1 c
    rw [Matrix.mul_apply]
    refine Finset.sum_eq_zero fun l _ => ?_
    have : toM n k V' z l = 0 := hz z hz1 l l.2
    rw [this, zero_mul]
  -- sums over the trailing rows
  have hsum : ∀ (f : Nat → K) (g : Fin n → K), (∀ z : Fin n, r0 ≤ (z : Nat) → f z = g z) →
      (∀ z : Fin n, (z : Nat) < r0 → g z = 0) → ∑ z ∈ Finset.Ico r0 n, f z = ∑ z, g z := by
    intro f g h1 h2
    have : ∑ z ∈ Finset.range n, (if r0 ≤ z then f z else 0) = ∑ z : Fin n, g z := by
      rw [Finset.sum_range]
      refine Finset.sum_congr rfl fun z _ => ?_
      by_cases hz : r0 ≤ (z : Nat)
      · rw [if_pos hz, h1 z hz]
      · rw [if_neg hz, h2 z (by omega)]
    rw [← this, Finset.range_eq_Ico, ← Finset.sum_Ico_consecutive _ (Nat.zero_le r0) hn.le,
      Finset.sum_eq_zero (s := Finset.Ico 0 r0), zero_add]
    · refine Finset.sum_congr rfl fun z hz => ?_
      rw [Finset.mem_Ico] at hz
      rw [if_pos hz.1]
    · intro z hz
      rw [Finset.mem_Ico] at hz
      rw [if_neg (by omega)]
  have hXe : ∀ z : Fin n, r0 ≤ (z : Nat) → ∀ c : Fin k, X z c = (hermM n A * (toM n k V' * toM k k F)) z c := by
    intro z hz1 c
    rw [← hXd]
    beta_reduce
    rw [if_pos ⟨⟨hz1, z.2⟩, c.2⟩, Matrix.mul_apply]
    refine hsum _ _ (fun w hw => ?_) (fun w hw => ?_)
    · rw [hWe w hw c]; rfl
    · rw [hW0 w hw c, mul_zero]
  have hW2 : ∀ l c : Fin k, ∑ x ∈ Finset.Ico r0 n, star (W x l) * X x c =
      ((toM n k V' * toM k k F).conjTranspose * (hermM n A * (toM n k V' * toM k k F))) l c := by
    intro l c
    rw [Matrix.mul_apply]
    refine hsum _ _ (fun w hw => ?_) (fun w hw => ?_)
    · rw [hWe w hw, hXe w hw]; rfl
    · rw [Matrix.conjTranspose_apply, hW0 w hw, star_zero, zero_mul]
  have hXf : ∀ z : Fin n, r0 ≤ (z : Nat) → ∀ c : Fin k,
      (if (r0 ≤ (z : Nat) ∧ (z : Nat) < n) ∧ (0 ≤ (c : Nat) ∧ (c : Nat) < 0 + k) then
        -(1 / 2) * (∑ l ∈ Finset.range k, V' z l * ∑ x ∈ Finset.Ico r0 n, star (W x l) * X x c) + X z c else X z c) =
      (hermM n A * (toM n k V' * toM k k F) - (1 / 2 : K) • (toM n k V' *
        ((toM n k V' * toM k k F).conjTranspose * (hermM n A * (toM n k V' * toM k k F))))) z c := by
    intro z hz1 c
    rw [if_pos ⟨⟨hz1, z.2⟩, Nat.zero_le _, by omega⟩, Matrix.sub_apply, Matrix.smul_apply, ← hXe z hz1 c,
      Matrix.mul_apply, smul_eq_mul, Finset.sum_range]
    have : ∀ l : Fin k, V' z l * ∑ x ∈ Finset.Ico r0 n, star (W x l) * X x c = toM n k V' z l *
        ((toM n k V' * toM k k F).conjTranspose * (hermM n A * (toM n k V' * toM k k F))) l c := by
      intro l
      rw [hW2 l c]
      rfl
    simp only [this]
    ring
  generalize hermM n A * (toM n k V' * toM k k F) - (1 / 2 : K) • (toM n k V' *
        ((toM n k V' * toM k k F).conjTranspose * (hermM n A * (toM n k V' * toM k k F)))) = XM at *
  have hA : hermM n A x y = A x y := if_pos hyx
  rw [Matrix.sub_apply, Matrix.sub_apply, hA, Matrix.mul_apply, Matrix.mul_apply, sub_sub, ← Finset.sum_add_distrib,
    Finset.sum_range]
  congr 1
  refine Finset.sum_congr rfl fun l _ => ?_
  beta_reduce
  rw [hXf x (by omega) l, hXf y hy l, Matrix.conjTranspose_apply, Matrix.conjTranspose_apply, hV x (by omega) x.2 l l.2,
    hV y hy y.2 l l.2]
  rfl

end DLAF
