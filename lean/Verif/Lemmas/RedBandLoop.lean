import Verif.Lemmas.RedBandStep
/- One panel of the reduction to band: the step as a two-sided transformation. -/
namespace DLAF
open scoped Classical
variable {K : Type*} [RCLike K]

theorem hermM_ext {n : Nat} {A : Elems K} {M : Matrix (Fin n) (Fin n) K} (hM : M.conjTranspose = M)
    (h : ∀ x y : Fin n, (y : Nat) ≤ x → A x y = M x y) : hermM n A = M := by
  ext x y
  simp only [hermM, lowE]
  by_cases hxy : (y : Nat) ≤ x
  · rw [if_pos hxy, h x y hxy]
  · rw [if_neg hxy, h y x (by omega), ← Matrix.conjTranspose_apply, hM]

theorem conj_conj {n : Nat} {M P : Matrix (Fin n) (Fin n) K} (hM : M.conjTranspose = M) :
    (P.conjTranspose * M * P).conjTranspose = P.conjTranspose * M * P := by
  rw [Matrix.conjTranspose_mul, Matrix.conjTranspose_mul, Matrix.conjTranspose_conjTranspose, hM, Matrix.mul_assoc]

/-- `Pᴴ M` in the rows below `r0`. -/
theorem conj_tail {n r0 : Nat} {P M N : Matrix (Fin n) (Fin n) K}
    (hP : ∀ z y : Fin n, (z : Nat) < r0 ∨ (y : Nat) < r0 → P z y = (1 : Matrix (Fin n) (Fin n) K) z y) {x y : Fin n}
    (hx : r0 ≤ (x : Nat)) (h : ∀ z : Fin n, r0 ≤ (z : Nat) → M z y = N z y) :
    (P.conjTranspose * M) x y = (P.conjTranspose * N) x y := by
  rw [Matrix.mul_apply, Matrix.mul_apply]
  refine Finset.sum_congr rfl fun z _ => ?_
  by_cases hz : r0 ≤ (z : Nat)
  · rw [h z hz]
  · have : P z x = 0 := by
      rw [hP z x (.inl (by omega)), Matrix.one_apply, if_neg]
      intro h; rw [h] at hz; omega
    rw [Matrix.conjTranspose_apply, this, star_zero, zero_mul, zero_mul]

theorem conj_tail_right {n r0 : Nat} {P M N : Matrix (Fin n) (Fin n) K}
    (hP : ∀ z y : Fin n, (z : Nat) < r0 ∨ (y : Nat) < r0 → P z y = (1 : Matrix (Fin n) (Fin n) K) z y) {x y : Fin n}
    (hy : r0 ≤ (y : Nat)) (h : ∀ z : Fin n, r0 ≤ (z : Nat) → M x z = N x z) : (M * P) x y = (N * P) x y := by
  rw [Matrix.mul_apply, Matrix.mul_apply]
  refine Finset.sum_congr rfl fun z _ => ?_
  by_cases hz : r0 ≤ (z : Nat)
  · rw [h z hz]
  · have : P z y = 0 := by
      rw [hP z y (.inl (by omega)), Matrix.one_apply, if_neg]
      intro h; rw [h] at hz; omega
    rw [this, mul_zero, mul_zero]

theorem head_left {n r0 : Nat} {P M : Matrix (Fin n) (Fin n) K}
    (hP : ∀ z y : Fin n, (z : Nat) < r0 ∨ (y : Nat) < r0 → P z y = (1 : Matrix (Fin n) (Fin n) K) z y) {x y : Fin n}
    (hx : (x : Nat) < r0) : (P.conjTranspose * M) x y = M x y := by
  have : (P.conjTranspose * M) x y = ((1 : Matrix (Fin n) (Fin n) K) * M) x y := by
    rw [Matrix.mul_apply, Matrix.mul_apply]
    refine Finset.sum_congr rfl fun z _ => ?_
    rw [Matrix.conjTranspose_apply, hP z x (.inr hx), ← Matrix.conjTranspose_apply, Matrix.conjTranspose_one]
  rw [this, Matrix.one_mul]

theorem head_right {n r0 : Nat} {P M : Matrix (Fin n) (Fin n) K}
    (hP : ∀ z y : Fin n, (z : Nat) < r0 ∨ (y : Nat) < r0 → P z y = (1 : Matrix (Fin n) (Fin n) K) z y) {x y : Fin n}
    (hy : (y : Nat) < r0) : (M * P) x y = M x y := by
  have : (M * P) x y = (M * (1 : Matrix (Fin n) (Fin n) K)) x y := by
    rw [Matrix.mul_apply, Matrix.mul_apply]
    refine Finset.sum_congr rfl fun z _ => ?_
    rw [hP z y (.inr hy)]
  rw [this, Matrix.mul_one]

theorem reflectorProd_unitary {n : Nat} {V : Nat → Nat → K} {tau : Nat → K} : ∀ {k : Nat},
    (∀ i < k, tau i * star (tau i) * (∑ z ∈ Finset.range n, star (V z i) * V z i) = tau i + star (tau i)) →
    (reflectorProd n V tau k).conjTranspose * reflectorProd n V tau k = 1
  | 0, _ => by simp [reflectorProd]
  | k + 1, h => by
    have ih := reflectorProd_unitary (n := n) (V := V) (tau := tau) (k := k) fun i hi => h i (by omega)
    have h1 := reflector_unitary (n := n) (v := fun x => V x k) (h k (by omega))
    have : reflectorProd n V tau (k + 1) = reflectorProd n V tau k * reflector n (fun x => V x k) (tau k) := by
      unfold reflectorProd
      rw [List.range_succ, List.map_append, List.prod_append, List.map_singleton, List.prod_singleton]
    rw [this, Matrix.conjTranspose_mul, Matrix.mul_assoc, ← Matrix.mul_assoc (reflectorProd n V tau k).conjTranspose, ih,
      Matrix.one_mul, h1]

theorem bandLow_diag {band m : Nat} (A : Elems K) (x : Nat) : bandLow band m A x x = A x x := if_neg (by omega)

/-- The effect of an iteration on the matrix: the panel is reduced with reflectors, `1 - V F Vᴴ` is their product and the trailing matrix is
multiplied with it from both sides. -/
theorem redBand_core {sb : K → Bool} {n nb band j nw : Nat} (hw : 0 < nw) (hsb : GoodSign sb)
    (hb : 0 < band) (hnb : 0 < nb) (hd : nb % band = 0) (hj : j * band < n - band - 1) (A : Elems K) (taus : Nat → K)
    (hA : ∀ x < n, star (A x x) = A x x) {k : Nat} (hk : k = min band (n - band - 1 - j * band)) {st : PanelSt K}
    (hs : panelFrom (⟨pieces nb n ((j + 1) * band), j * band, band, k, sb⟩ : PanelCfg K) nw k 0
      (⟨A, fun i => taus (j * band + i), fun _ _ => 0, 0⟩ : PanelSt K) = st) {taus' : Nat → K}
    (htd : (fun i => if j * band ≤ i ∧ i < j * band + k then st.taus (i - j * band) else taus i) = taus') {F : Nat → Nat → K}
    (f3 : 1 - toM n k (fun x c => storedRefl band st.a x (j * band + c)) * toM k k F *
      (toM n k (fun x c => storedRefl band st.a x (j * band + c))).conjTranspose =
      reflectorProd n (fun x i => storedRefl band st.a x (j * band + i)) (fun i => taus' (j * band + i)) k) {A' : Elems K}
    (t2 : ∀ x y : Fin n, (j + 1) * band ≤ (y : Nat) → (y : Nat) ≤ x →
        A' x y = ((1 - toM n k (fun x c => storedRefl band st.a x (j * band + c)) * toM k k F *
            (toM n k (fun x c => storedRefl band st.a x (j * band + c))).conjTranspose).conjTranspose * hermM n st.a *
          (1 - toM n k (fun x c => storedRefl band st.a x (j * band + c)) * toM k k F *
            (toM n k (fun x c => storedRefl band st.a x (j * band + c))).conjTranspose) : Matrix (Fin n) (Fin n) K) x y)
    (t3 : ∀ x y, ¬ (((j + 1) * band ≤ y ∧ y ≤ x) ∧ x < n) → A' x y = st.a x y) :
      hermM n (bandLow band (j * band + k) A') =
        (reflectorProd n (fun x i => storedRefl band A' x (j * band + i)) (fun i => taus' (j * band + i)) k).conjTranspose *
        hermM n (bandLow band (j * band) A) *
        reflectorProd n (fun x i => storedRefl band A' x (j * band + i)) (fun i => taus' (j * band + i)) k ∧
      (reflectorProd n (fun x i => storedRefl band A' x (j * band + i)) (fun i => taus' (j * band + i)) k).conjTranspose *
        reflectorProd n (fun x i => storedRefl band A' x (j * band + i)) (fun i => taus' (j * band + i)) k = 1 ∧
      (∀ x y, ¬ (j * band ≤ y ∧ y ≤ x ∧ x < n) → A' x y = A x y) ∧
      ∀ i, ¬ (j * band ≤ i ∧ i < j * band + k) → taus' i = taus i := by
  have e0 : (j + 1) * band = j * band + band := by rw [Nat.add_mul, Nat.one_mul]
  have hn : (j + 1) * band < n := by omega
  have hkp : 0 < k := by omega
  have hc := pieces_chain hnb hn
  obtain ⟨p, ps, q1, q2, q3⟩ := pieces_head hb hnb hd hn
  have hgr : PanelCfg.r0 (⟨pieces nb n ((j + 1) * band), j * band, band, k, sb⟩ : PanelCfg K) = (j + 1) * band := by
    unfold PanelCfg.r0
    rw [q1]
    exact q2
  have hok : PanelCfg.OK (⟨pieces nb n ((j + 1) * band), j * band, band, k, sb⟩ : PanelCfg K) n :=
    ⟨by rw [hgr]; exact hc, by rw [q1]; simp, by rw [q1]; show k ≤ p.2; omega, by show k ≤ band; omega⟩
  obtain ⟨p1, p2, p3, p4⟩ := panel_spec hok hw hsb k 0 (by simp) (Nat.zero_le _)
    (⟨A, fun i => taus (j * band + i), fun _ _ => 0, 0⟩ : PanelSt K)
  rw [hs] at p1 p2 p3 p4
  rw [hgr] at p3
  dsimp only at p1 p3 p4
  simp only [Nat.zero_add, Nat.add_zero] at p1 p2 p3 p4
  have htau : ∀ i < k, taus' (j * band + i) = st.taus i := by
    intro i hi
    rw [← htd]
    beta_reduce
    rw [if_pos (by omega), Nat.add_sub_cancel_left]
  rw [f3] at t2
  -- the reflectors are not changed by the trailing update
  have hrefl : reflectorProd n (fun x i => storedRefl band A' x (j * band + i)) (fun i => taus' (j * band + i)) k =
      reflectorProd n (fun x i => storedRefl band st.a x (j * band + i)) (fun i => taus' (j * band + i)) k := by
    refine reflectorProd_congr fun i hi => ⟨fun x hx => ?_, rfl⟩
    unfold storedRefl
    rw [t3 x (j * band + i) (by omega)]
  have hhh : ∀ i x, hhCol (⟨pieces nb n ((j + 1) * band), j * band, band, k, sb⟩ : PanelCfg K) st.a i x =
      storedRefl band st.a x (j * band + i) := by
    intro i x
    unfold hhCol storedRefl
    rw [hgr]
    dsimp only
    rw [e0, show j * band + band + i = j * band + i + band by omega]
  have hpan : reflectorProd n (fun x i => hhCol (⟨pieces nb n ((j + 1) * band), j * band, band, k, sb⟩ : PanelCfg K)
      st.a i x) (fun i => st.taus i) k =
      reflectorProd n (fun x i => storedRefl band st.a x (j * band + i)) (fun i => taus' (j * band + i)) k :=
    reflectorProd_congr fun i hi => ⟨fun x _ => hhh i x, (htau i hi).symm⟩
  rw [hpan] at p1
  have huni : (reflectorProd n (fun x i => storedRefl band st.a x (j * band + i)) (fun i => taus' (j * band + i)) k).conjTranspose *
      reflectorProd n (fun x i => storedRefl band st.a x (j * band + i)) (fun i => taus' (j * band + i)) k = 1 := by
    refine reflectorProd_unitary fun i hi => ?_
    have := p2 i hi
    simp only [hhh] at this
    rw [htau i hi]
    exact this
  -- shape of the transformation
  have hPs : ∀ z y : Fin n, (z : Nat) < (j + 1) * band ∨ (y : Nat) < (j + 1) * band →
      reflectorProd n (fun x i => storedRefl band st.a x (j * band + i)) (fun i => taus' (j * band + i)) k z y =
        (1 : Matrix (Fin n) (Fin n) K) z y := by
    intro z y hzy
    rw [← f3, Matrix.sub_apply]
    have hzero : ∀ x : Fin n, (x : Nat) < (j + 1) * band → ∀ c : Fin k,
        toM n k (fun x c => storedRefl band st.a x (j * band + c)) x c = 0 := by
      intro x hx c
      simp only [toM, storedRefl]
      rw [if_pos (by omega)]
    have : (toM n k (fun x c => storedRefl band st.a x (j * band + c)) * toM k k F *
        (toM n k (fun x c => storedRefl band st.a x (j * band + c))).conjTranspose) z y = 0 := by
      rw [Matrix.mul_apply]
      refine Finset.sum_eq_zero fun c _ => ?_
      rcases hzy with hz | hy
      · rw [Matrix.mul_apply, Finset.sum_eq_zero, zero_mul]
        intro d _
        rw [hzero z hz d, zero_mul]
      · rw [Matrix.conjTranspose_apply, hzero y hy c, star_zero, mul_zero]
    rw [this, sub_zero]
  refine ⟨?_, ?_, ?_, ?_⟩
  · rw [hrefl]
    generalize reflectorProd n (fun x i => storedRefl band st.a x (j * band + i)) (fun i => taus' (j * band + i)) k = P at *
    have hB0 : (hermM n (bandLow band (j * band) A)).conjTranspose = hermM n (bandLow band (j * band) A) :=
      hermM_conj fun x hx => by rw [bandLow_diag]; exact hA x hx
    refine hermM_ext (conj_conj hB0) ?_
    intro x y hyx
    by_cases hy : (j + 1) * band ≤ (y : Nat)
    · -- trailing part
      have e1 : bandLow band (j * band + k) A' x y = A' x y := if_neg (by omega)
      rw [e1, t2 x y hy hyx]
      have hmm : ∀ z w : Fin n, (j + 1) * band ≤ (z : Nat) → (j + 1) * band ≤ (w : Nat) →
          hermM n st.a z w = hermM n (bandLow band (j * band) A) z w := by
        intro z w hz hw
        simp only [hermM, lowE, bandLow]
        rw [if_neg (show ¬ ((w : Nat) < j * band ∧ (w : Nat) + band < z) by omega),
          if_neg (show ¬ ((z : Nat) < j * band ∧ (z : Nat) + band < w) by omega), p3 z w (by omega), p3 w z (by omega)]
      refine conj_tail_right hPs hy fun w hw => conj_tail hPs (by omega) fun z hz => hmm z w hz hw
    · rw [head_right hPs (by omega)]
      have hA'y : ∀ x : Nat, A' x y = st.a x y := fun x => t3 x y (by omega)
      by_cases hx : (x : Nat) < (j + 1) * band
      · rw [head_left hPs hx]
        simp only [hermM, lowE]
        rw [if_pos hyx]
        unfold bandLow
        rw [hA'y, p3 x y (by omega)]
        by_cases h1 : (y : Nat) < j * band ∧ (y : Nat) + band < x
        · rw [if_pos h1, if_pos (by omega)]
        · rw [if_neg h1, if_neg (by omega)]
      · by_cases hyc : (y : Nat) < j * band
        · have h1 : bandLow band (j * band + k) A' x y = 0 := if_pos (by omega)
          rw [h1, conj_tail (N := 0) hPs (by omega), Matrix.mul_zero]
          · rfl
          · intro z hz
            simp only [hermM, lowE, bandLow]
            rw [if_pos (by omega), if_pos (by omega)]
            rfl
        · have h1 := p1 x y (by omega) (by omega)
          have h2 : bandLow band (j * band + k) A' x y =
              clean (⟨pieces nb n ((j + 1) * band), j * band, band, k, sb⟩ : PanelCfg K) k st.a x y := by
            unfold bandLow clean
            rw [hgr, hA'y]
            dsimp only
            by_cases h3 : (y : Nat) < j * band + k ∧ (y : Nat) + band < x
            · rw [if_pos h3, if_pos (by omega)]
            · rw [if_neg h3, if_neg (by omega)]
          rw [h2, h1]
          refine conj_tail hPs (by omega) fun z hz => ?_
          simp only [hermM, lowE, bandLow, toM, clean]
          rw [if_neg (by omega), if_pos (by omega), if_neg (by omega)]
  · rw [hrefl]
    exact huni
  · intro x y hxy
    rw [t3 x y (by omega), p3 x y (by omega)]
  · intro i hi
    rw [← htd]
    exact if_neg hi

theorem redBandStep_spec {E : RedEnv K} {n nb band j : Nat} (hT : 0 < E.availT) (hP : 0 < E.availP) (hsb : GoodSign E.signbit)
    (hb : 0 < band) (hnb : 0 < nb) (hd : nb % band = 0) (hj : j * band < n - band - 1) (A : Elems K) (taus : Nat → K)
    (hA : ∀ x < n, star (A x x) = A x x) {k : Nat} (hk : k = min band (n - band - 1 - j * band)) :
    ∃ A' taus', redBandStep E n nb band (A, taus) j = some (A', taus') ∧
      hermM n (bandLow band (j * band + k) A') =
        (reflectorProd n (fun x i => storedRefl band A' x (j * band + i)) (fun i => taus' (j * band + i)) k).conjTranspose *
        hermM n (bandLow band (j * band) A) *
        reflectorProd n (fun x i => storedRefl band A' x (j * band + i)) (fun i => taus' (j * band + i)) k ∧
      (reflectorProd n (fun x i => storedRefl band A' x (j * band + i)) (fun i => taus' (j * band + i)) k).conjTranspose *
        reflectorProd n (fun x i => storedRefl band A' x (j * band + i)) (fun i => taus' (j * band + i)) k = 1 ∧
      (∀ x y, ¬ (j * band ≤ y ∧ y ≤ x ∧ x < n) → A' x y = A x y) ∧
      ∀ i, ¬ (j * band ≤ i ∧ i < j * band + k) → taus' i = taus i := by
  have e0 : (j + 1) * band = j * band + band := by rw [Nat.add_mul, Nat.one_mul]
  have hn : (j + 1) * band < n := by omega
  have hkp : 0 < k := by omega
  have hc := pieces_chain hnb hn
  obtain ⟨p, ps, q1, q2, q3⟩ := pieces_head hb hnb hd hn
  have hgr : PanelCfg.r0 (⟨pieces nb n ((j + 1) * band), j * band, band, k, E.signbit⟩ : PanelCfg K) = (j + 1) * band := by
    unfold PanelCfg.r0
    rw [q1]
    exact q2
  have hok : PanelCfg.OK (⟨pieces nb n ((j + 1) * band), j * band, band, k, E.signbit⟩ : PanelCfg K) n :=
    ⟨by rw [hgr]; exact hc, by rw [q1]; simp, by rw [q1]; show k ≤ p.2; omega, by show k ≤ band; omega⟩
  have hw := panelWorkers_pos (n := (pieces nb n ((j + 1) * band)).length) hP
  unfold redBandStep
  dsimp only
  rw [← hk]
  simp only [Option.bind_eq_bind]
  unfold computePanelReflectors
  rw [if_pos hok.head, Option.bind_some]
  dsimp only
  obtain ⟨p1, p2, p3, p4⟩ := panel_spec hok hw hsb k 0 (by simp) (Nat.zero_le _)
    (⟨A, fun i => taus (j * band + i), fun _ _ => 0, 0⟩ : PanelSt K)
  generalize hs : panelFrom (⟨pieces nb n ((j + 1) * band), j * band, band, k, E.signbit⟩ : PanelCfg K) _ k 0
    (⟨A, fun i => taus (j * band + i), fun _ _ => 0, 0⟩ : PanelSt K) = st at p1 p2 p3 p4 ⊢
  rw [hgr] at p3
  dsimp only at p1 p3 p4
  simp only [Nat.zero_add, Nat.add_zero] at p1 p2 p3 p4
  generalize htd : (fun i => if j * band ≤ i ∧ i < j * band + k then st.taus (i - j * band) else taus i) = taus'
  obtain ⟨V, v1, v2⟩ := setupPanelV_eq hb hnb hd hn hk st.a (E.junk (4 * j))
  rw [v1, Option.bind_some]
  obtain ⟨F, f1, f2, f3⟩ := tfactor_win (avail := E.availT) (k := k) (n := n) (a := (j + 1) * band) hT hkp
    (V := fun x c => storedRefl band st.a x (j * band + c)) (g := fun p => p) (t := fun p => getB V p.1 0 p.2 k)
    (ps := pieces nb n ((j + 1) * band)) (by rw [q1]; simp) (by simpa using hc) (by
      intro p hp
      have hm := hc.mem hp
      exact (getB_win V p.1 0 p.2 k).congr fun x hx1 hx2 y _ hy => v2 x (by omega) (by omega) y (by omega))
    (by
      intro x hx c _
      simp only [storedRefl]
      rw [if_pos (by omega)])
    (taus := ⟨k, 1, fun r _ => taus' (j * band + r)⟩)
    (t0 := getB (E.junk (4 * j + 1)) 0 0 k k)
    (ws := (List.range (E.availT - 1)).map fun w => getB (E.junk (4 * j + 1)) (w * band) 0 band k)
    ⟨rfl, rfl⟩ rfl (by simp) (by
      intro t ht
      obtain ⟨w, _, rfl⟩ := List.mem_map.1 ht
      simp only [getB]
      omega)
  have hred : (fun (r : Nat) (_ : Nat) => if j * band ≤ j * band + r ∧ j * band + r < j * band + k then
      st.taus (j * band + r - j * band) else taus (j * band + r)) = fun r _ => taus' (j * band + r) := by rw [← htd]
  rw [hred, f1, Option.bind_some, if_pos hn]
  have hst : ∀ x, st.a x x = A x x := fun x => p3 x x (by omega)
  obtain ⟨A', t1, t2, t3⟩ := trail_spec (nb := nb) (j := j) (k := k) hb hnb hn f2
    (V' := fun x c => storedRefl band st.a x (j * band + c)) (by
      intro x hx c _
      simp only [storedRefl]
      rw [if_pos (by omega)]) V (E.junk (4 * j + 2)) (E.junk (4 * j + 3)) st.a v2
    (by intro x hx; rw [hst]; exact hA x hx)
  refine ⟨A', taus', ?_, redBand_core hw hsb hb hnb hd hj A taus hA hk hs htd f3 t2 t3⟩
  simp only [Option.bind_eq_bind] at t1
  have := congrArg (fun o : Option (Elems K) => o.bind fun A => some (A, taus')) t1
  simp only [Option.bind_assoc, Option.bind_some] at this
  exact this

end DLAF
