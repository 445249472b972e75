import Verif.Lemmas.DistRedStep
import Verif.Lemmas.DistBtProps
import Verif.Lemmas.RedBandLoop
/- Distributed reduction to band: the loop. -/
namespace DLAF
open scoped Classical
namespace DistRed
variable {K : Type*} [RCLike K] {P : Params2} {n nb band j : Nat} {dt : Coord2 → Dist1}

/-- The trailing update as a two-sided product. -/
theorem trail_closed {r0 k : Nat} (hn : r0 < n) {F : Nat → Nat → K} {V : Elems K} (hz : ∀ x < r0, ∀ c < k, V x c = 0) {A : Elems K}
    (hd : ∀ x < n, star (A x x) = A x x) {W X : Elems K} (hWd : eW k V F = W) (hXd : eX r0 n A W = X) (x y : Fin n) (hy : r0 ≤ (y : Nat)) (hyx : (y : Nat) ≤ x) :
    her2kE k V (eX' k V (eW2 r0 n W X) X) A x y =
      ((1 - toM n k V * toM k k F * (toM n k V).conjTranspose).conjTranspose * hermM n A *
          (1 - toM n k V * toM k k F * (toM n k V).conjTranspose) : Matrix (Fin n) (Fin n) K) x y := by
  rw [← two_sided _ _ _ (hermM_conj hd)]
  unfold her2kE
  have hWe : ∀ z : Fin n, r0 ≤ (z : Nat) → ∀ c : Fin k, W z c = (toM n k V * toM k k F) z c := by
    intro z hz1 c
    rw [← hWd]
    unfold eW
    rw [Matrix.mul_apply, Finset.sum_range]
    rfl
  have hW0 : ∀ z : Fin n, (z : Nat) < r0 → ∀ c : Fin k, (toM n k V * toM k k F) z c = 0 := by
    intro z hz1 c
    rw [Matrix.mul_apply]
    refine Finset.sum_eq_zero fun l _ => ?_
    have : toM n k V z l = 0 := hz z hz1 l l.2
    rw [this, zero_mul]
  have hsum : ∀ (f : Nat → K) (g : Fin n → K), (∀ z : Fin n, r0 ≤ (z : Nat) → f z = g z) →
      (∀ z : Fin n, (z : Nat) < r0 → g z = 0) → ∑ z ∈ Finset.Ico r0 n, f z = ∑ z, g z := by
    intro f g h1 h2
    have : ∑ z ∈ Finset.range n, (if r0 ≤ z then f z else 0) = ∑ z : Fin n, g z := by
      rw [Finset.sum_range]
      refine Finset.sum_congr rfl fun z _ => ?_
      by_cases hz : r0 ≤ (z : Nat)
      · rw [if_pos hz, h1 z hz]
      · rw [if_neg hz, h2 z (by omega)]
    rw [← this, Finset.range_eq_Ico, ← Finset.sum_Ico_consecutive _ (Nat.zero_le r0) hn.le,
      Finset.sum_eq_zero (s := Finset.Ico 0 r0), zero_add]
    · refine Finset.sum_congr rfl fun z hz => ?_
      rw [Finset.mem_Ico] at hz
      rw [if_pos hz.1]
    · intro z hz
      rw [Finset.mem_Ico] at hz
      rw [if_neg (by omega)]
  have hXe : ∀ z : Fin n, r0 ≤ (z : Nat) → ∀ c : Fin k, X z c = (hermM n A * (toM n k V * toM k k F)) z c := by
    intro z hz1 c
    rw [← hXd]
    unfold eX
    rw [Matrix.mul_apply]
    refine hsum _ _ (fun w hw => ?_) (fun w hw => ?_)
    · rw [hWe w hw c]; rfl
    · rw [hW0 w hw c, mul_zero]
  have hW2 : ∀ l c : Fin k, eW2 r0 n W X l c =
      ((toM n k V * toM k k F).conjTranspose * (hermM n A * (toM n k V * toM k k F))) l c := by
    intro l c
    unfold eW2
    rw [Matrix.mul_apply]
    refine hsum _ _ (fun w hw => ?_) (fun w hw => ?_)
    · rw [hWe w hw, hXe w hw]; rfl
    · rw [Matrix.conjTranspose_apply, hW0 w hw, star_zero, zero_mul]
  have hXf : ∀ z : Fin n, r0 ≤ (z : Nat) → ∀ c : Fin k, eX' k V (eW2 r0 n W X) X z c =
      (hermM n A * (toM n k V * toM k k F) - (1 / 2 : K) • (toM n k V *
        ((toM n k V * toM k k F).conjTranspose * (hermM n A * (toM n k V * toM k k F))))) z c := by
    intro z hz1 c
    unfold eX'
    rw [Matrix.sub_apply, Matrix.smul_apply, ← hXe z hz1 c, Matrix.mul_apply, smul_eq_mul, Finset.sum_range]
    have : ∀ l : Fin k, V z l * eW2 r0 n W X l c = toM n k V z l *
        ((toM n k V * toM k k F).conjTranspose * (hermM n A * (toM n k V * toM k k F))) l c := by
      intro l
      rw [hW2 l c]
      rfl
    simp only [this]
    ring
  generalize hermM n A * (toM n k V * toM k k F) - (1 / 2 : K) • (toM n k V *
        ((toM n k V * toM k k F).conjTranspose * (hermM n A * (toM n k V * toM k k F)))) = XM at *
  have hA : hermM n A x y = A x y := if_pos hyx
  rw [Matrix.sub_apply, Matrix.sub_apply, hA, Matrix.mul_apply, Matrix.mul_apply, sub_sub, ← Finset.sum_add_distrib,
    Finset.sum_range]
  congr 1
  refine Finset.sum_congr rfl fun l _ => ?_
  beta_reduce
  rw [hXf x (by omega) l, hXf y hy l, Matrix.conjTranspose_apply, Matrix.conjTranspose_apply]
  rfl

/-- One iteration. -/
theorem Geo.iter_runs (h : Geo P n nb band j) (hdt : TauInj P n nb band dt) {E : Coord2 → RedEnv K} (hE : ∀ r, 0 < (E r).availP) (hET : ∀ r, 0 < (E r).availT)
    {sb : K → Bool} (hgs : GoodSign sb) (hsb : ∀ r, (E r).signbit = sb) {A : Elems K} {T : Nat → K} {g : Glob (RbSt K) (Blk K)}
    (hcl : Clean P.ranks g) (hs : ∀ r ∈ P.ranks, PS P n nb band dt r A T (g.st r)) (hA : ∀ x < n, star (A x x) = A x x) :
    ∃ g' A' T', Runs (fun r => if r ∈ P.ranks then step n nb band (E r) (P.on r) (dt r) j else []) g g' ∧ Clean P.ranks g' ∧
      (∀ r ∈ P.ranks, PS P n nb band dt r A' T' (g'.st r)) ∧
      hermM n (bandLow band (j * band + nr n band j) A') =
        (reflectorProd n (fun x i => storedRefl band A' x (j * band + i)) (fun i => T' (j * band + i)) (nr n band j)).conjTranspose *
        hermM n (bandLow band (j * band) A) *
        reflectorProd n (fun x i => storedRefl band A' x (j * band + i)) (fun i => T' (j * band + i)) (nr n band j) ∧
      (reflectorProd n (fun x i => storedRefl band A' x (j * band + i)) (fun i => T' (j * band + i)) (nr n band j)).conjTranspose *
        reflectorProd n (fun x i => storedRefl band A' x (j * band + i)) (fun i => T' (j * band + i)) (nr n band j) = 1 ∧
      (∀ x y, ¬ (j * band ≤ y ∧ y ≤ x ∧ x < n) → A' x y = A x y) ∧
      ∀ i, ¬ (j * band ≤ i ∧ i < j * band + nr n band j) → T' i = T i := by
  obtain ⟨g', F, r1, c1, q1, hF, hmat⟩ := h.step_runs hdt hE hET hgs hsb hcl hs rfl rfl rfl
  obtain ⟨k1, k2⟩ := h.cfg_ok (K := K) sb
  obtain ⟨-, -, p3, -⟩ := panel_spec (nw := 1) k2 (by omega) hgs (nr n band j) 0 rfl (Nat.zero_le _) ⟨A, fun i => T (j * band + i), fun _ _ => 0, 0⟩
  have e0 := h.e0
  have hd' : ∀ x < n, star ((DLAF.panelFrom (cfg n nb band j sb) 1 (nr n band j) 0 ⟨A, fun i => T (j * band + i), fun _ _ => 0, 0⟩).a x x) =
      (DLAF.panelFrom (cfg n nb band j sb) 1 (nr n band j) 0 ⟨A, fun i => T (j * band + i), fun _ _ => 0, 0⟩).a x x := by
    intro x hx
    rw [p3 x x ?_]
    · exact hA x hx
    · rw [k1]
      show ¬ (((j + 1) * band + 0 ≤ x ∧ x < n) ∧ j * band + 0 ≤ x ∧ x < j * band + band)
      omega
  refine ⟨g', _, _, r1, c1, q1, redBand_core (nw := 1) (by omega) hgs h.hb h.nbp h.hd h.hj A T hA rfl rfl rfl hmat ?_ ?_⟩
  · intro x y hy hyx
    unfold updA
    rw [if_pos ⟨⟨hy, hyx⟩, x.2⟩]
    refine trail_closed h.r0n ?_ hd' rfl rfl x y hy hyx
    intro z hz c hc
    have : nr n band j = min band (n - band - 1 - j * band) := rfl
    show storedRefl band _ z (j * band + c) = 0
    unfold storedRefl
    rw [if_pos (by omega)]
  · intro x y hxy
    exact if_neg hxy

/-- The distribution of the taus. -/
theorem tauInj (a2 : Ax P.col n nb) : TauInj P n nb band fun r => ((tausParams P.col band).onRank r.col).dist := by
  intro r hr k k' hk hk' ho ho' he
  have ht : Ax (tausParams P.col band) (n - band - 1) nb := a2.taus
  have b2 := Params2.mem_ranks.1 hr .Col
  have a := (ht.onRank b2.1 b2.2).plain
  have g1 : ((tausParams P.col band).onRank r.col).gl (((tausParams P.col band).onRank r.col).lc k) = k := a.gl_lc (by omega) ho
  have g2 : ((tausParams P.col band).onRank r.col).gl (((tausParams P.col band).onRank r.col).lc k') = k' := a.gl_lc (by omega) ho'
  have he' : ((tausParams P.col band).onRank r.col).lc k = ((tausParams P.col band).onRank r.col).lc k' := he
  rw [he', g2] at g1
  omega

section
variable (a1 : Ax P.row n nb) (a2 : Ax P.col n nb) (hb : 2 ≤ band) (hd : nb % band = 0)
include a1 a2 hb hd

theorem loop_runs (hdt : TauInj P n nb band dt) {E : Coord2 → RedEnv K} (hE : ∀ r, 0 < (E r).availP) (hET : ∀ r, 0 < (E r).availT)
    {sb : K → Bool} (hgs : GoodSign sb) (hsb : ∀ r, (E r).signbit = sb) {A : Elems K} {T : Nat → K} {g : Glob (RbSt K) (Blk K)}
    (hcl : Clean P.ranks g) (hs : ∀ r ∈ P.ranks, PS P n nb band dt r A T (g.st r)) (hA : ∀ x < n, star (A x x) = A x x) (h0 : n - band - 1 ≠ 0) :
    ∀ m, m ≤ (n - band - 1 - 1) / band + 1 → ∃ g' A' T',
      Runs (fun r => if r ∈ P.ranks then (upto 0 m).flatMap fun j => step n nb band (E r) (P.on r) (dt r) j else []) g g' ∧ Clean P.ranks g' ∧
      (∀ r ∈ P.ranks, PS P n nb band dt r A' T' (g'.st r)) ∧
      (reflectorProd n (storedRefl band A') T' (min (m * band) (n - band - 1))).conjTranspose *
        reflectorProd n (storedRefl band A') T' (min (m * band) (n - band - 1)) = 1 ∧
      hermM n (bandLow band (min (m * band) (n - band - 1)) A') =
        (reflectorProd n (storedRefl band A') T' (min (m * band) (n - band - 1))).conjTranspose * hermM n A *
          reflectorProd n (storedRefl band A') T' (min (m * band) (n - band - 1)) ∧
      (∀ x y, ¬ (y ≤ x ∧ x < n) → A' x y = A x y) ∧ (∀ i, n - band - 1 ≤ i → T' i = T i) := by
  have hzero : hermM n (bandLow band 0 A) = hermM n A := by
    ext x y
    simp only [hermM, lowE, bandLow, Nat.not_lt_zero, false_and, if_false]
  have hcol : ∀ m, m < (n - band - 1 - 1) / band + 1 → m * band < n - band - 1 := by
    intro m hm
    have := (Nat.le_div_iff_mul_le (x := m) (y := n - band - 1 - 1) (show 0 < band by omega)).1 (by omega)
    omega
  intro m
  induction m with
  | zero =>
    intro _
    refine ⟨g, A, T, .nil (fun r => by rw [upto_self]; simp) g, hcl, hs, ?_, ?_, fun _ _ _ => rfl, fun _ _ => rfl⟩
    · simp [reflectorProd]
    · rw [Nat.zero_mul, Nat.zero_min, hzero]; simp [reflectorProd]
  | succ m ih =>
    intro hm
    obtain ⟨g1, A1, t1, r1, c1, s1, i2, i3, i4, i5⟩ := ih (by omega)
    have hc := hcol m (by omega)
    rw [show min (m * band) (n - band - 1) = m * band by omega] at i2 i3
    have hA1 : ∀ x < n, star (A1 x x) = A1 x x := by
      intro x hx
      have h1 := congrFun (congrFun i3 ⟨x, hx⟩) ⟨x, hx⟩
      have h2 := conj_conj (P := reflectorProd n (storedRefl band A1) t1 (m * band)) (hermM_conj hA)
      rw [← i3] at h2
      have h3 := congrFun (congrFun h2 ⟨x, hx⟩) ⟨x, hx⟩
      rw [Matrix.conjTranspose_apply] at h3
      simp only [hermM, lowE, bandLow_diag, Nat.le_refl, if_true] at h3
      exact h3
    obtain ⟨g2, A2, t2, r2, c2, s2, j2, j3, j4, j5⟩ := (⟨a1, a2, by omega, hd, hc⟩ : Geo P n nb band m).iter_runs hdt hE hET hgs hsb c1 s1 hA1
    have hnr : nr n band m = min band (n - band - 1 - m * band) := rfl
    have e1 : min ((m + 1) * band) (n - band - 1) = m * band + nr n band m := by
      rw [Nat.add_mul, Nat.one_mul]; omega
    have e2 : reflectorProd n (storedRefl band A2) t2 (m * band + nr n band m) =
        reflectorProd n (storedRefl band A1) t1 (m * band) *
        reflectorProd n (fun x i => storedRefl band A2 x (m * band + i)) (fun i => t2 (m * band + i)) (nr n band m) := by
      rw [reflectorProd_add]
      congr 1
      refine reflectorProd_congr fun i hi => ⟨fun x _ => ?_, j5 i (by omega)⟩
      unfold storedRefl
      rw [j4 x i (by omega)]
    refine ⟨g2, A2, t2, (Runs.if_append r1 r2).congr fun r => ?_, c2, s2, ?_, ?_, ?_, ?_⟩
    · by_cases hr : r ∈ P.ranks
      · rw [if_pos hr, if_pos hr, upto_succ (Nat.zero_le m), List.flatMap_append]
        simp
      · rw [if_neg hr, if_neg hr]
    · rw [e1, e2, Matrix.conjTranspose_mul, Matrix.mul_assoc,
        ← Matrix.mul_assoc (reflectorProd n (storedRefl band A1) t1 (m * band)).conjTranspose, i2, Matrix.one_mul, j3]
    · rw [e1, e2, j2, i3, Matrix.conjTranspose_mul]
      simp only [Matrix.mul_assoc]
    · intro x y hxy
      rw [j4 x y (by omega), i4 x y hxy]
    · intro i hi
      rw [j5 i (by omega), i5 i hi]

theorem program_runs {pipelines : Nat} (hpl : 2 ≤ pipelines) (hdt : TauInj P n nb band dt) {E : Coord2 → RedEnv K} (hE : ∀ r, 0 < (E r).availP)
    (hET : ∀ r, 0 < (E r).availT) {sb : K → Bool} (hgs : GoodSign sb) (hsb : ∀ r, (E r).signbit = sb) {A : Elems K} {T : Nat → K} {g : Glob (RbSt K) (Blk K)}
    (hcl : Clean P.ranks g) (hs : ∀ r ∈ P.ranks, PS P n nb band dt r A T (g.st r)) (hA : ∀ x < n, star (A x x) = A x x) :
    ∃ g' A' T', Runs (fun r => if r ∈ P.ranks then program pipelines n nb band (E r) (P.on r) (dt r) else []) g g' ∧
      (∀ r ∈ P.ranks, PS P n nb band dt r A' T' (g'.st r)) ∧
      (reflectorProd n (storedRefl band A') T' (n - band - 1)).conjTranspose * reflectorProd n (storedRefl band A') T' (n - band - 1) = 1 ∧
      hermM n (bandLow band n A') =
        (reflectorProd n (storedRefl band A') T' (n - band - 1)).conjTranspose * hermM n A * reflectorProd n (storedRefl band A') T' (n - band - 1) ∧
      (∀ x y, ¬ (y ≤ x ∧ x < n) → A' x y = A x y) ∧ (∀ i, n - band - 1 ≤ i → T' i = T i) := by
  have hband : ∀ (m : Nat) (B : Elems K), n - band - 1 ≤ m → m ≤ n →
      hermM n (bandLow band m B) = hermM n (bandLow band n B) := by
    intro m B hm1 hm2
    have : ∀ x y : Fin n, bandLow band m B x y = bandLow band n B x y := by
      intro x y
      unfold bandLow
      by_cases h : (y : Nat) < m ∧ (y : Nat) + band < x
      · rw [if_pos h, if_pos (by omega)]
      · rw [if_neg h, if_neg (by omega)]
    ext x y
    simp only [hermM, lowE, this]
  obtain ⟨g0, r0, c0, q0, -⟩ := Runs.loc_on P.ranks_nodup hcl (fun _ s => if 2 ≤ band ∧ 2 ≤ pipelines ∧ nb % band = 0 then some s else none)
    (fun r s' => s' = g.st r) (fun r _ => ⟨_, if_pos ⟨hb, hpl, hd⟩, rfl⟩)
  have s0 : ∀ r ∈ P.ranks, PS P n nb band dt r A T (g0.st r) := fun r hr => by rw [q0 r hr]; exact hs r hr
  by_cases h0 : n - band - 1 = 0
  · refine ⟨g0, A, T, r0.congr fun r => ?_, s0, ?_, ?_, fun _ _ _ => rfl, fun _ _ => rfl⟩
    · unfold program
      rw [if_pos h0, List.append_nil]
    · rw [h0]; simp [reflectorProd]
    · have hzero : hermM n (bandLow band 0 A) = hermM n A := by
        ext x y
        simp only [hermM, lowE, bandLow, Nat.not_lt_zero, false_and, if_false]
      rw [h0, ← hband 0 A (by omega) (by omega), hzero]
      simp [reflectorProd]
  obtain ⟨g1, A', T', r1, c1, s1, k2, k3, k4, k5⟩ := loop_runs a1 a2 hb hd hdt hE hET hgs hsb c0 s0 hA h0 _ (Nat.le_refl _)
  have hfin : min (((n - band - 1 - 1) / band + 1) * band) (n - band - 1) = n - band - 1 := by
    have h1 := Nat.div_add_mod (n - band - 1 - 1) band
    have h2 := Nat.mod_lt (n - band - 1 - 1) (show 0 < band by omega)
    rw [Nat.add_mul, Nat.one_mul, Nat.mul_comm]
    omega
  rw [hfin] at k2 k3
  refine ⟨g1, A', T', (Runs.if_append r0 r1).congr fun r => ?_, s1, k2, ?_, k4, k5⟩
  · unfold program
    rw [if_neg h0]
  · rw [← hband (n - band - 1) A' (Nat.le_refl _) (by omega), k3]

end
end DistRed
end DLAF
