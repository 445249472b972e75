import Verif.Lemmas.Inverse
import Verif.Model.GenToStd
/- The transformation to standard form, lower. -/
namespace DLAF
variable {K : Type*} [Field K] [StarRing K]

/-- `hegst` finds the `C` with `T C Tᴴ = H`. -/
theorem blk_hegst_lower {lp : Lapack K} {pos : K → Prop} (hl : LapackSpec lp pos) {sz : Nat → Nat} {k : Nat} {a b : Blk K}
    {H B C : Nat → Nat → K} (ha : IsBlk sz sz k k a H) (hb : IsBlk sz sz k k b B)
    (hn : ∀ x, inTile sz k x → B x x ≠ 0) (hC : ∀ x y, star (C y x) = C x y)
    (hH : ∀ x y, inTile sz k x → inTile sz k y → y ≤ x → H x y =
      tsum sz k fun p => tsum sz k fun q => triE .Lower .NonUnit B x p * C p q * star (triE .Lower .NonUnit B y q)) :
    ∃ a', lp.tileHegst .Lower a b = some a' ∧ IsBlk sz sz k k a' fun x y => if y ≤ x then C x y else H x y := by
  have hsq : a.rows = a.cols := ha.rows.trans ha.cols.symm
  have hns : Nonsing .NonUnit b := blk_nonsing hb (Or.inr hn)
  have hT := blk_tri .Lower .NonUnit hb
  obtain ⟨n, hnn⟩ : ∃ n, n = sz k := ⟨_, rfl⟩
  obtain ⟨s, hs⟩ : ∃ s, s = tileStart sz k := ⟨_, rfl⟩
  obtain ⟨S, hS⟩ : ∃ S : Nat → Nat → K, S = fun x y =>
      tsum sz k fun p => tsum sz k fun q => triE .Lower .NonUnit B x p * C p q * star (triE .Lower .NonUnit B y q) := ⟨_, rfl⟩
  have hSs : ∀ x y, star (S y x) = S x y := by
    intro x y
    rw [hS]
    simp only [tsum, star_sum]
    rw [Finset.sum_comm]
    refine Finset.sum_congr rfl fun p _ => Finset.sum_congr rfl fun q _ => ?_
    rw [star_mul', star_mul', star_star, hC]
    ring
  have hHS : ∀ x y, inTile sz k x → inTile sz k y → y ≤ x → H x y = S x y := by
    intro x y hx hy hxy
    rw [hS]
    exact hH x y hx hy hxy
  obtain ⟨f, h1, h2, _, h4⟩ := hl.hegst .Lower a b hsq hns (by rw [ha.rows, hb.rows]) (by
    intro i hi
    rw [ha.rows] at hi
    rw [ha.e i hi i hi, hHS _ _ (inTile_off hi) (inTile_off hi) (le_refl _), hSs])
  rw [ha.rows, ← hnn] at h2 h4
  simp only at h2
  obtain ⟨T, hTd⟩ : ∃ T, T = toM n n (b.tri .Lower .NonUnit).e := ⟨_, rfl⟩
  have hdet : T.det ≠ 0 := by
    have := tri_det (u := .Lower) hns
    rw [hb.rows, ← hnn] at this
    rw [hTd]; exact this
  have hTT' : T⁻¹ * T = 1 := Matrix.nonsing_inv_mul _ (isUnit_iff_ne_zero.2 hdet)
  have hct' : T.conjTranspose * T⁻¹.conjTranspose = 1 := by
    rw [← Matrix.conjTranspose_mul, hTT', Matrix.conjTranspose_one]
  have hstar : toM n n (fun q c => star ((b.tri .Lower .NonUnit).e c q)) = T.conjTranspose := by rw [hTd]; rfl
  have e1 : T * toM n n ((⟨n, n, f⟩ : Blk K).herm .Lower).e * T.conjTranspose =
      T * toM n n (fun r c => C (s + r) (s + c)) * T.conjTranspose := by
    ext r c
    rw [← hstar]
    rw [hTd, ← sum3_eq, ← sum3_eq, ← h2 r r.2 c c.2]
    have hSv : ∀ r < n, ∀ c < n, ∑ p ∈ Finset.range n, ∑ q ∈ Finset.range n, (b.tri .Lower .NonUnit).e r p * C (s + p) (s + q) *
        star ((b.tri .Lower .NonUnit).e c q) = S (s + r) (s + c) := by
      intro r hr c hc
      rw [hnn] at hr hc
      rw [hS, hs, hnn]
      refine Finset.sum_congr rfl fun p hp => Finset.sum_congr rfl fun q hq => ?_
      rw [Finset.mem_range] at hp hq
      rw [hT.e r hr p hp, hT.e c hc q hq]
    rw [hSv r r.2 c c.2]
    have hr := r.2
    have hc := c.2
    generalize (r : Nat) = r' at hr ⊢
    generalize (c : Nat) = c' at hc ⊢
    rw [hnn] at hr hc
    simp only [Blk.herm, decide_eq_true_eq]
    by_cases hcr : c' ≤ r'
    · rw [if_pos hcr, ha.e r' hr c' hc, hHS _ _ (inTile_off hr) (inTile_off hc) (by omega), hs]
    · rw [if_neg hcr, ha.e c' hc r' hr, hHS _ _ (inTile_off hc) (inTile_off hr) (by omega), hSs, hs]
  have e2 : toM n n ((⟨n, n, f⟩ : Blk K).herm .Lower).e = toM n n (fun r c => C (s + r) (s + c)) := by
    have := congrArg (fun M => T⁻¹ * M * T⁻¹.conjTranspose) e1
    simpa only [Matrix.mul_assoc, hct', Matrix.mul_one, ← Matrix.mul_assoc T⁻¹ T, hTT', Matrix.one_mul] using this
  refine ⟨⟨a.rows, a.cols, f⟩, ?_, ha.rows, ha.cols, ?_⟩
  · unfold Lapack.tileHegst
    rw [if_pos ⟨hsq, hns.1, by rw [ha.rows, hb.rows]⟩, h1]
    rfl
  · intro r hr c hc
    simp only [Nat.add_le_add_iff_left]
    rw [← hnn] at hr hc
    by_cases hcr : c ≤ r
    · rw [if_pos hcr]
      have := congrFun (congrFun e2 ⟨r, hr⟩) ⟨c, hc⟩
      simp only [toM, Blk.herm, decide_eq_true_eq] at this
      rw [if_pos hcr] at this
      rw [this, hs]
    · rw [if_neg hcr, h4 r hr c hc (by simp only [inTri, and_true]; omega)]
      rw [hnn] at hr hc
      exact ha.e r hr c hc

omit [StarRing K] in
theorem tsum_add (sz : Nat → Nat) (k : Nat) (f g : Nat → K) : tsum sz k (fun z => f z + g z) = tsum sz k f + tsum sz k g :=
  Finset.sum_add_distrib

omit [StarRing K] in
theorem tsum_mul_left (sz : Nat → Nat) (k : Nat) (c : K) (f : Nat → K) : tsum sz k (fun z => c * f z) = c * tsum sz k f :=
  (Finset.mul_sum _ _ _).symm

omit [StarRing K] in
theorem tsum_mul_right (sz : Nat → Nat) (k : Nat) (c : K) (f : Nat → K) : tsum sz k (fun z => f z * c) = tsum sz k f * c :=
  (Finset.sum_mul _ _ _).symm

/-- A loop from `a` to `n` with an invariant. -/
theorem forM'_inv_from {S : Type*} {b : S → Nat → Option S} {a n : Nat} (han : a ≤ n) (I : Nat → S → Prop)
    (hstep : ∀ k, a ≤ k → k < n → ∀ s, I k s → ∃ s', b s k = some s' ∧ I (k + 1) s') {s : S} (h0 : I a s) :
    ∃ s', forM' (upto a n) s b = some s' ∧ I n s' := by
  have key : ∀ j, a + j ≤ n → ∃ s', forM' (upto a (a + j)) s b = some s' ∧ I (a + j) s' := by
    intro j
    induction j with
    | zero => intro _; exact ⟨s, by rw [Nat.add_zero, upto_self]; rfl, h0⟩
    | succ j ih =>
      intro hk
      obtain ⟨s', h1, h2⟩ := ih (by omega)
      obtain ⟨s'', h3, h4⟩ := hstep (a + j) (by omega) (by omega) s' h2
      refine ⟨s'', ?_, h4⟩
      rw [← Nat.add_assoc, upto_succ (by omega), forM'_append, h1, Option.bind_some, forM'_cons, h3]
      rfl
  have := key (n - a) (by omega)
  rwa [show a + (n - a) = n by omega] at this

/-- The part of `L C Lᴴ` that comes from the indices `s ≤ p, q < N`. -/
def gsTrail (N : Nat) (B C : Nat → Nat → K) (s x y : Nat) : K :=
  ∑ p ∈ Finset.Ico s N, ∑ q ∈ Finset.Ico s N, triE .Lower .NonUnit B x p * C p q * star (triE .Lower .NonUnit B y q)

/-- The part of `L C` that comes from the indices `s ≤ p < N`. -/
def gsCol (N : Nat) (B C : Nat → Nat → K) (s x y : Nat) : K :=
  ∑ p ∈ Finset.Ico s N, triE .Lower .NonUnit B x p * C p y

/-- The matrix in memory when the columns `< s` have been treated. -/
def gsMem (N : Nat) (A B C : Nat → Nat → K) (s x y : Nat) : K :=
  if y ≤ x then (if y < s then C x y else gsTrail N B C s x y) else A x y

/-- The matrix in memory while the columns `s ≤ y < s'` are treated: `P` below the diagonal tile, `T` in the trailing
matrix. -/
def gsPh (A C : Nat → Nat → K) (s s' : Nat) (P T : Nat → Nat → K) (x y : Nat) : K :=
  if y ≤ x then (if y < s then C x y else if y < s' then (if x < s' then C x y else P x y) else T x y) else A x y

section
variable {sz : Nat → Nat} {nt k : Nat} {A C P T P' T' : Nat → Nat → K}

omit [Field K] [StarRing K] in
theorem gsPh_panel {i x y : Nat} (hik : k < i) (hx : inTile sz i x) (hy : inTile sz k y) :
    gsPh A C (tileStart sz k) (tileStart sz (k + 1)) P T x y = P x y := by
  unfold gsPh
  have h1 := inTile_lt_of hy hx hik
  have h2 := inTile_ge hx (show k + 1 ≤ i by omega)
  have h3 := hy.1
  rw [if_pos (by omega), if_neg (by omega), if_pos hy.2, if_neg (by omega)]

omit [Field K] [StarRing K] in
theorem gsPh_diag {x y : Nat} (hx : inTile sz k x) (hy : inTile sz k y) :
    gsPh A C (tileStart sz k) (tileStart sz (k + 1)) P T x y = if y ≤ x then C x y else A x y := by
  unfold gsPh
  have h3 := hy.1
  split
  · rw [if_neg (by omega), if_pos hy.2, if_pos hx.2]
  · rfl

omit [Field K] [StarRing K] in
theorem gsPh_trail {i j x y : Nat} (hjk : k < j) (hx : inTile sz i x) (hy : inTile sz j y) :
    gsPh A C (tileStart sz k) (tileStart sz (k + 1)) P T x y = if y ≤ x then T x y else A x y := by
  unfold gsPh
  have h2 := inTile_ge hy (show k + 1 ≤ j by omega)
  have h3 := inTile_ge hy (show k ≤ j by omega)
  split
  · rw [if_neg (by omega), if_neg (by omega)]
  · rfl

omit [Field K] [StarRing K] in
/-- Tiles that do not change when the panel changes. -/
theorem gsPh_other_panel {i j x y : Nat} (h : ¬ (j = k ∧ k < i)) (hx : inTile sz i x) (hy : inTile sz j y) :
    gsPh A C (tileStart sz k) (tileStart sz (k + 1)) P T x y =
      gsPh A C (tileStart sz k) (tileStart sz (k + 1)) P' T x y := by
  unfold gsPh
  split
  · split
    · rfl
    · split
      · split
        · rfl
        · exfalso
          rename_i h1 h2 h3 h4
          apply h
          have hjk : j = k := by
            rcases Nat.lt_trichotomy j k with hh | hh | hh
            · have := inTile_lt hy hh; omega
            · exact hh
            · have := inTile_ge hy (show k + 1 ≤ j by omega); omega
          refine ⟨hjk, ?_⟩
          by_contra hik
          have := inTile_lt hx (show i < k + 1 by omega)
          omega
      · rfl
  · rfl

omit [Field K] [StarRing K] in
/-- Tiles that do not change when the trailing matrix changes. -/
theorem gsPh_other_trail {i j x y : Nat} (h : ¬ (k < j ∧ j ≤ i)) (hx : inTile sz i x) (hy : inTile sz j y) :
    gsPh A C (tileStart sz k) (tileStart sz (k + 1)) P T x y =
      gsPh A C (tileStart sz k) (tileStart sz (k + 1)) P T' x y := by
  unfold gsPh
  split
  · split
    · rfl
    · split
      · rfl
      · exfalso
        rename_i h1 h2 h3
        apply h
        constructor
        · by_contra hh
          have := inTile_lt hy (show j < k + 1 by omega)
          omega
        · by_contra hh
          have := inTile_lt_of hx hy (by omega)
          omega
  · rfl
end

section
variable {lp : Lapack K} {pos : K → Prop} (hl : LapackSpec lp pos) (h2 : (2 : K) ≠ 0) {sz : Nat → Nat} {nt : Nat}
  {A B C : Nat → Nat → K} (hn : ∀ i < tileStart sz nt, B i i ≠ 0) (hC : ∀ x y, star (C y x) = C x y)
  {l : Tiles K} (hB : Has l sz sz nt nt B)

omit hl h2 hn hB in
include hC in
theorem gsTrail_split {k : Nat} (hk : k < nt) (x y : Nat) :
    gsTrail (tileStart sz nt) B C (tileStart sz k) x y =
      gsTrail (tileStart sz nt) B C (tileStart sz (k + 1)) x y
      + tsum sz k (fun z => gsCol (tileStart sz nt) B C (tileStart sz k) x z * star (triE .Lower .NonUnit B y z))
      + tsum sz k (fun z => triE .Lower .NonUnit B x z * star (gsCol (tileStart sz nt) B C (tileStart sz k) y z))
      - tsum sz k (fun p => tsum sz k fun q => triE .Lower .NonUnit B x p * C p q * star (triE .Lower .NonUnit B y q)) := by
  obtain ⟨f, hf⟩ : ∃ f : Nat → Nat → K, f = fun p q => triE .Lower .NonUnit B x p * C p q * star (triE .Lower .NonUnit B y q) :=
    ⟨_, rfl⟩
  have e0 : ∀ s, gsTrail (tileStart sz nt) B C s x y =
      ∑ p ∈ Finset.Ico s (tileStart sz nt), ∑ q ∈ Finset.Ico s (tileStart sz nt), f p q := by
    intro s; rw [hf]; rfl
  have e1 : tsum sz k (fun z => gsCol (tileStart sz nt) B C (tileStart sz k) x z * star (triE .Lower .NonUnit B y z)) =
      ∑ p ∈ Finset.Ico (tileStart sz k) (tileStart sz nt), tsum sz k fun q => f p q := by
    unfold tsum gsCol
    rw [hf, Finset.sum_comm]
    refine Finset.sum_congr rfl fun q _ => ?_
    beta_reduce
    rw [Finset.sum_mul]
  have e2 : tsum sz k (fun z => triE .Lower .NonUnit B x z * star (gsCol (tileStart sz nt) B C (tileStart sz k) y z)) =
      tsum sz k fun p => ∑ q ∈ Finset.Ico (tileStart sz k) (tileStart sz nt), f p q := by
    refine tsum_congr fun p _ => ?_
    unfold gsCol
    rw [hf, star_sum, Finset.mul_sum]
    refine Finset.sum_congr rfl fun q _ => ?_
    rw [star_mul', hC]
    ring
  have e3 : tsum sz k (fun p => tsum sz k fun q => triE .Lower .NonUnit B x p * C p q * star (triE .Lower .NonUnit B y q)) =
      tsum sz k (fun p => tsum sz k fun q => f p q) := by rw [hf]
  rw [e0, e0, e1, e2, e3]
  have t1 : ∀ p, ∑ q ∈ Finset.Ico (tileStart sz k) (tileStart sz nt), f p q =
      tsum sz k (fun q => f p q) + ∑ q ∈ Finset.Ico (tileStart sz (k + 1)) (tileStart sz nt), f p q :=
    fun p => trail_split sz hk _
  rw [trail_split sz hk, trail_split sz hk (fun p => tsum sz k fun q => f p q)]
  simp only [t1, tsum_add, Finset.sum_add_distrib]
  ring

omit hl h2 hn hB in
/-- In the rows of tile `k` only the indices of tile `k` contribute. -/
theorem gsTrail_diag {k : Nat} (hk : k < nt) {x y : Nat} (hx : inTile sz k x) (hy : inTile sz k y) :
    gsTrail (tileStart sz nt) B C (tileStart sz k) x y =
      tsum sz k fun p => tsum sz k fun q => triE .Lower .NonUnit B x p * C p q * star (triE .Lower .NonUnit B y q) := by
  unfold gsTrail
  rw [trail_split sz hk, Finset.sum_eq_zero (s := Finset.Ico (tileStart sz (k + 1)) _), add_zero]
  · refine tsum_congr fun p _ => ?_
    rw [trail_split sz hk, Finset.sum_eq_zero (s := Finset.Ico (tileStart sz (k + 1)) _), add_zero]
    intro q hq
    rw [Finset.mem_Ico] at hq
    rw [triE_upper (lt_of_lt_of_le hy.2 hq.1), star_zero, mul_zero]
  · intro p hp
    rw [Finset.mem_Ico] at hp
    refine Finset.sum_eq_zero fun q _ => ?_
    rw [triE_upper (lt_of_lt_of_le hx.2 hp.1)]
    ring

omit hl h2 hn hB in
/-- In the columns of tile `k`. -/
theorem gsTrail_col {k : Nat} (hk : k < nt) {x y : Nat} (hy : inTile sz k y) :
    gsTrail (tileStart sz nt) B C (tileStart sz k) x y =
      tsum sz k fun q => gsCol (tileStart sz nt) B C (tileStart sz k) x q * star (triE .Lower .NonUnit B y q) := by
  unfold gsTrail gsCol
  rw [Finset.sum_comm, trail_split sz hk, Finset.sum_eq_zero (s := Finset.Ico (tileStart sz (k + 1)) _), add_zero]
  · refine tsum_congr fun q _ => ?_
    rw [Finset.sum_mul]
  · intro q hq
    rw [Finset.mem_Ico] at hq
    refine Finset.sum_eq_zero fun p _ => ?_
    rw [triE_upper (lt_of_lt_of_le hy.2 hq.1), star_zero, mul_zero]

omit hl h2 hn hB in
theorem gsCol_split {k : Nat} (hk : k < nt) (x y : Nat) :
    gsCol (tileStart sz nt) B C (tileStart sz k) x y =
      tsum sz k (fun z => triE .Lower .NonUnit B x z * C z y) + gsCol (tileStart sz nt) B C (tileStart sz (k + 1)) x y :=
  trail_split sz hk _

include hl h2 hn hC hB

theorem genToStdStepL_spec {k : Nat} (hk : k < nt) {a : Tiles K}
    (ha : Has a sz sz nt nt (gsMem (tileStart sz nt) A B C (tileStart sz k))) :
    ∃ a', genToStdStepL lp nt l a k = some a' ∧
      Has a' sz sz nt nt (gsMem (tileStart sz nt) A B C (tileStart sz (k + 1))) := by
  obtain ⟨N, hN⟩ : ∃ N, N = tileStart sz nt := ⟨_, rfl⟩
  obtain ⟨L, hL⟩ : ∃ L, L = triE .Lower .NonUnit B := ⟨_, rfl⟩
  rw [← hN] at ha ⊢
  have hnk : ∀ j < nt, ∀ x, inTile sz j x → B x x ≠ 0 := fun j hj x hx => hn x (inTile_lt hx hj)
  have hlow : ∀ i j, j < i → i < nt → IsBlk sz sz i j (l (i, j)) L := by
    intro i j hji hi
    refine (hB i hi j (by omega)).congr ?_
    intro x y hx hy
    rw [hL, triE_of_lt (inTile_lt_of hy hx hji)]
  have hdiagmem : ∀ x y, inTile sz k x → inTile sz k y → y ≤ x →
      gsMem N A B C (tileStart sz k) x y = gsTrail N B C (tileStart sz k) x y := by
    intro x y hx hy hyx
    unfold gsMem
    rw [if_pos hyx, if_neg (by have := hy.1; omega)]
  -- phase 1
  obtain ⟨b1, c1, d1⟩ := blk_hegst_lower hl (ha k hk k hk) (hB k hk k hk) (hnk k hk) hC (by
    intro x y hx hy hyx
    rw [hdiagmem x y hx hy hyx, hN, gsTrail_diag hk hx hy])
  obtain ⟨a1, f1, f2, f3⟩ := write_of (m := a) (w := (k, k)) c1
  have H1 : Has a1 sz sz nt nt (gsPh A C (tileStart sz k) (tileStart sz (k + 1))
      (gsTrail N B C (tileStart sz k)) (gsTrail N B C (tileStart sz k))) := by
    intro i hi j hj
    by_cases hij : (i, j) = (k, k)
    · cases hij
      rw [f2]
      refine d1.congr ?_
      intro x y hx hy
      rw [gsPh_diag hx hy]
      by_cases hyx : y ≤ x
      · rw [if_pos hyx, if_pos hyx]
      · rw [if_neg hyx, if_neg hyx]
        unfold gsMem
        rw [if_neg hyx]
    · rw [f3 _ hij]
      refine (ha i hi j hj).congr ?_
      intro x y hx hy
      unfold gsMem gsPh
      by_cases hyx : y ≤ x
      · rw [if_pos hyx, if_pos hyx]
        by_cases h1 : y < tileStart sz k
        · rw [if_pos h1, if_pos h1]
        · rw [if_neg h1, if_neg h1]
          by_cases h3 : y < tileStart sz (k + 1)
          · rw [if_pos h3]
            by_cases h4 : x < tileStart sz (k + 1)
            · exfalso
              have hj1 : j = k := by
                rcases Nat.lt_trichotomy j k with hh | hh | hh
                · have := inTile_lt hy hh; omega
                · exact hh
                · have := inTile_ge hy (show k + 1 ≤ j by omega); omega
              have hi1 : i = k := by
                rcases Nat.lt_trichotomy i k with hh | hh | hh
                · have := inTile_lt hx hh; omega
                · exact hh
                · have := inTile_ge hx (show k + 1 ≤ i by omega); omega
              exact hij (by rw [hi1, hj1])
            · rw [if_neg h4]
          · rw [if_neg h3]
      · rw [if_neg hyx, if_neg hyx]
  by_cases hlast : k + 1 = nt
  · refine ⟨a1, ?_, ?_⟩
    · unfold genToStdStepL
      simp only [Option.bind_eq_bind]
      rw [f1, Option.bind_some, if_pos hlast]
      rfl
    · intro i hi j hj
      refine (H1 i hi j hj).congr ?_
      intro x y hx hy
      unfold gsPh gsMem
      by_cases hyx : y ≤ x
      · have hx' := inTile_lt hx (show i < k + 1 by omega)
        have hys : y < tileStart sz (k + 1) := by omega
        simp only [if_pos hyx, if_pos hys, if_pos hx', ite_self]
      · rw [if_neg hyx, if_neg hyx]
  -- what `hemm` with the diagonal tile adds
  have hherm : ∀ (F : Nat → Nat → K) (x y : Nat), inTile sz k y →
      tsum sz k (fun z => L x z * if y ≤ z then gsPh A C (tileStart sz k) (tileStart sz (k + 1)) F F z y
        else star (gsPh A C (tileStart sz k) (tileStart sz (k + 1)) F F y z)) = tsum sz k fun z => L x z * C z y := by
    intro F x y hy
    refine tsum_congr fun z hz => ?_
    congr 1
    rw [gsPh_diag hz hy, gsPh_diag hy hz]
    by_cases h : y ≤ z
    · rw [if_pos h, if_pos h]
    · rw [if_neg h, if_pos (by omega), hC]
  have hdiag : ∀ (s : Tiles K) (P T : Nat → Nat → K), Has s sz sz nt nt (gsPh A C (tileStart sz k) (tileStart sz (k + 1)) P T) →
      IsBlk sz sz k k (s (k, k)) (gsPh A C (tileStart sz k) (tileStart sz (k + 1)) P P) := by
    intro s P T h
    refine (h k hk k hk).congr ?_
    intro x y hx hy
    rw [gsPh_diag hx hy, gsPh_diag hx hy]
  obtain ⟨P, hP⟩ : ∃ P : Nat → Nat → K, P = fun x y =>
    gsCol N B C (tileStart sz k) x y + minusHalf * tsum sz k fun z => L x z * C z y := ⟨_, rfl⟩
  obtain ⟨st, hst⟩ : ∃ st, st = tileStart sz k := ⟨_, rfl⟩
  obtain ⟨st', hst'⟩ : ∃ st', st' = tileStart sz (k + 1) := ⟨_, rfl⟩
  -- phase 2
  obtain ⟨a2, e2, q2, o2⟩ := forM'_own (upto (k + 1) nt) (fun z => if z.2 = k ∧ k < z.1 ∧ z.1 < nt then some z.1 else none)
    (fun a i => do
      let a ← a.write (i, k) (lp.tileTrsm .Right .Lower .ConjTrans .NonUnit 1 (l (k, k)) (a (i, k)))
      a.write (i, k) (hemm .Right .Lower minusHalf (a (k, k)) (l (i, k)) 1 (a (i, k))))
    a1 (fun z b => IsBlk sz sz z.1 z.2 b P) (upto_nodup _ _) (by
    intro i hi s hs
    rw [mem_upto] at hi
    have s1 : s (i, k) = a1 (i, k) := hs _ (Or.inl (by simp; omega))
    have s2 : s (k, k) = a1 (k, k) := hs _ (Or.inr (by intro y _; simp))
    obtain ⟨b, hb1, hb2⟩ := blk_trsm_right hl .Lower .ConjTrans .NonUnit 1 (a := l (k, k)) (b := s (i, k))
      (G := gsCol N B C (tileStart sz k)) (H := gsTrail N B C (tileStart sz k)) (hB k hk k hk) (Or.inr (hnk k hk))
      (by
        rw [s1]
        refine (H1 i hi.2 k hk).congr ?_
        intro x y hx hy
        rw [gsPh_panel (by omega) hx hy]) (by
        intro x y hx hy
        rw [one_mul, hN, gsTrail_col hk hy]
        rfl)
    obtain ⟨t1, u1, u2, u3⟩ := write_of (m := s) (w := (i, k)) hb1
    obtain ⟨c, hc1, hc2⟩ := blk_hemm_right minusHalf 1 (a := t1 (k, k)) (b := l (i, k)) (c := t1 (i, k))
      (by rw [u3 _ (by intro h; cases h; omega), s2]; exact hdiag a1 _ _ H1) (hlow i k (by omega) hi.2)
      (by rw [u2]; exact hb2)
    obtain ⟨t2, v1, v2, v3⟩ := write_of (m := t1) (w := (i, k)) hc1
    refine ⟨t2, ?_, ?_, ?_⟩
    · simp only [Option.bind_eq_bind]
      rw [u1, Option.bind_some, v1]
    · rintro ⟨z1, z2⟩ hz
      simp only at hz
      split at hz
      · rename_i hc
        obtain ⟨rfl, _⟩ := hc
        cases hz
        rw [v2]
        refine hc2.congr ?_
        intro x y hx hy
        rw [hherm _ x y hy, hP, one_mul, add_comm]
      · cases hz
    · rintro ⟨z1, z2⟩ hz
      have hne : (z1, z2) ≠ (i, k) := by
        intro h; cases h; exact hz (by simp; omega)
      rw [v3 _ hne, u3 _ hne])
  have H2 : Has a2 sz sz nt nt (gsPh A C (tileStart sz k) (tileStart sz (k + 1)) P (gsTrail N B C (tileStart sz k))) := by
    intro i hi j hj
    by_cases hc : j = k ∧ k < i
    · refine (q2 (i, j) i (by rw [mem_upto]; omega) (by simp; omega)).congr ?_
      intro x y hx hy
      obtain ⟨rfl, hc⟩ := hc
      rw [gsPh_panel hc hx hy]
    · rw [o2 _ (by intro y _; rw [if_neg (by simp; omega)]; simp)]
      exact (H1 i hi j hj).congr fun x y hx hy => gsPh_other_panel hc hx hy
  have hpan2 : ∀ i, k < i → i < nt → IsBlk sz sz i k (a2 (i, k)) P := by
    intro i h1 h3
    exact (H2 i h3 k hk).congr fun x y hx hy => gsPh_panel h1 hx hy
  -- phase 3
  have hupd : ∀ x y, -1 * tsum sz k (fun z => P x z * star (L y z)) + -1 * tsum sz k (fun z => L x z * star (P y z)) +
      gsTrail N B C (tileStart sz k) x y = gsTrail N B C (tileStart sz (k + 1)) x y := by
    intro x y
    have hs := gsTrail_split (sz := sz) (nt := nt) (B := B) hC hk x y
    rw [← hN, ← hL] at hs
    have g1 : tsum sz k (fun z => P x z * star (L y z)) =
        tsum sz k (fun z => gsCol N B C (tileStart sz k) x z * star (L y z)) + minusHalf *
        tsum sz k (fun p => tsum sz k fun q => L x p * C p q * star (L y q)) := by
      have : tsum sz k (fun p => tsum sz k fun q => L x p * C p q * star (L y q)) =
          tsum sz k fun q => (tsum sz k fun p => L x p * C p q) * star (L y q) := by
        unfold tsum
        rw [Finset.sum_comm]
        refine Finset.sum_congr rfl fun q _ => ?_
        beta_reduce
        rw [Finset.sum_mul]
      rw [this, ← tsum_mul_left, ← tsum_add]
      refine tsum_congr fun z _ => ?_
      rw [hP]
      ring
    have g2 : tsum sz k (fun z => L x z * star (P y z)) =
        tsum sz k (fun z => L x z * star (gsCol N B C (tileStart sz k) y z)) + minusHalf *
        tsum sz k (fun p => tsum sz k fun q => L x p * C p q * star (L y q)) := by
      rw [← tsum_mul_left, ← tsum_add]
      refine tsum_congr fun z _ => ?_
      rw [hP]
      simp only [star_add, star_mul']
      rw [show star (minusHalf : K) = minusHalf by unfold minusHalf; rw [star_neg, star_div₀, star_one, star_ofNat],
        mul_add]
      congr 1
      unfold tsum
      rw [star_sum, Finset.mul_sum, Finset.mul_sum, Finset.mul_sum]
      refine Finset.sum_congr rfl fun q _ => ?_
      rw [star_mul', hC]
      ring
    rw [g1, g2, hs]
    have hh : (minusHalf : K) + minusHalf = -1 := by
      unfold minusHalf
      field_simp
      norm_num
    linear_combination (-(tsum sz k fun p => tsum sz k fun q => L x p * C p q * star (L y q))) * hh
  obtain ⟨a3, e3, q3, o3⟩ := forM'_own (upto (k + 1) nt)
    (fun z => if k < z.2 ∧ z.2 ≤ z.1 ∧ z.1 < nt then some z.2 else none)
    (fun a j => do
      let a ← a.write (j, j) (her2k .Lower .NoTrans (-1) (a (j, k)) (l (j, k)) 1 (a (j, j)))
      forM' (upto (j + 1) nt) a fun a i => do
        let a ← a.write (i, j) (gemm .NoTrans .ConjTrans (-1) (a (i, k)) (l (j, k)) 1 (a (i, j)))
        a.write (i, j) (gemm .NoTrans .ConjTrans (-1) (l (i, k)) (a (j, k)) 1 (a (i, j))))
    a2 (fun z b => IsBlk sz sz z.1 z.2 b fun x y => if y ≤ x then gsTrail N B C (tileStart sz (k + 1)) x y else A x y)
    (upto_nodup _ _) (by
    intro j hj s hs
    rw [mem_upto] at hj
    have s1 : ∀ i, s (i, k) = a2 (i, k) := fun i => hs _ (Or.inr (by intro y _; simp))
    have s2 : ∀ i, j ≤ i → i < nt → s (i, j) = a2 (i, j) := fun i h1 h3 => hs _ (Or.inl (by simp; omega))
    have hblk : ∀ i, j ≤ i → i < nt → IsBlk sz sz i j (a2 (i, j))
        (fun x y => if y ≤ x then gsTrail N B C (tileStart sz k) x y else A x y) := by
      intro i h1 h3
      exact (H2 i h3 j hj.2).congr fun x y hx hy => gsPh_trail (by omega) hx hy
    obtain ⟨c, hc1, hc2⟩ := blk_her2k_lower (-1) 1 (a := s (j, k)) (b := l (j, k)) (c := s (j, j))
      (by rw [s1]; exact hpan2 j (by omega) hj.2) (hlow j k (by omega) hj.2)
      (by rw [s2 j (le_refl _) hj.2]; exact hblk j (le_refl _) hj.2)
    obtain ⟨t1, u1, u2, u3⟩ := write_of (m := s) (w := (j, j)) hc1
    obtain ⟨t2, g1, g2, g3⟩ := forM'_own (upto (j + 1) nt)
      (fun z => if z.2 = j ∧ j < z.1 ∧ z.1 < nt then some z.1 else none)
      (fun a i => do
        let a ← a.write (i, j) (gemm .NoTrans .ConjTrans (-1) (a (i, k)) (l (j, k)) 1 (a (i, j)))
        a.write (i, j) (gemm .NoTrans .ConjTrans (-1) (l (i, k)) (a (j, k)) 1 (a (i, j))))
      t1 (fun z b => IsBlk sz sz z.1 z.2 b fun x y => if y ≤ x then gsTrail N B C (tileStart sz (k + 1)) x y else A x y)
      (upto_nodup _ _) (by
      intro i hi t ht
      rw [mem_upto] at hi
      have t1' : ∀ i, t (i, k) = a2 (i, k) := by
        intro i
        rw [ht _ (Or.inr (by intro y _; rw [if_neg (by simp; omega)]; simp)), u3 _ (by intro h; cases h; omega), s1]
      have t2' : t (i, j) = a2 (i, j) := by
        rw [ht _ (Or.inl (by simp; omega)), u3 _ (by intro h; cases h; omega), s2 i (by omega) hi.2]
      obtain ⟨d1, m1, m2⟩ := blk_gemm .NoTrans .ConjTrans (-1) 1 (a := t (i, k)) (b := l (j, k)) (c := t (i, j))
        (by rw [t1']; exact hpan2 i (by omega) hi.2) (hlow j k (by omega) hj.2).op
        (by rw [t2']; exact hblk i (by omega) hi.2)
      obtain ⟨w1, v1, v2, v3⟩ := write_of (m := t) (w := (i, j)) m1
      obtain ⟨d2, m3, m4⟩ := blk_gemm .NoTrans .ConjTrans (-1) 1 (a := l (i, k)) (b := w1 (j, k)) (c := w1 (i, j))
        (hlow i k (by omega) hi.2)
        (by rw [v3 _ (by intro h; cases h; omega), t1']; exact (hpan2 j (by omega) hj.2).op)
        (by rw [v2]; exact m2)
      obtain ⟨w2, x1, x2, x3⟩ := write_of (m := w1) (w := (i, j)) m3
      refine ⟨w2, ?_, ?_, ?_⟩
      · simp only [Option.bind_eq_bind]
        rw [v1, Option.bind_some, x1]
      · rintro ⟨z1, z2⟩ hz
        simp only at hz
        split at hz
        · rename_i hc
          obtain ⟨rfl, _⟩ := hc
          cases hz
          rw [x2]
          refine m4.congr ?_
          intro x y hx hy
          have hyx := inTile_lt_of hy hx (show z2 < i by omega)
          rw [if_pos (by omega), if_pos (by omega), ← hupd x y]
          simp only [adjE]
          ring
        · cases hz
      · rintro ⟨z1, z2⟩ hz
        have hne : (z1, z2) ≠ (i, j) := by
          intro h; cases h; exact hz (by simp; omega)
        rw [x3 _ hne, v3 _ hne])
    refine ⟨t2, ?_, ?_, ?_⟩
    · simp only [Option.bind_eq_bind] at g1 ⊢
      rw [u1, Option.bind_some, g1]
    · rintro ⟨z1, z2⟩ hz
      simp only at hz
      split at hz
      · rename_i hcz
        cases hz
        rcases Nat.lt_or_eq_of_le hcz.2.1 with h | h
        · exact g2 (z1, j) z1 (by rw [mem_upto]; omega) (by simp; omega)
        · subst h
          rw [g3 _ (by intro y _; simp), u2]
          refine hc2.congr ?_
          intro x y hx hy
          by_cases hyx : y ≤ x
          · rw [if_pos hyx, if_pos hyx, if_pos hyx, ← hupd x y, star_neg, star_one, one_mul]
          · rw [if_neg hyx, if_neg hyx, if_neg hyx]
      · cases hz
    · rintro ⟨z1, z2⟩ hz
      rw [g3, u3]
      · intro h; cases h; exact hz (by simp; omega)
      · intro y hy h
        rw [mem_upto] at hy
        simp only at h
        split at h
        · rename_i hcc
          obtain ⟨rfl, _⟩ := hcc
          cases h
          exact hz (by simp; omega)
        · cases h)
  have H3 : Has a3 sz sz nt nt (gsPh A C (tileStart sz k) (tileStart sz (k + 1)) P (gsTrail N B C (tileStart sz (k + 1)))) := by
    intro i hi j hj
    by_cases hc : k < j ∧ j ≤ i
    · refine (q3 (i, j) j (by rw [mem_upto]; omega) (by simp; omega)).congr ?_
      intro x y hx hy
      rw [gsPh_trail hc.1 hx hy]
    · rw [o3 _ (by intro y _; rw [if_neg (by simp; omega)]; simp)]
      exact (H2 i hi j hj).congr fun x y hx hy => gsPh_other_trail hc hx hy
  -- phase 4
  obtain ⟨a4, e4, q4, o4⟩ := forM'_own (upto (k + 1) nt) (fun z => if z.2 = k ∧ k < z.1 ∧ z.1 < nt then some z.1 else none)
    (fun a i => a.write (i, k) (hemm .Right .Lower minusHalf (a (k, k)) (l (i, k)) 1 (a (i, k))))
    a3 (fun z b => IsBlk sz sz z.1 z.2 b (gsCol N B C (tileStart sz (k + 1)))) (upto_nodup _ _) (by
    intro i hi s hs
    rw [mem_upto] at hi
    have s1 : s (i, k) = a3 (i, k) := hs _ (Or.inl (by simp; omega))
    have s2 : s (k, k) = a3 (k, k) := hs _ (Or.inr (by intro y _; simp))
    obtain ⟨c, hc1, hc2⟩ := blk_hemm_right minusHalf 1 (a := s (k, k)) (b := l (i, k)) (c := s (i, k))
      (by rw [s2]; exact hdiag a3 _ _ H3) (hlow i k (by omega) hi.2)
      (by rw [s1]; exact (H3 i hi.2 k hk).congr fun x y hx hy => gsPh_panel (by omega) hx hy)
    obtain ⟨t2, v1, v2, v3⟩ := write_of (m := s) (w := (i, k)) hc1
    refine ⟨t2, v1, ?_, ?_⟩
    · rintro ⟨z1, z2⟩ hz
      simp only at hz
      split at hz
      · rename_i hc
        obtain ⟨rfl, _⟩ := hc
        cases hz
        rw [v2]
        refine hc2.congr ?_
        intro x y hx hy
        rw [hherm _ x y hy, hP, one_mul]
        have hg := gsCol_split (sz := sz) (nt := nt) (B := B) (C := C) hk x y
        rw [← hN, ← hL] at hg
        have hh : (minusHalf : K) + minusHalf = -1 := by
          unfold minusHalf
          field_simp
          norm_num
        linear_combination hg + (tsum sz z2 fun z => L x z * C z y) * hh
      · cases hz
    · rintro ⟨z1, z2⟩ hz
      exact v3 _ (by intro h; cases h; exact hz (by simp; omega)))
  have H4 : Has a4 sz sz nt nt (gsPh A C (tileStart sz k) (tileStart sz (k + 1))
      (fun x y => if x < tileStart sz (k + 1) then C x y else gsCol N B C (tileStart sz (k + 1)) x y)
      (gsTrail N B C (tileStart sz (k + 1)))) := by
    intro i hi j hj
    by_cases hc : j = k ∧ k < i
    · refine (q4 (i, j) i (by rw [mem_upto]; omega) (by simp; omega)).congr ?_
      intro x y hx hy
      obtain ⟨rfl, hc⟩ := hc
      have := inTile_ge hx (show j + 1 ≤ i by omega)
      rw [gsPh_panel hc hx hy, if_neg (by omega)]
    · rw [o4 _ (by intro y _; rw [if_neg (by simp; omega)]; simp)]
      exact (H3 i hi j hj).congr fun x y hx hy => gsPh_other_panel hc hx hy
  -- phase 5
  obtain ⟨a5, e5, H5⟩ := forM'_inv_from (show k + 1 ≤ nt by omega)
    (b := fun a j => do
      let a ← a.write (j, k) (lp.tileTrsm .Left .Lower .NoTrans .NonUnit 1 (l (j, j)) (a (j, k)))
      forM' (upto (j + 1) nt) a fun a i => a.write (i, k) (gemm .NoTrans .NoTrans (-1) (l (i, j)) (a (j, k)) 1 (a (i, k))))
    (fun j s => Has s sz sz nt nt (gsPh A C (tileStart sz k) (tileStart sz (k + 1))
      (fun x y => if x < tileStart sz j then C x y else gsCol N B C (tileStart sz j) x y)
      (gsTrail N B C (tileStart sz (k + 1))))) (by
    intro j hj1 hj2 s hs
    have hpan : ∀ i, j ≤ i → i < nt → IsBlk sz sz i k (s (i, k)) (gsCol N B C (tileStart sz j)) := by
      intro i h1 h3
      refine (hs i h3 k hk).congr ?_
      intro x y hx hy
      have := inTile_ge hx h1
      rw [gsPh_panel (by omega) hx hy, if_neg (by omega)]
    obtain ⟨b, hb1, hb2⟩ := blk_trsm_left hl .Lower .NoTrans .NonUnit 1 (a := l (j, j)) (b := s (j, k)) (G := C)
      (hB j hj2 j hj2) (Or.inr (hnk j hj2)) (hpan j (le_refl _) hj2) (by
        intro x y hx hy
        have hg := gsCol_split (sz := sz) (nt := nt) (B := B) (C := C) hj2 x y
        rw [one_mul, hN, hg]
        have : gsCol (tileStart sz nt) B C (tileStart sz (j + 1)) x y = 0 := by
          unfold gsCol
          refine Finset.sum_eq_zero fun p hp => ?_
          rw [Finset.mem_Ico] at hp
          rw [triE_upper (lt_of_lt_of_le hx.2 hp.1), zero_mul]
        rw [this, add_zero]
        rfl)
    obtain ⟨t1, u1, u2, u3⟩ := write_of (m := s) (w := (j, k)) hb1
    obtain ⟨t2, g1, g2, g3⟩ := forM'_own (upto (j + 1) nt)
      (fun z => if z.2 = k ∧ j < z.1 ∧ z.1 < nt then some z.1 else none)
      (fun a i => a.write (i, k) (gemm .NoTrans .NoTrans (-1) (l (i, j)) (a (j, k)) 1 (a (i, k))))
      t1 (fun z b => IsBlk sz sz z.1 z.2 b (gsCol N B C (tileStart sz (j + 1)))) (upto_nodup _ _) (by
      intro i hi t ht
      rw [mem_upto] at hi
      have t1' : t (j, k) = b := by
        rw [ht _ (Or.inr (by intro y _; rw [if_neg (by simp)]; simp)), u2]
      have t2' : t (i, k) = s (i, k) := by
        rw [ht _ (Or.inl (by simp; omega)), u3 _ (by intro h; cases h; omega)]
      obtain ⟨d1, m1, m2⟩ := blk_gemm .NoTrans .NoTrans (-1) 1 (a := l (i, j)) (b := t (j, k)) (c := t (i, k))
        (hlow i j (by omega) hi.2) (by rw [t1']; exact hb2) (by rw [t2']; exact hpan i (by omega) hi.2)
      obtain ⟨w1, v1, v2, v3⟩ := write_of (m := t) (w := (i, k)) m1
      refine ⟨w1, v1, ?_, ?_⟩
      · rintro ⟨z1, z2⟩ hz
        simp only at hz
        split at hz
        · rename_i hc
          obtain ⟨rfl, _⟩ := hc
          cases hz
          rw [v2]
          refine m2.congr ?_
          intro x y hx hy
          have hg := gsCol_split (sz := sz) (nt := nt) (B := B) (C := C) hj2 x y
          rw [← hN, ← hL] at hg
          rw [hg]
          ring
        · cases hz
      · rintro ⟨z1, z2⟩ hz
        exact v3 _ (by intro h; cases h; exact hz (by simp; omega)))
    refine ⟨t2, ?_, ?_⟩
    · simp only [Option.bind_eq_bind]
      rw [u1, Option.bind_some, g1]
    · intro i hi jj hjj
      by_cases hc : jj = k ∧ k < i
      · obtain ⟨rfl, hc⟩ := hc
        rcases Nat.lt_trichotomy i j with h | h | h
        · rw [g3 _ (by intro y _; rw [if_neg (by simp; omega)]; simp), u3 _ (by intro h'; cases h'; omega)]
          refine (hs i hi jj hjj).congr ?_
          intro x y hx hy
          rw [gsPh_panel hc hx hy, gsPh_panel hc hx hy, if_pos (inTile_lt hx h), if_pos (inTile_lt hx (by omega))]
        · subst h
          rw [g3 _ (by intro y _; rw [if_neg (by simp)]; simp), u2]
          refine hb2.congr ?_
          intro x y hx hy
          rw [gsPh_panel hc hx hy, if_pos hx.2]
        · refine (g2 (i, jj) i (by rw [mem_upto]; omega) (by simp; omega)).congr ?_
          intro x y hx hy
          have := inTile_ge hx (show j + 1 ≤ i by omega)
          rw [gsPh_panel hc hx hy, if_neg (by omega)]
      · rw [g3 _ (by intro y _; rw [if_neg (by simp; omega)]; simp), u3 _ (by intro h'; cases h'; omega)]
        exact (hs i hi jj hjj).congr fun x y hx hy => gsPh_other_panel hc hx hy) (s := a4) H4
  refine ⟨a5, ?_, ?_⟩
  · unfold genToStdStepL
    simp only [Option.bind_eq_bind] at e2 e3 e4 e5 ⊢
    rw [f1, Option.bind_some, if_neg hlast, e2, Option.bind_some, e3, Option.bind_some, e4, Option.bind_some, e5]
  · intro i hi j hj
    refine (H5 i hi j hj).congr ?_
    intro x y hx hy
    have hx' := inTile_lt hx hi
    have hm := tileStart_mono sz (show k ≤ k + 1 by omega)
    unfold gsPh gsMem
    by_cases hyx : y ≤ x
    · rw [if_pos hyx, if_pos hyx]
      by_cases h1 : y < tileStart sz k
      · rw [if_pos h1, if_pos (by omega)]
      · rw [if_neg h1]
        by_cases h3 : y < tileStart sz (k + 1)
        · rw [if_pos h3, if_pos h3]
          beta_reduce
          rw [if_pos hx', ite_self]
        · rw [if_neg h3, if_neg h3]
    · rw [if_neg hyx, if_neg hyx]


theorem genToStdL_spec {a : Tiles K} (ha : Has a sz sz nt nt A)
    (hA : ∀ x < tileStart sz nt, ∀ y ≤ x, A x y = gsTrail (tileStart sz nt) B C 0 x y) :
    ∃ a', genToStdL lp nt l a = some a' ∧ Has a' sz sz nt nt fun x y => if y ≤ x then C x y else A x y := by
  obtain ⟨a', h1, h3⟩ := forM'_inv (b := fun a k => genToStdStepL lp nt l a k)
    (fun k s => Has s sz sz nt nt (gsMem (tileStart sz nt) A B C (tileStart sz k)))
    (fun k hk s hs => genToStdStepL_spec hl h2 hn hC hB hk hs) (s := a) (by
      intro i hi j hj
      refine (ha i hi j hj).congr ?_
      intro x y hx hy
      unfold gsMem
      rw [show tileStart sz 0 = 0 from rfl, if_neg (show ¬ y < 0 by omega)]
      split
      · rename_i h
        exact hA x (inTile_lt hx hi) y h
      · rfl)
  refine ⟨a', h1, ?_⟩
  intro i hi j hj
  refine (h3 i hi j hj).congr ?_
  intro x y hx hy
  unfold gsMem
  rw [if_pos (inTile_lt hy hj)]

end
end DLAF
