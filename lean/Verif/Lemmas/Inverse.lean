import Verif.Lemmas.Blocks
import Verif.Model.Inverse
/- The triangular inverse and the assembly of the inverse from the inverted factor. -/
namespace DLAF
variable {K : Type*} [Field K] [StarRing K]

omit [StarRing K] in
/-- The inverse of a nonsingular lower triangular matrix. -/
theorem lower_inverse {d : Diag} {N : Nat} {A : Nat → Nat → K} (hn : d = .Unit ∨ ∀ i < N, A i i ≠ 0) :
    ∃ W : Nat → Nat → K, (∀ x y, x < y → W x y = 0) ∧ (d = .Unit → ∀ x < N, W x x = 1) ∧
      (∀ x < N, ∀ y < N, ∑ l ∈ Finset.range N, triE .Lower d A x l * W l y = if x = y then 1 else 0) ∧
      (∀ x < N, ∀ y < N, ∑ l ∈ Finset.range N, W x l * triE .Lower d A l y = if x = y then 1 else 0) := by
  obtain ⟨a, ha⟩ : ∃ a : Blk K, a = ⟨N, N, A⟩ := ⟨_, rfl⟩
  have hns : Nonsing d a := ⟨by rw [ha], by rw [ha]; exact hn⟩
  have har : a.rows = N := by rw [ha]
  have htri : ∀ x y, (a.tri .Lower d).e x y = triE .Lower d A x y := by
    intro x y; rw [ha]; simp only [Blk.tri, triE, decide_eq_true_eq]
  obtain ⟨f, hf⟩ : ∃ f : Nat → Nat → K, f = fun r c => ofM (toM a.rows a.rows (a.tri .Lower d).e)⁻¹ r c := ⟨_, rfl⟩
  have h1 := tri_inv (u := .Lower) hns (f := f) (fun r _ c _ _ => by rw [hf])
  have hdet := tri_det (u := .Lower) hns
  have hm1 := Matrix.mul_nonsing_inv _ (isUnit_iff_ne_zero.2 hdet)
  have hm2 := Matrix.nonsing_inv_mul _ (isUnit_iff_ne_zero.2 hdet)
  rw [← h1] at hm1 hm2
  rw [har] at hm1 hm2
  refine ⟨((⟨N, N, f⟩ : Blk K).tri .Lower d).e, ?_, ?_, ?_, ?_⟩
  · intro x y h
    simp only [Blk.tri]
    rw [if_neg (by omega), if_neg (by simp; omega)]
  · intro hd x _
    simp [Blk.tri, hd]
  · intro x hx y hy
    have := congrFun (congrFun hm1 ⟨x, hx⟩) ⟨y, hy⟩
    rw [← sum_mul_eq, Matrix.one_apply] at this
    simp only [Fin.mk.injEq] at this
    rw [← this]
    refine Finset.sum_congr rfl fun l _ => ?_
    rw [htri]
  · intro x hx y hy
    have := congrFun (congrFun hm2 ⟨x, hx⟩) ⟨y, hy⟩
    rw [← sum_mul_eq, Matrix.one_apply] at this
    simp only [Fin.mk.injEq] at this
    rw [← this]
    refine Finset.sum_congr rfl fun l _ => ?_
    rw [htri]

/-- The matrix in memory when the tiles `≥ s` have been treated; `s` is the first index treated. -/
def trinvMem (d : Diag) (N : Nat) (A W : Nat → Nat → K) (s : Nat) (x y : Nat) : K :=
  if y < x ∨ (y = x ∧ d = .NonUnit) then
    if x < s then A x y
    else if y < s then ∑ l ∈ Finset.Ico s N, W x l * triE .Lower d A l y
    else W x y
  else A x y

omit [StarRing K] in
theorem triE_of_lt {A : Nat → Nat → K} {d : Diag} {x y : Nat} (h : y < x) : triE .Lower d A x y = A x y := by
  unfold triE
  rw [if_neg (by omega)]
  simp only
  rw [if_pos h]

omit [StarRing K] in
theorem triE_upper {A : Nat → Nat → K} {d : Diag} {x y : Nat} (h : x < y) : triE .Lower d A x y = 0 := by
  unfold triE
  rw [if_neg (by omega)]
  simp only
  rw [if_neg (by omega)]

section
variable {lp : Lapack K} {pos : K → Prop} (hl : LapackSpec lp pos) {d : Diag} {sz : Nat → Nat} {nt : Nat}
  {A W : Nat → Nat → K} (hn : d = .Unit ∨ ∀ i < tileStart sz nt, A i i ≠ 0)
  (w0 : ∀ x y, x < y → W x y = 0)
  (w1 : d = .Unit → ∀ x < tileStart sz nt, W x x = 1)
  (w2 : ∀ x < tileStart sz nt, ∀ y < tileStart sz nt,
    ∑ l ∈ Finset.range (tileStart sz nt), triE .Lower d A x l * W l y = if x = y then 1 else 0)
  (w3 : ∀ x < tileStart sz nt, ∀ y < tileStart sz nt,
    ∑ l ∈ Finset.range (tileStart sz nt), W x l * triE .Lower d A l y = if x = y then 1 else 0)
include hl hn w0 w1 w2 w3

theorem trinvStepL_spec {k : Nat} (hk : k < nt) {m : Tiles K}
    (hm : Has m sz sz nt nt (trinvMem d (tileStart sz nt) A W (tileStart sz (k + 1)))) :
    ∃ m', trinvStepL lp d nt m k = some m' ∧
      Has m' sz sz nt nt (trinvMem d (tileStart sz nt) A W (tileStart sz k)) := by
  obtain ⟨N, hN⟩ : ∃ N, N = tileStart sz nt := ⟨_, rfl⟩
  rw [← hN] at hn w1 w2 w3 hm ⊢
  -- the rows of tile `k` are still those of `A`
  have hrowk : ∀ j < nt, IsBlk sz sz k j (m (k, j)) A := by
    intro j hj
    refine (hm k hk j hj).congr ?_
    intro x y hx hy
    unfold trinvMem
    rw [if_pos hx.2, ite_self]
  have hkk := hrowk k hk
  have hnk : d = .Unit ∨ ∀ x, inTile sz k x → A x x ≠ 0 :=
    hn.imp id fun h x hx => h x (by rw [hN]; exact inTile_lt hx hk)
  -- the diagonal block of the inverse
  have hLW : ∀ x y, inTile sz k x → inTile sz k y →
      tsum sz k (fun z => triE .Lower d A x z * W z y) = if x = y then 1 else 0 := by
    intro x y hx hy
    rw [← w2 x (by rw [hN]; exact inTile_lt hx hk) y (by rw [hN]; exact inTile_lt hy hk), hN]
    refine (sum_one_tile sz hk ?_ ?_).symm
    · intro z hz
      rw [w0 z y (lt_of_lt_of_le hz hy.1), mul_zero]
    · intro z hz _
      rw [triE_upper (lt_of_lt_of_le hx.2 hz), zero_mul]
  -- first loop
  obtain ⟨m1, e1, q1, o1⟩ := forM'_own (upto (k + 1) nt) (fun z => if z.2 ≤ k then some z.1 else none)
    (fun m i => do
      let m ← m.write (i, k) (lp.tileTrsm .Right .Lower .NoTrans d (-1) (m (k, k)) (m (i, k)))
      forM' (upto 0 k) m fun m j => m.write (i, j) (gemm .NoTrans .NoTrans 1 (m (i, k)) (m (k, j)) 1 (m (i, j))))
    m (fun z b => IsBlk sz sz z.1 z.2 b (trinvMem d N A W (tileStart sz k))) (upto_nodup _ _) (by
    intro i hi s hs
    rw [mem_upto] at hi
    have hs1 : ∀ j ≤ k, s (i, j) = m (i, j) := by
      intro j hj
      refine hs (i, j) (Or.inl ?_)
      simp [hj]
    have hs2 : ∀ j, s (k, j) = m (k, j) := by
      intro j
      refine hs (k, j) (Or.inr ?_)
      intro y hy h
      rw [mem_upto] at hy
      simp only at h
      split at h
      · have := Option.some.inj h; omega
      · cases h
    -- the solution is block `(i, k)` of `W`
    have hik : IsBlk sz sz i k (s (i, k)) (fun x y => ∑ l ∈ Finset.Ico (tileStart sz (k + 1)) N, W x l * triE .Lower d A l y) := by
      rw [hs1 k (le_refl _)]
      refine (hm i hi.2 k hk).congr ?_
      intro x y hx hy
      unfold trinvMem
      have := inTile_lt_of hy hx (by omega)
      have h2 := inTile_ge hx (show k + 1 ≤ i by omega)
      rw [if_pos (Or.inl this), if_neg (by omega), if_pos hy.2]
    obtain ⟨b, hb1, hb2⟩ := blk_trsm_right hl .Lower .NoTrans d (-1) (a := s (k, k)) (G := W) (by rw [hs2 k]; exact hkk) hnk hik (by
      intro x y hx hy
      have hxy := inTile_lt_of hy hx (by omega)
      have h3 := w3 x (by rw [hN]; exact inTile_lt hx hi.2) y (by rw [hN]; exact inTile_lt hy hk)
      rw [if_neg (by omega), hN, sum_from_tile sz (show k ≤ nt by omega) (by
        intro z hz
        rw [triE_upper (lt_of_lt_of_le hz hy.1), mul_zero]), trail_split sz hk, ← hN] at h3
      show tsum sz k (fun z => W x z * triE .Lower d A z y) = _
      linear_combination h3)
    obtain ⟨s1, f1, f2, f3⟩ := write_of (m := s) (w := (i, k)) hb1
    obtain ⟨s2, g1, g2, g3⟩ := forM'_own (upto 0 k) (fun z => if z.1 = i ∧ z.2 < k then some z.2 else none)
      (fun m j => m.write (i, j) (gemm .NoTrans .NoTrans 1 (m (i, k)) (m (k, j)) 1 (m (i, j))))
      s1 (fun z b => IsBlk sz sz z.1 z.2 b (trinvMem d N A W (tileStart sz k))) (upto_nodup _ _) (by
      intro j hj t ht
      rw [mem_upto] at hj
      have t1 : t (i, k) = b := by
        rw [ht (i, k) (Or.inr (by intro y _; simp)), f2]
      have t2 : t (k, j) = m (k, j) := by
        rw [ht (k, j) (Or.inr (by intro y _; rw [if_neg (by simp; omega)]; simp)),
          f3 _ (by intro h; have := (Prod.mk.inj h).1; omega), hs2]
      have t3 : t (i, j) = m (i, j) := by
        rw [ht (i, j) (Or.inl (by simp [hj.2])), f3 _ (by intro h; have := (Prod.mk.inj h).2; omega), hs1 j (by omega)]
      obtain ⟨c, c1, c2⟩ := blk_gemm .NoTrans .NoTrans 1 1 (a := t (i, k)) (b := t (k, j)) (c := t (i, j))
        (by rw [t1]; exact hb2) (by rw [t2]; exact hrowk j (by omega)) (by rw [t3]; exact hm i hi.2 j (by omega))
      obtain ⟨t', u1, u2, u3⟩ := write_of (m := t) (w := (i, j)) c1
      refine ⟨t', u1, ?_, ?_⟩
      · rintro ⟨z1, z2⟩ hz
        simp only at hz
        split at hz
        · rename_i hcond
          obtain ⟨rfl, _⟩ := hcond
          cases hz
          rw [u2]
          refine c2.congr ?_
          intro x y hx hy
          have hxy := inTile_lt_of hy hx (show j < z1 by omega)
          have h2 := inTile_ge hx (show k + 1 ≤ z1 by omega)
          have h2' := inTile_ge hx (show k ≤ z1 by omega)
          have h3 := inTile_lt hy (show j < k + 1 by omega)
          have h3' := inTile_lt hy (show j < k by omega)
          unfold trinvMem
          rw [if_pos (Or.inl hxy), if_neg (by omega), if_pos h3, if_pos (Or.inl hxy), if_neg (by omega), if_pos h3', hN,
            trail_split sz hk, one_mul, one_mul]
          congr 1
          refine tsum_congr fun z hz => ?_
          rw [triE_of_lt (inTile_lt_of hy hz (by omega))]
        · cases hz
      · rintro ⟨z1, z2⟩ hz
        refine u3 _ ?_
        intro h
        cases h
        exact hz (by simp [hj.2]))
    refine ⟨s2, ?_, ?_, ?_⟩
    · rw [f1]; exact g1
    · rintro ⟨z1, z2⟩ hz
      simp only at hz
      split at hz
      · rename_i hle
        cases hz
        rcases Nat.lt_or_eq_of_le hle with h | h
        · exact g2 (i, z2) z2 (by rw [mem_upto]; omega) (by simp [h])
        · subst h
          rw [g3 _ (by intro y _; simp), f2]
          refine hb2.congr ?_
          intro x y hx hy
          unfold trinvMem
          rw [if_pos (Or.inl (inTile_lt_of hy hx (by omega))), if_neg (by have := inTile_ge hx (show z2 ≤ i by omega); omega),
            if_neg (by have := hy.1; omega)]
      · cases hz
    · rintro ⟨z1, z2⟩ hz
      rw [g3, f3]
      · intro h; cases h; exact hz (by simp)
      · intro y hy h
        rw [mem_upto] at hy
        simp only at h
        split at h
        · rename_i hc
          obtain ⟨rfl, hc2⟩ := hc
          exact hz (by simp; omega)
        · cases h)
  have o1' : ∀ j, m1 (k, j) = m (k, j) := by
    intro j
    refine o1 _ ?_
    intro y hy h
    rw [mem_upto] at hy
    simp only at h
    split at h
    · cases h; omega
    · cases h
  -- second loop
  obtain ⟨m2, e2, q2, o2⟩ := forM'_own (upto 0 k) (fun z => if z.1 = k ∧ z.2 < k then some z.2 else none)
    (fun m j => m.write (k, j) (lp.tileTrsm .Left .Lower .NoTrans d 1 (m (k, k)) (m (k, j))))
    m1 (fun z b => IsBlk sz sz z.1 z.2 b (trinvMem d N A W (tileStart sz k))) (upto_nodup _ _) (by
    intro j hj t ht
    rw [mem_upto] at hj
    have t1 : t (k, k) = m (k, k) := by
      rw [ht (k, k) (Or.inr (by intro y _; simp)), o1']
    have t2 : t (k, j) = m (k, j) := by
      rw [ht (k, j) (Or.inl (by simp [hj.2])), o1']
    obtain ⟨b, hb1, hb2⟩ := blk_trsm_left hl .Lower .NoTrans d 1 (a := t (k, k)) (b := t (k, j))
      (G := fun x y => tsum sz k fun l => W x l * A l y) (by rw [t1]; exact hkk) hnk
      (by rw [t2]; exact hrowk j (by omega)) (by
      intro x y hx hy
      show tsum sz k (fun z => triE .Lower d A x z * tsum sz k fun l => W z l * A l y) = _
      have : tsum sz k (fun z => triE .Lower d A x z * tsum sz k fun l => W z l * A l y) =
          tsum sz k fun l => (tsum sz k fun z => triE .Lower d A x z * W z l) * A l y := by
        unfold tsum
        simp only [Finset.mul_sum, Finset.sum_mul]
        rw [Finset.sum_comm]
        refine Finset.sum_congr rfl fun _ _ => Finset.sum_congr rfl fun _ _ => ?_
        ring
      rw [this, tsum_congr (g := fun l => if x = l then A l y else 0) (by
        intro z hz
        rw [hLW x z hx hz]
        split <;> simp)]
      obtain ⟨r, hr, rfl⟩ := inTile_exists hx
      unfold tsum
      simp only [Nat.add_left_cancel_iff]
      rw [Finset.sum_ite_eq (Finset.range (sz k)) r, if_pos (Finset.mem_range.2 hr), one_mul])
    obtain ⟨t', u1, u2, u3⟩ := write_of (m := t) (w := (k, j)) hb1
    refine ⟨t', u1, ?_, ?_⟩
    · rintro ⟨z1, z2⟩ hz
      simp only at hz
      split at hz
      · rename_i hcond
        obtain ⟨rfl, _⟩ := hcond
        cases hz
        rw [u2]
        refine hb2.congr ?_
        intro x y hx hy
        have hxy := inTile_lt_of hy hx (show j < z1 by omega)
        have h1 := hx.1
        have h3' := inTile_lt hy (show j < z1 by omega)
        unfold trinvMem
        rw [if_pos (Or.inl hxy), if_neg (by omega), if_pos h3', hN, trail_split sz hk]
        rw [Finset.sum_eq_zero (s := Finset.Ico _ _), add_zero]
        · refine tsum_congr fun z hz => ?_
          rw [triE_of_lt (inTile_lt_of hy hz (by omega))]
        · intro z hz
          rw [Finset.mem_Ico] at hz
          rw [w0 x z (lt_of_lt_of_le hx.2 hz.1), zero_mul]
      · cases hz
    · rintro ⟨z1, z2⟩ hz
      refine u3 _ ?_
      intro h
      cases h
      exact hz (by simp [hj.2]))
  have hkk2 : m2 (k, k) = m (k, k) := by
    rw [o2 _ (by intro y _; simp), o1']
  -- the diagonal tile
  obtain ⟨b, hb1, hb2, hb3, hb4, hb5⟩ := blk_trtri hl .Lower d (a := m2 (k, k)) (G := W) (by rw [hkk2]; exact hkk) hnk hLW
  obtain ⟨m3, u1, u2, u3⟩ := write_of (m := m2) (w := (k, k)) hb1
  refine ⟨m3, ?_, ?_⟩
  · unfold trinvStepL
    simp only [Option.bind_eq_bind] at e1 e2 ⊢
    rw [e1, Option.bind_some, e2, Option.bind_some, u1]
  · intro i hi j hj
    by_cases hkk' : (i, j) = (k, k)
    · cases hkk'
      rw [u2]
      refine ⟨hb2, hb3, ?_⟩
      intro r hr c hc
      unfold trinvMem
      by_cases ht : inTri .Lower d r c
      · rw [if_pos (show tileStart sz k + c < tileStart sz k + r ∨ (tileStart sz k + c = tileStart sz k + r ∧ d = .NonUnit) from
          ht.imp (fun h => by omega) fun h => ⟨by rw [h.1], h.2⟩), if_neg (by omega), if_neg (by omega)]
        exact hb4 r hr c hc ht
      · rw [if_neg (show ¬ (tileStart sz k + c < tileStart sz k + r ∨ (tileStart sz k + c = tileStart sz k + r ∧ d = .NonUnit)) from
          fun h' => ht (h'.imp (fun h => by omega) fun h => ⟨by omega, h.2⟩))]
        exact hb5 r hr c hc ht
    · rw [u3 _ hkk']
      rcases Nat.lt_trichotomy i k with hik | hik | hik
      · -- rows above
        rw [o2 _ (by intro y _; rw [if_neg (by simp; omega)]; simp), o1 _ (by
          intro y hy h
          rw [mem_upto] at hy
          simp only at h
          split at h
          · cases h; omega
          · cases h)]
        refine (hm i hi j hj).congr ?_
        intro x y hx hy
        unfold trinvMem
        rw [if_pos (inTile_lt hx (by omega)), if_pos (inTile_lt hx hik)]
      · subst hik
        rcases Nat.lt_trichotomy j i with hji | hji | hji
        · exact q2 (i, j) j (by rw [mem_upto]; omega) (by simp [hji])
        · exact absurd (by rw [hji]) hkk'
        · rw [o2 _ (by intro y _; rw [if_neg (by simp; omega)]; simp), o1']
          refine (hm i hi j hj).congr ?_
          intro x y hx hy
          unfold trinvMem
          have := inTile_lt_of hx hy hji
          rw [if_neg (by omega), if_neg (by omega)]
      · rw [o2 _ (by intro y _; rw [if_neg (by simp; omega)]; simp)]
        by_cases hjk : j ≤ k
        · exact q1 (i, j) i (by rw [mem_upto]; omega) (by simp [hjk])
        · rw [o1 _ (by intro y _; simp [hjk])]
          refine (hm i hi j hj).congr ?_
          intro x y hx hy
          unfold trinvMem
          have h1 := inTile_ge hx (show k + 1 ≤ i by omega)
          have h2 := inTile_ge hy (show k + 1 ≤ j by omega)
          have h3 := tileStart_mono sz (show k ≤ k + 1 by omega)
          rw [if_neg (show ¬ x < tileStart sz (k + 1) by omega), if_neg (show ¬ y < tileStart sz (k + 1) by omega),
            if_neg (show ¬ x < tileStart sz k by omega), if_neg (show ¬ y < tileStart sz k by omega)]

end

/-- The triangular inverse, lower. -/
theorem trinvL_spec {lp : Lapack K} {pos : K → Prop} (hl : LapackSpec lp pos) {d : Diag} {sz : Nat → Nat} {nt : Nat}
    {A : Nat → Nat → K} (hn : d = .Unit ∨ ∀ i < tileStart sz nt, A i i ≠ 0) {m : Tiles K} (hm : Has m sz sz nt nt A) :
    ∃ m' W, trinvL lp d nt m = some m' ∧ Has m' sz sz nt nt W ∧
      (∀ x < tileStart sz nt, ∀ y < tileStart sz nt, ∑ l ∈ Finset.range (tileStart sz nt),
        triE .Lower d A x l * triE .Lower d W l y = if x = y then 1 else 0) ∧
      (∀ x y, ¬ inTri .Lower d x y → W x y = A x y) := by
  obtain ⟨W, w0, w1, w2, w3⟩ := lower_inverse hn
  obtain ⟨m', h1, h2⟩ := forM'_list_inv (b := fun m k => trinvStepL lp d nt m k) (downto nt 0)
    (fun done s => Has s sz sz nt nt (trinvMem d (tileStart sz nt) A W (tileStart sz (nt - done.length)))) (by
      intro done x rest s hs hI
      have hlen : done.length + (1 + rest.length) = nt := by
        have := congrArg List.length hs
        simp [downto, upto] at this
        omega
      have hx : x = nt - 1 - done.length := by
        have : (downto nt 0)[done.length]? = some x := by rw [hs]; simp
        unfold downto upto at this
        rw [List.getElem?_reverse (by simp; omega)] at this
        rw [List.getElem?_range' (by simp; omega)] at this
        simp at this
        omega
      have hx1 : nt - done.length = x + 1 := by omega
      have hx2 : nt - (done ++ [x]).length = x := by simp; omega
      rw [hx1] at hI
      obtain ⟨s', g1, g2⟩ := trinvStepL_spec hl hn w0 w1 w2 w3 (show x < nt by omega) hI
      refine ⟨s', g1, ?_⟩
      beta_reduce
      rw [hx2]
      exact g2) (s := m) (by
      intro i hi j hj
      refine (hm i hi j hj).congr ?_
      intro x y hx hy
      unfold trinvMem
      rw [List.length_nil, Nat.sub_zero, if_pos (inTile_lt hx hi), ite_self])
  have hlen : (downto nt 0).length = nt := by simp [downto, upto]
  rw [hlen, Nat.sub_self] at h2
  refine ⟨m', _, h1, h2, ?_, ?_⟩
  · intro x hx y hy
    rw [← w2 x hx y hy]
    refine Finset.sum_congr rfl fun l hl' => ?_
    rw [Finset.mem_range] at hl'
    congr 1
    have h0 : tileStart sz 0 = 0 := rfl
    unfold triE trinvMem
    rw [h0]
    rcases Nat.lt_trichotomy l y with h | h | h
    · rw [if_neg (by omega)]
      simp only
      rw [if_neg (by omega), w0 l y h]
    · subst h
      rw [if_pos rfl]
      cases d
      · simp
      · simp only [if_true]
        exact (w1 rfl l hl').symm
    · rw [if_neg (by omega)]
      simp only
      rw [if_pos h, if_pos (Or.inl h), if_neg (by omega), if_neg (by omega)]
  · intro x y ht
    unfold trinvMem
    exact if_neg ht

/-- The matrix in memory when the rows `< s` have been assembled. -/
def asmMem (M : Nat → Nat → K) (s : Nat) (x y : Nat) : K :=
  if y ≤ x ∧ x < s then
    ∑ l ∈ Finset.range s, star (triE .Lower .NonUnit M l x) * triE .Lower .NonUnit M l y
  else M x y

theorem assembleStepL_spec {lp : Lapack K} {pos : K → Prop} (hl : LapackSpec lp pos) {sz : Nat → Nat} {nt : Nat}
    {M : Nat → Nat → K} {k : Nat} (hk : k < nt) {m : Tiles K} (hm : Has m sz sz nt nt (asmMem M (tileStart sz k))) :
    ∃ m', assembleStepL lp m k = some m' ∧ Has m' sz sz nt nt (asmMem M (tileStart sz (k + 1))) := by
  have hrow : ∀ i, k ≤ i → i < nt → ∀ j < nt, IsBlk sz sz i j (m (i, j)) M := by
    intro i hi hi' j hj
    refine (hm i hi' j hj).congr ?_
    intro x y hx hy
    unfold asmMem
    rw [if_neg (by have := inTile_ge hx hi; omega)]
  obtain ⟨m1, e1, q1, o1⟩ := forM'_own (upto 0 k) (fun z => if z.2 ≤ z.1 ∧ z.1 < k then some z.1 else none)
    (fun m i => do
      let m ← forM' (upto 0 i) m fun m j =>
        m.write (i, j) (gemm .ConjTrans .NoTrans 1 (m (k, i)) (m (k, j)) 1 (m (i, j)))
      m.write (i, i) (herk .Lower .ConjTrans 1 (m (k, i)) 1 (m (i, i))))
    m (fun z b => IsBlk sz sz z.1 z.2 b (asmMem M (tileStart sz (k + 1)))) (upto_nodup _ _) (by
    intro i hi s hs
    rw [mem_upto] at hi
    have hs1 : ∀ j ≤ i, s (i, j) = m (i, j) := by
      intro j hj
      refine hs (i, j) (Or.inl ?_)
      simp [hj, hi.2]
    have hs2 : ∀ j, s (k, j) = m (k, j) := by
      intro j
      exact hs (k, j) (Or.inr (by intro y _; simp))
    obtain ⟨s1, f1, f2, f3⟩ := forM'_own (upto 0 i) (fun z => if z.1 = i ∧ z.2 < i then some z.2 else none)
      (fun m j => m.write (i, j) (gemm .ConjTrans .NoTrans 1 (m (k, i)) (m (k, j)) 1 (m (i, j))))
      s (fun z b => IsBlk sz sz z.1 z.2 b (asmMem M (tileStart sz (k + 1)))) (upto_nodup _ _) (by
      intro j hj t ht
      rw [mem_upto] at hj
      have t1 : ∀ l, t (k, l) = m (k, l) := by
        intro l
        rw [ht (k, l) (Or.inr (by intro y _; rw [if_neg (by simp; omega)]; simp)), hs2]
      have t3 : t (i, j) = m (i, j) := by
        rw [ht (i, j) (Or.inl (by simp [hj.2])), hs1 j (by omega)]
      obtain ⟨c, c1, c2⟩ := blk_gemm .ConjTrans .NoTrans 1 1 (a := t (k, i)) (b := t (k, j)) (c := t (i, j))
        (by rw [t1]; exact (hrow k (le_refl _) hk i (by omega)).op)
        (by rw [t1]; exact hrow k (le_refl _) hk j (by omega)) (by rw [t3]; exact hm i (by omega) j (by omega))
      obtain ⟨t', u1, u2, u3⟩ := write_of (m := t) (w := (i, j)) c1
      refine ⟨t', u1, ?_, ?_⟩
      · rintro ⟨z1, z2⟩ hz
        simp only at hz
        split at hz
        · rename_i hcond
          obtain ⟨rfl, _⟩ := hcond
          cases hz
          rw [u2]
          refine c2.congr ?_
          intro x y hx hy
          have hxy := inTile_lt_of hy hx hj.2
          have hx1 := inTile_lt hx hi.2
          have hx2 := inTile_lt hx (show z1 < k + 1 by omega)
          unfold asmMem adjE
          rw [if_pos ⟨by omega, hx1⟩, if_pos ⟨by omega, hx2⟩, lead_split, one_mul, one_mul, add_comm]
          congr 1
          refine tsum_congr fun z hz => ?_
          rw [triE_of_lt (inTile_lt_of hx hz hi.2), triE_of_lt (inTile_lt_of hy hz (by omega))]
        · cases hz
      · rintro ⟨z1, z2⟩ hz
        refine u3 _ ?_
        intro h
        cases h
        exact hz (by simp [hj.2]))
    have g1 : ∀ l, s1 (k, l) = m (k, l) := by
      intro l
      rw [f3 _ (by intro y _; rw [if_neg (by simp; omega)]; simp), hs2]
    have g2 : s1 (i, i) = m (i, i) := by
      rw [f3 _ (by intro y _; simp), hs1 i (le_refl _)]
    obtain ⟨c, c1, c2⟩ := blk_herk_lower .ConjTrans 1 1 (a := s1 (k, i)) (c := s1 (i, i))
      (by rw [g1]; exact (hrow k (le_refl _) hk i (by omega)).op) (by rw [g2]; exact hm i (by omega) i (by omega))
    obtain ⟨s2, u1, u2, u3⟩ := write_of (m := s1) (w := (i, i)) c1
    refine ⟨s2, ?_, ?_, ?_⟩
    · rw [f1]; exact u1
    · rintro ⟨z1, z2⟩ hz
      simp only at hz
      split at hz
      · rename_i hle
        cases hz
        rcases Nat.lt_or_eq_of_le hle.1 with h | h
        · rw [u3 _ (by intro h'; cases h'; omega)]
          exact f2 (i, z2) z2 (by rw [mem_upto]; omega) (by simp [h])
        · subst h
          rw [u2]
          refine c2.congr ?_
          intro x y hx hy
          have hx1 := inTile_lt hx hi.2
          have hx2 := inTile_lt hx (show z2 < k + 1 by omega)
          unfold asmMem adjE
          by_cases hyx : y ≤ x
          · rw [if_pos hyx, if_pos ⟨hyx, hx1⟩, if_pos ⟨hyx, hx2⟩, lead_split, one_mul, one_mul, add_comm]
            congr 1
            refine tsum_congr fun z hz => ?_
            rw [triE_of_lt (inTile_lt_of hx hz hi.2), triE_of_lt (inTile_lt_of hy hz hi.2), star_star]
          · rw [if_neg hyx, if_neg (by tauto), if_neg (by tauto)]
      · cases hz
    · rintro ⟨z1, z2⟩ hz
      rw [u3, f3]
      · intro y hy h
        rw [mem_upto] at hy
        simp only at h
        split at h
        · rename_i hc
          obtain ⟨rfl, hc2⟩ := hc
          exact hz (by simp; omega)
        · cases h
      · intro h; cases h; exact hz (by simp [hi.2]))
  have o1' : ∀ i, k ≤ i → ∀ j, m1 (i, j) = m (i, j) := by
    intro i hi j
    exact o1 _ (by intro y _; rw [if_neg (by simp; omega)]; simp)
  obtain ⟨m2, e2, q2, o2⟩ := forM'_own (upto 0 k) (fun z => if z.1 = k ∧ z.2 < k then some z.2 else none)
    (fun m j => m.write (k, j) (trmm .Left .Lower .ConjTrans .NonUnit 1 (m (k, k)) (m (k, j))))
    m1 (fun z b => IsBlk sz sz z.1 z.2 b (asmMem M (tileStart sz (k + 1)))) (upto_nodup _ _) (by
    intro j hj t ht
    rw [mem_upto] at hj
    have t1 : t (k, k) = m (k, k) := by
      rw [ht (k, k) (Or.inr (by intro y _; simp)), o1' k (le_refl _)]
    have t2 : t (k, j) = m (k, j) := by
      rw [ht (k, j) (Or.inl (by simp [hj.2])), o1' k (le_refl _)]
    obtain ⟨b, hb1, hb2⟩ := blk_trmm_left .Lower .ConjTrans .NonUnit 1 (a := t (k, k)) (b := t (k, j))
      (by rw [t1]; exact hrow k (le_refl _) hk k hk) (by rw [t2]; exact hrow k (le_refl _) hk j (by omega))
    obtain ⟨t', u1, u2, u3⟩ := write_of (m := t) (w := (k, j)) hb1
    refine ⟨t', u1, ?_, ?_⟩
    · rintro ⟨z1, z2⟩ hz
      simp only at hz
      split at hz
      · rename_i hcond
        obtain ⟨rfl, _⟩ := hcond
        cases hz
        rw [u2]
        refine hb2.congr ?_
        intro x y hx hy
        have hxy := inTile_lt_of hy hx hj.2
        unfold asmMem
        rw [if_pos ⟨by omega, hx.2⟩, lead_split, Finset.sum_eq_zero, zero_add, one_mul]
        · refine tsum_congr fun z hz => ?_
          rw [triE_of_lt (A := M) (inTile_lt_of hy hz hj.2)]
          rfl
        · intro l hl'
          rw [Finset.mem_range] at hl'
          rw [triE_upper (lt_of_lt_of_le hl' hx.1), star_zero, zero_mul]
      · cases hz
    · rintro ⟨z1, z2⟩ hz
      refine u3 _ ?_
      intro h
      cases h
      exact hz (by simp [hj.2]))
  have hkk2 : m2 (k, k) = m (k, k) := by
    rw [o2 _ (by intro y _; simp), o1' k (le_refl _)]
  obtain ⟨b, hb1, hb2⟩ := blk_lauum_lower hl (a := m2 (k, k)) (by rw [hkk2]; exact hrow k (le_refl _) hk k hk)
  obtain ⟨m3, u1, u2, u3⟩ := write_of (m := m2) (w := (k, k)) hb1
  refine ⟨m3, ?_, ?_⟩
  · unfold assembleStepL
    simp only [Option.bind_eq_bind] at e1 e2 ⊢
    rw [e1, Option.bind_some, e2, Option.bind_some, u1]
  · intro i hi j hj
    by_cases hkk' : (i, j) = (k, k)
    · cases hkk'
      rw [u2]
      refine hb2.congr ?_
      intro x y hx hy
      unfold asmMem
      by_cases hyx : y ≤ x
      · rw [if_pos hyx, if_pos ⟨hyx, hx.2⟩, lead_split, Finset.sum_eq_zero, zero_add]
        intro l hl'
        rw [Finset.mem_range] at hl'
        rw [triE_upper (lt_of_lt_of_le hl' hx.1), star_zero, zero_mul]
      · rw [if_neg hyx, if_neg (by tauto)]
    · rw [u3 _ hkk']
      by_cases hc1 : i = k ∧ j < k
      · exact q2 (i, j) j (by rw [mem_upto]; omega) (by simp [hc1])
      · rw [o2 _ (by intro y _; rw [if_neg (by simpa using hc1)]; simp)]
        by_cases hc2 : j ≤ i ∧ i < k
        · exact q1 (i, j) i (by rw [mem_upto]; omega) (by simp [hc2])
        · rw [o1 _ (by intro y _; rw [if_neg (by simpa using hc2)]; simp)]
          refine (hm i hi j hj).congr ?_
          intro x y hx hy
          unfold asmMem
          have hne : ¬ (i = k ∧ j = k) := fun h => hkk' (by rw [h.1, h.2])
          by_cases hki : k < i
          · have h1 := inTile_ge hx (show k + 1 ≤ i by omega)
            have h2 := inTile_ge hx (show k ≤ i by omega)
            rw [if_neg (by omega), if_neg (by omega)]
          · have := inTile_lt_of hx hy (show i < j by omega)
            rw [if_neg (by omega), if_neg (by omega)]

/-- The assembly, lower. -/
theorem assembleL_spec {lp : Lapack K} {pos : K → Prop} (hl : LapackSpec lp pos) {sz : Nat → Nat} {nt : Nat}
    {M : Nat → Nat → K} {m : Tiles K} (hm : Has m sz sz nt nt M) :
    ∃ m', assembleL lp nt m = some m' ∧ Has m' sz sz nt nt (asmMem M (tileStart sz nt)) := by
  refine forM'_inv (fun k s => Has s sz sz nt nt (asmMem M (tileStart sz k))) ?_ ?_
  · intro k hk s hI
    exact assembleStepL_spec hl hk hI
  · intro i hi j hj
    refine (hm i hi j hj).congr ?_
    intro x y _ _
    unfold asmMem
    rw [if_neg (by rw [show tileStart sz 0 = 0 from rfl]; omega)]

end DLAF
