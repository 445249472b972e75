import Verif.Lemmas.BtRedBand
/- C45: back-transformation of the reduction to band (local). -/
namespace DLAF
variable {K : Type*} [Field K] [StarRing K]

/-- The tiles of the panel hold the stored reflectors. -/
theorem btTileV_win {n mb b nr k : Nat} (hmb : 0 < mb) (hnr : nr = min mb (n - b - 1 - k * mb)) (hpos : 0 < nr)
    (V : Elems K) {p : Nat × Nat} (hp : p ∈ pieces mb n (k * mb + b)) :
    IsWin (btTileV n mb b nr k V p) (fun x c => storedRefl b V x (k * mb + c)) p.1 0 p.2 nr := by
  unfold pieces at hp
  obtain ⟨i, hi, rfl⟩ := List.mem_map.1 hp
  rw [mem_upto] at hi
  generalize hoff : k * mb + b = off at hi
  have hdm := Nat.div_add_mod off mb
  have hml := Nat.mod_lt off hmb
  have hin : i * mb < n := by
    have := hi.2
    rw [Nat.lt_iff_add_one_le, Nat.le_div_iff_mul_le hmb, Nat.add_mul] at this
    omega
  have hlt : ∀ j, j < i ∨ j = i ∨ i < j := fun j => by omega
  -- the tile row
  have hdiv : (i * mb + (if i = off / mb then off % mb else 0)) / mb = i := by
    rw [Nat.mul_comm, Nat.mul_add_div hmb, Nat.div_eq_of_lt (by split <;> omega), Nat.add_zero]
  -- the first row of the piece in terms of `jd`
  have hrow : i * mb + (if i = off / mb then off % mb else 0) = off + (i * mb - off) := by
    split
    · rename_i h; subst h; rw [Nat.mul_comm]; omega
    · have : off / mb + 1 ≤ i := by omega
      have := Nat.mul_le_mul_right mb this
      rw [Nat.add_mul, Nat.mul_comm] at this
      omega
  have hfull : i * mb - off ≠ 0 → (if i = off / mb then off % mb else 0) = 0 := by
    intro h
    rw [if_neg]
    rintro rfl
    rw [Nat.mul_comm] at h
    omega
  unfold btTileV
  dsimp only
  rw [hdiv, hoff]
  generalize hcut : (if i = off / mb then off % mb else 0) = cut at *
  generalize hjd : i * mb - off = jd at *
  have hval : ∀ r c, storedRefl b V (i * mb + cut + r) (k * mb + c) =
      if jd + r < c then 0 else if jd + r = c then 1 else V (i * mb + cut + r) (k * mb + c) := by
    intro r c
    unfold storedRefl
    by_cases h1 : jd + r < c
    · rw [if_pos h1, if_pos (by omega)]
    · rw [if_neg h1, if_neg (by omega)]
      by_cases h2 : jd + r = c
      · rw [if_pos h2, if_pos (by omega)]
      · rw [if_neg h2, if_neg (by omega)]
  by_cases h1 : jd < nr
  · rw [if_pos h1]
    refine ⟨rfl, rfl, fun r _ c _ => ?_⟩
    rw [Nat.zero_add]; beta_reduce; rw [hval]
    simp only [lasetHH, getB]
    by_cases h2 : c < jd
    · rw [if_pos h2, if_neg (show ¬ jd + r < c by omega), if_neg (show ¬ jd + r = c by omega)]
    · rw [if_neg h2]
      by_cases h3 : r < c - jd
      · rw [if_pos h3, if_pos (show jd + r < c by omega)]
      · rw [if_neg h3, if_neg (show ¬ jd + r < c by omega)]
        by_cases h4 : r = c - jd
        · rw [if_pos h4, if_pos (show jd + r = c by omega)]
        · rw [if_neg h4, if_neg (show ¬ jd + r = c by omega)]
  · rw [if_neg h1]
    by_cases h2 : jd < mb
    · rw [if_pos h2]
      refine ⟨rfl, rfl, fun r _ c hc => ?_⟩
      rw [Nat.zero_add]; beta_reduce; rw [hval, if_neg (by omega), if_neg (by omega)]
      rfl
    · rw [if_neg h2]
      have hc0 : cut = 0 := hfull (by omega)
      subst hc0
      have hmbn : mb ≤ n - k * mb ∧ nr = mb := by omega
      refine ⟨rfl, by simp only [getB]; omega, fun r _ c hc => ?_⟩
      rw [Nat.zero_add]; beta_reduce; rw [hval, if_neg (by omega), if_neg (by omega)]
      rfl

/-- C45, one block. -/
theorem btStep_spec {avail n ncols mb nbc b k : Nat} (ha : 0 < avail) (hmb : 0 < mb) (hnb : 0 < nbc)
    (hk : k * mb < n - b - 1) (junk : Nat → Elems K) (V : Elems K) (taus : Nat → K) (C : Elems K) :
    ∃ C', btStep avail junk n ncols mb nbc b V taus C k = some C' ∧
      toM n ncols C' = reflectorProd n (fun x j => storedRefl b V x (k * mb + j)) (fun j => taus (k * mb + j))
        (min mb (n - b - 1 - k * mb)) * toM n ncols C ∧ ∀ x y, ¬ (x < n ∧ y < ncols) → C' x y = C x y := by
  have hoff : k * mb + b < n := by omega
  have hpos : 0 < min mb (n - b - 1 - k * mb) := by omega
  have hch := pieces_chain hmb hoff
  have hne : pieces mb n (k * mb + b) ≠ [] := by
    intro h
    rw [h] at hch
    have : k * mb + b = n := hch
    omega
  have hzero : ∀ x < k * mb + b, ∀ j < min mb (n - b - 1 - k * mb),
      (fun x j => storedRefl b V x (k * mb + j)) x j = 0 := by
    intro x hx j _
    simp only [storedRefl]
    rw [if_pos (by omega)]
  have hwin := fun p (hp : p ∈ pieces mb n (k * mb + b)) => btTileV_win hmb rfl hpos V hp
  obtain ⟨F, h1, h2, h3⟩ := tfactor_win (g := fun p => p) ha hpos hne (by simpa using hch) hwin hzero
    (taus := ⟨min mb (n - b - 1 - k * mb), 1, fun r _ => taus (k * mb + r)⟩)
    (t0 := getB (junk k) 0 0 (min mb (n - b - 1 - k * mb)) (min mb (n - b - 1 - k * mb)))
    (ws := (List.range (avail - 1)).map fun w => getB (junk k) (w * mb) 0 mb (min mb (n - b - 1 - k * mb)))
    ⟨rfl, rfl⟩ rfl (by simp) (by
      intro t ht
      obtain ⟨w, _, rfl⟩ := List.mem_map.1 ht
      simp only [getB]
      omega)
  obtain ⟨C', h4, h5, h6⟩ := bt_apply (V := fun x j => storedRefl b V x (k * mb + j)) (n := n) (ncols := ncols) h2 hnb
    (vs := (pieces mb n (k * mb + b)).map fun p => (p, btTileV n mb b (min mb (n - b - 1 - k * mb)) k V p))
    (by rw [List.map_map]; simpa [Function.comp_def] using hch) (by
      intro v hv
      obtain ⟨p, hp, rfl⟩ := List.mem_map.1 hv
      exact hwin p hp) hzero (junk k) C
  refine ⟨C', ?_, by rw [h5, h3], h6⟩
  unfold btStep
  dsimp only
  simp only [Option.bind_eq_bind]
  rw [List.map_map]
  simp only [Function.comp_def]
  rw [h1, Option.bind_some]
  exact h4

/-- C45: for every order `n`, band width `b`, number of columns, tile sizes and number of workers, the call returns, overwrites
`C` with `H_0 H_1 ... H_{r-1} C` where `r = n - b - 1` (no reflector if `n ≤ b + 1`) and the reflectors are those stored below
the `b`-th subdiagonal of `V`, and nothing outside the `n × ncols` elements of `C` changes. -/
theorem C45_bt_reduction_to_band {avail n ncols mb nbc b : Nat} (ha : 0 < avail) (hmb : 0 < mb) (hnb : 0 < nbc)
    (junk : Nat → Elems K) (V : Elems K) (taus : Nat → K) (C : Elems K) :
    ∃ C', btReductionToBand avail junk n ncols mb nbc b V taus C = some C' ∧
      toM n ncols C' = reflectorProd n (storedRefl b V) taus (n - b - 1) * toM n ncols C ∧
      ∀ x y, ¬ (x < n ∧ y < ncols) → C' x y = C x y := by
  unfold btReductionToBand
  by_cases h0 : n = 0 ∨ ncols = 0
  · rw [if_pos h0]
    refine ⟨C, rfl, ?_, fun _ _ _ => rfl⟩
    ext x y
    have := x.2
    have := y.2
    omega
  rw [if_neg h0]
  by_cases h1 : n ≤ b + 1
  · rw [if_pos h1, show n - b - 1 = 0 by omega]
    exact ⟨C, rfl, by simp [reflectorProd], fun _ _ _ => rfl⟩
  rw [if_neg h1]
  have hblk : ∀ k, k < ceilDivN (n - b - 1) mb → k * mb < n - b - 1 := by
    intro k hk
    unfold ceilDivN at hk
    rw [Nat.lt_iff_add_one_le, Nat.le_div_iff_mul_le hmb, Nat.add_mul] at hk
    omega
  have hdown : ∀ j, j ≤ ceilDivN (n - b - 1) mb → ∀ C : Elems K, ∃ C',
      forM' (downto (ceilDivN (n - b - 1) mb) (ceilDivN (n - b - 1) mb - j)) C (btStep avail junk n ncols mb nbc b V taus) =
        some C' ∧ toM n ncols C' =
          reflectorProd n (fun x i => storedRefl b V x ((ceilDivN (n - b - 1) mb - j) * mb + i))
            (fun i => taus ((ceilDivN (n - b - 1) mb - j) * mb + i))
            (n - b - 1 - (ceilDivN (n - b - 1) mb - j) * mb) * toM n ncols C ∧
        ∀ x y, ¬ (x < n ∧ y < ncols) → C' x y = C x y := by
    intro j
    induction j with
    | zero =>
      intro _ C
      have hle : n - b - 1 ≤ ceilDivN (n - b - 1) mb * mb := le_ceilDivN_mul _ hmb
      refine ⟨C, by rw [Nat.sub_zero, downto, upto_self]; rfl, ?_, fun _ _ _ => rfl⟩
      rw [Nat.sub_zero, show n - b - 1 - ceilDivN (n - b - 1) mb * mb = 0 by omega]
      simp [reflectorProd]
    | succ j ih =>
      intro hj C
      obtain ⟨C1, h2, h3, h4⟩ := ih (by omega) C
      generalize ceilDivN (n - b - 1) mb = nb at *
      obtain ⟨k, rfl⟩ : ∃ k, nb = k + 1 + j := ⟨nb - 1 - j, by omega⟩
      rw [show k + 1 + j - j = k + 1 by omega] at h2 h3
      rw [show k + 1 + j - (j + 1) = k by omega]
      have hk := hblk k (by omega)
      obtain ⟨C2, h5, h6, h7⟩ := btStep_spec (ncols := ncols) ha hmb hnb hk junk V taus C1
      refine ⟨C2, ?_, ?_, fun x y h => by rw [h7 x y h, h4 x y h]⟩
      · rw [downto, upto_cons (by omega), List.reverse_cons, forM'_append]
        rw [downto] at h2
        rw [h2]
        show forM' [k] C1 _ = _
        rw [forM'_cons, h5]
        rfl
      · rw [h6, h3, ← Matrix.mul_assoc]
        congr 1
        by_cases hl : (k + 1) * mb ≤ n - b - 1
        · rw [Nat.add_mul, Nat.one_mul] at hl
          rw [show min mb (n - b - 1 - k * mb) = mb by omega,
            show n - b - 1 - k * mb = mb + (n - b - 1 - (k + 1) * mb) by rw [Nat.add_mul, Nat.one_mul]; omega,
            reflectorProd_add]
          congr 1
          refine reflectorProd_congr fun i _ => ?_
          rw [Nat.add_mul, Nat.one_mul, Nat.add_assoc]
          exact ⟨fun _ _ => rfl, rfl⟩
        · rw [Nat.add_mul, Nat.one_mul] at hl
          rw [show min mb (n - b - 1 - k * mb) = n - b - 1 - k * mb by omega,
            show n - b - 1 - (k + 1) * mb = 0 by rw [Nat.add_mul, Nat.one_mul]; omega]
          simp [reflectorProd]
  obtain ⟨C', h2, h3, h4⟩ := hdown (ceilDivN (n - b - 1) mb) (Nat.le_refl _) C
  rw [Nat.sub_self] at h2 h3
  refine ⟨C', h2, ?_, h4⟩
  rw [h3, Nat.zero_mul]
  simp only [Nat.zero_add, Nat.sub_zero]

/- Non-vacuity: order 5, band 2 (two reflectors), tiles of 2 x 3, three workers, over `ℚ`; the result is not `C`. -/
section example_
private def exV : Elems ℚ := fun x j => x + 10 * j
private def exC : Elems ℚ := fun x y => x * y + 1

example : ∃ C', btReductionToBand 3 (fun _ => exV) 5 4 2 3 2 exV (fun j => j + 1) exC = some C' ∧ C' 2 0 ≠ exC 2 0 := by
  obtain ⟨C', h1, h2, _⟩ := C45_bt_reduction_to_band (avail := 3) (n := 5) (ncols := 4) (mb := 2) (nbc := 3) (b := 2)
    (by omega) (by omega) (by omega) (fun _ => exV) exV (fun j => (j : ℚ) + 1) exC
  refine ⟨C', h1, ?_⟩
  have := congrFun (congrFun h2 ⟨2, by omega⟩) ⟨0, by omega⟩
  have e : toM 5 4 C' ⟨2, by omega⟩ ⟨0, by omega⟩ = C' 2 0 := rfl
  rw [e] at this
  rw [this]
  simp [reflectorProd, reflector, storedRefl, List.range_succ, Matrix.mul_apply, Fin.sum_univ_succ, toM, exC, exV,
    Matrix.vecMulVec_apply, Matrix.one_apply]
  norm_num
end example_

end DLAF
