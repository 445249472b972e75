import Verif.Lemmas.DcMerge
/- The rank-one update of a tridiagonal matrix. -/
namespace DLAF
open scoped Matrix.Norms.L2Operator
open Matrix

/-- Entries of a tridiagonal matrix. -/
noncomputable def tridE (d e : Nat → ℝ) : Nat → Nat → ℝ := fun x y =>
  if x = y then d x else if x = y + 1 then e y else if y = x + 1 then e x else 0

theorem triM_toM (n : Nat) (d e : Nat → ℝ) : (triM n d e : Matrix (Fin n) (Fin n) ℝ) = toM n n (tridE d e) := by
  ext x y
  rfl

theorem triM_congr {n : Nat} {d e d' e' : Nat → ℝ} (hd : ∀ i < n, d i = d' i) (he : ∀ i, i + 1 < n → e i = e' i) :
    (triM n d e : Matrix (Fin n) (Fin n) ℝ) = triM n d' e' := by
  rw [triM_toM, triM_toM]
  ext x y
  show tridE d e x y = tridE d' e' x y
  have hx := x.2
  have hy := y.2
  unfold tridE
  split
  · exact hd _ hx
  · split
    · exact he _ (by omega)
    · split
      · exact he _ (by omega)
      · rfl

/-- Two diagonal blocks. -/
def blkE (n1 : Nat) (A B : Nat → Nat → ℝ) : Nat → Nat → ℝ := fun x y =>
  if x < n1 ∧ y < n1 then A x y else if n1 ≤ x ∧ n1 ≤ y then B (x - n1) (y - n1) else 0

theorem mul_toM {n : Nat} (A B : Nat → Nat → ℝ) :
    (toM n n A : Matrix (Fin n) (Fin n) ℝ) * toM n n B = toM n n (fun x y => ∑ l ∈ Finset.range n, A x l * B l y) := by
  ext x y
  rw [Matrix.mul_apply]
  show _ = ∑ l ∈ Finset.range n, A x l * B l y
  rw [Finset.sum_range]
  rfl

/-- An orthogonal matrix from two. -/
theorem blk_orth {n1 n2 : Nat} {Q : Elems ℝ} (hB : BlkDiag (n1 + n2) n1 Q) (h1 : (toM n1 n1 Q).transpose * toM n1 n1 Q = 1)
    (h2 : (toM n2 n2 (shE Q n1)).transpose * toM n2 n2 (shE Q n1) = 1) :
    (toM (n1 + n2) (n1 + n2) Q).transpose * toM (n1 + n2) (n1 + n2) Q = 1 := by
  have g1 : ∀ a < n1, ∀ b < n1, ∑ l ∈ Finset.range n1, Q l a * Q l b = if a = b then 1 else 0 := by
    intro a ha b hb
    have := congrFun (congrFun h1 ⟨a, ha⟩) ⟨b, hb⟩
    rw [Matrix.mul_apply, Matrix.one_apply] at this
    simp only [Fin.mk.injEq] at this
    rw [Finset.sum_range, ← this]
    rfl
  have g2 : ∀ a < n2, ∀ b < n2, ∑ l ∈ Finset.range n2, Q (n1 + l) (n1 + a) * Q (n1 + l) (n1 + b) = if a = b then 1 else 0 := by
    intro a ha b hb
    have := congrFun (congrFun h2 ⟨a, ha⟩) ⟨b, hb⟩
    rw [Matrix.mul_apply, Matrix.one_apply] at this
    simp only [Fin.mk.injEq] at this
    rw [Finset.sum_range, ← this]
    rfl
  ext a b
  rw [Matrix.mul_apply, Matrix.one_apply, if_congr (Fin.ext_iff (a := a) (b := b)) rfl rfl]
  have ha := a.2
  have hb := b.2
  show ∑ l : Fin (n1 + n2), Q l a * Q l b = _
  rw [← Finset.sum_range (fun l => Q l a * Q l b), Finset.sum_range_add]
  generalize (a : Nat) = a' at *
  generalize (b : Nat) = b' at *
  have zu : ∀ {y}, y < n1 → ∀ l ∈ Finset.range n2, Q (n1 + l) y = 0 := fun {y} hy l hl => by
    rw [Finset.mem_range] at hl
    exact hB _ (by omega) _ (by omega) (Or.inr ⟨hy, by omega⟩)
  have zl : ∀ {y}, n1 ≤ y → y < n1 + n2 → ∀ l ∈ Finset.range n1, Q l y = 0 := fun {y} hy hy' l hl => by
    rw [Finset.mem_range] at hl
    exact hB _ (by omega) _ (by omega) (Or.inl ⟨hl, hy⟩)
  rcases Nat.lt_or_ge a' n1 with p | p
  · rw [Finset.sum_eq_zero (s := Finset.range n2) (fun l hl => by rw [zu p l hl, zero_mul]), add_zero]
    rcases Nat.lt_or_ge b' n1 with q | q
    · exact g1 a' p b' q
    · rw [Finset.sum_eq_zero (fun l hl => by rw [zl q hb l hl, mul_zero]), if_neg (by omega)]
  · rw [Finset.sum_eq_zero (s := Finset.range n1) (fun l hl => by rw [zl p ha l hl, zero_mul]), zero_add]
    rcases Nat.lt_or_ge b' n1 with q | q
    · rw [Finset.sum_eq_zero (fun l hl => by rw [zu q l hl, mul_zero]), if_neg (by omega)]
    · obtain ⟨a', rfl⟩ : ∃ c, a' = n1 + c := ⟨a' - n1, by omega⟩
      obtain ⟨b', rfl⟩ : ∃ c, b' = n1 + c := ⟨b' - n1, by omega⟩
      rw [g2 a' (by omega) b' (by omega)]
      exact if_congr (by omega) rfl rfl

/-- The residual of two blocks. -/
theorem blk_res {n1 n2 : Nat} {Q A B : Elems ℝ} {lam : Nat → ℝ} {δ : ℝ} (hδ : 0 ≤ δ) (hB : BlkDiag (n1 + n2) n1 Q)
    (h1 : ‖toM n1 n1 A * toM n1 n1 Q - toM n1 n1 Q * diagonal (fun i : Fin n1 => lam i)‖ ≤ δ)
    (h2 : ‖toM n2 n2 B * toM n2 n2 (shE Q n1) - toM n2 n2 (shE Q n1) * diagonal (fun i : Fin n2 => lam (n1 + i))‖ ≤ δ) :
    ‖toM (n1 + n2) (n1 + n2) (blkE n1 A B) * toM (n1 + n2) (n1 + n2) Q -
      toM (n1 + n2) (n1 + n2) Q * diagonal (fun i : Fin (n1 + n2) => lam i)‖ ≤ δ := by
  have conv : ∀ (n : Nat) (A Q : Elems ℝ) (lam : Nat → ℝ), toM n n A * toM n n Q - toM n n Q * diagonal (fun i : Fin n => lam i) =
      toM n n (fun x y => ∑ l ∈ Finset.range n, A x l * Q l y - Q x y * lam y) := by
    intro n A Q lam
    rw [mul_toM]
    ext x y
    rw [Matrix.sub_apply, Matrix.mul_diagonal]
    rfl
  have zu : ∀ {y}, y < n1 → ∀ l ∈ Finset.range n2, Q (n1 + l) y = 0 := fun {y} hy l hl => by
    rw [Finset.mem_range] at hl
    exact hB _ (by omega) _ (by omega) (Or.inr ⟨hy, by omega⟩)
  have zl : ∀ {y}, n1 ≤ y → y < n1 + n2 → ∀ l ∈ Finset.range n1, Q l y = 0 := fun {y} hy hy' l hl => by
    rw [Finset.mem_range] at hl
    exact hB _ (by omega) _ (by omega) (Or.inl ⟨hl, hy⟩)
  have bz : ∀ x y, (x < n1 ∧ n1 ≤ y) ∨ (y < n1 ∧ n1 ≤ x) → blkE n1 A B x y = 0 := by
    intro x y h
    unfold blkE
    rw [if_neg (by omega), if_neg (by omega)]
  rw [conv] at h1 ⊢
  rw [conv n2 B (shE Q n1) (fun i => lam (n1 + i))] at h2
  refine norm_blk hδ ?_ ?_ ?_
  · intro x y hx hy h
    rw [hB x hx y hy h, zero_mul, sub_zero, Finset.sum_range_add]
    rcases h with ⟨p, q⟩ | ⟨p, q⟩
    · rw [Finset.sum_eq_zero (s := Finset.range n1) (fun l hl => by rw [zl q hy l hl, mul_zero]), zero_add]
      exact Finset.sum_eq_zero fun l hl => by rw [bz x _ (Or.inl ⟨p, by omega⟩), zero_mul]
    · rw [Finset.sum_eq_zero (s := Finset.range n2) (fun l hl => by rw [zu p l hl, mul_zero]), add_zero]
      exact Finset.sum_eq_zero fun l hl => by
        rw [Finset.mem_range] at hl
        rw [bz x _ (Or.inr ⟨hl, by omega⟩), zero_mul]
  · have : (toM n1 n1 (fun x y => ∑ l ∈ Finset.range (n1 + n2), blkE n1 A B x l * Q l y - Q x y * lam y) : Matrix (Fin n1) (Fin n1) ℝ) =
        toM n1 n1 (fun x y => ∑ l ∈ Finset.range n1, A x l * Q l y - Q x y * lam y) := by
      ext x y
      show ∑ l ∈ Finset.range (n1 + n2), blkE n1 A B x l * Q l y - Q x y * lam y = ∑ l ∈ Finset.range n1, A x l * Q l y - Q x y * lam y
      have hx := x.2
      have hy := y.2
      rw [Finset.sum_range_add, Finset.sum_eq_zero (s := Finset.range n2) (fun l hl => by rw [zu hy l hl, mul_zero]), add_zero]
      congr 1
      refine Finset.sum_congr rfl fun l hl => ?_
      rw [Finset.mem_range] at hl
      unfold blkE
      rw [if_pos ⟨hx, hl⟩]
    rw [this]
    exact h1
  · have : (toM n2 n2 (fun x y => ∑ l ∈ Finset.range (n1 + n2), blkE n1 A B (n1 + x) l * Q l (n1 + y) - Q (n1 + x) (n1 + y) * lam (n1 + y)) :
          Matrix (Fin n2) (Fin n2) ℝ) =
        toM n2 n2 (fun x y => ∑ l ∈ Finset.range n2, B x l * shE Q n1 l y - shE Q n1 x y * lam (n1 + y)) := by
      ext x y
      show ∑ l ∈ Finset.range (n1 + n2), blkE n1 A B (n1 + x) l * Q l (n1 + y) - Q (n1 + x) (n1 + y) * lam (n1 + y) =
        ∑ l ∈ Finset.range n2, B x l * shE Q n1 l y - shE Q n1 x y * lam (n1 + y)
      have hx := x.2
      have hy := y.2
      rw [Finset.sum_range_add, Finset.sum_eq_zero (s := Finset.range n1) (fun l hl => by rw [zl (by omega) (by omega) l hl, mul_zero]), zero_add]
      unfold shE
      congr 1
      refine Finset.sum_congr rfl fun l hl => ?_
      unfold blkE
      rw [if_neg (by omega), if_pos ⟨by omega, by omega⟩, Nat.add_sub_cancel_left, Nat.add_sub_cancel_left]
    rw [this]
    exact h2

/-- Sign as in `assembleRank1UpdateVectorTile`. -/
noncomputable def sgn (rho : ℝ) : ℝ := if rho < 0 then -1 else 1

theorem sgn_abs (rho : ℝ) : |rho| * sgn rho = rho := by
  unfold sgn
  split
  · next h => rw [abs_of_neg h]; ring
  · next h => rw [abs_of_nonneg (not_lt.1 h)]; ring

theorem sgn_sq (rho : ℝ) : sgn rho * sgn rho = 1 := by
  unfold sgn
  split <;> ring

/-- The vector of the rank-one update. -/
noncomputable def updU (n1 : Nat) (rho : ℝ) : Nat → ℝ := fun x => if x + 1 = n1 then sgn rho else if x = n1 then 1 else 0

/-- Cuppen's decomposition. -/
theorem cuppen_split {n1 n : Nat} (h0 : 0 < n1) {dA dB dW e : Nat → ℝ}
    (hA : ∀ i < n1, dW i = dA i + if i + 1 = n1 then |e (n1 - 1)| else 0)
    (hB : ∀ i, n1 + i < n → dW (n1 + i) = dB i + if i = 0 then |e (n1 - 1)| else 0) :
    ∀ x < n, ∀ y < n, tridE dW e x y = blkE n1 (tridE dA e) (tridE dB (fun i => e (n1 + i))) x y +
      |e (n1 - 1)| * (updU n1 (e (n1 - 1)) x * updU n1 (e (n1 - 1)) y) := by
  intro x hx y hy
  have s1 := sgn_abs (e (n1 - 1))
  have s2 := sgn_sq (e (n1 - 1))
  unfold blkE
  rcases Nat.lt_or_ge x n1 with p | p <;> rcases Nat.lt_or_ge y n1 with q | q
  · rw [if_pos ⟨p, q⟩]
    unfold tridE updU
    by_cases hxy : x = y
    · subst hxy
      rw [if_pos rfl, if_pos rfl, hA x p]
      by_cases hl : x + 1 = n1
      · rw [if_pos hl, if_pos hl, s2, mul_one]
      · rw [if_neg hl, if_neg hl, if_neg (show ¬ x = n1 by omega), mul_zero, mul_zero]
    · rw [if_neg hxy, if_neg hxy]
      have : (if x + 1 = n1 then sgn (e (n1 - 1)) else if x = n1 then 1 else 0) * (if y + 1 = n1 then sgn (e (n1 - 1)) else if y = n1 then 1 else 0) = 0 := by
        by_cases hl : x + 1 = n1
        · rw [if_neg (show ¬ y + 1 = n1 by omega), if_neg (show ¬ y = n1 by omega), mul_zero]
        · rw [if_neg hl, if_neg (show ¬ x = n1 by omega), zero_mul]
      rw [this, mul_zero, add_zero]
  · rw [if_neg (by omega), if_neg (by omega), zero_add]
    unfold tridE updU
    rw [if_neg (by omega), if_neg (by omega), if_neg (show ¬ y + 1 = n1 by omega), if_neg (show ¬ x = n1 by omega)]
    by_cases hl : y = x + 1
    · by_cases hm : x + 1 = n1
      · rw [if_pos hl, if_pos hm, if_pos (by omega), mul_one, s1, ← hm, Nat.add_sub_cancel]
      · omega
    · rw [if_neg hl]
      by_cases hm : x + 1 = n1
      · rw [if_neg (show ¬ y = n1 by omega), mul_zero, mul_zero]
      · rw [if_neg hm, zero_mul, mul_zero]
  · rw [if_neg (by omega), if_neg (by omega), zero_add]
    unfold tridE updU
    rw [if_neg (by omega), if_neg (show ¬ x + 1 = n1 by omega), if_neg (show ¬ y = n1 by omega)]
    by_cases hl : x = y + 1
    · by_cases hm : y + 1 = n1
      · rw [if_pos hl, if_pos hm, if_pos (by omega), one_mul, s1, ← hm, Nat.add_sub_cancel]
      · omega
    · rw [if_neg hl, if_neg (by omega)]
      by_cases hm : x = n1
      · rw [if_neg (show ¬ y + 1 = n1 by omega), mul_zero, mul_zero]
      · rw [if_neg hm, zero_mul, mul_zero]
  · rw [if_neg (by omega), if_pos ⟨p, q⟩]
    obtain ⟨x, rfl⟩ : ∃ c, x = n1 + c := ⟨x - n1, by omega⟩
    obtain ⟨y, rfl⟩ : ∃ c, y = n1 + c := ⟨y - n1, by omega⟩
    rw [Nat.add_sub_cancel_left, Nat.add_sub_cancel_left]
    unfold tridE updU
    rw [if_neg (show ¬ n1 + x + 1 = n1 by omega), if_neg (show ¬ n1 + y + 1 = n1 by omega)]
    by_cases hxy : x = y
    · subst hxy
      rw [if_pos rfl, if_pos rfl, hB x hx]
      by_cases hl : x = 0
      · rw [if_pos hl, if_pos (by omega), mul_one, mul_one]
      · rw [if_neg hl, if_neg (show ¬ n1 + x = n1 by omega), mul_zero, mul_zero]
    · rw [if_neg (show ¬ n1 + x = n1 + y by omega), if_neg hxy]
      have : (if n1 + x = n1 then (1 : ℝ) else 0) * (if n1 + y = n1 then 1 else 0) = 0 := by
        by_cases hl : x = 0
        · rw [if_neg (show ¬ n1 + y = n1 by omega), mul_zero]
        · rw [if_neg (show ¬ n1 + x = n1 by omega), zero_mul]
      rw [this, mul_zero, add_zero]
      refine if_congr (by omega) rfl (if_congr (by omega) rfl rfl)

/-- The rank-one vector. -/
theorem zOf_eq {n n1 : Nat} {rho : ℝ} {Q : Elems ℝ} (h0 : 0 < n1) (h1 : n1 < n) (hB : BlkDiag n n1 Q) :
    ∀ y < n, ∑ x ∈ Finset.range n, updU n1 rho x * Q x y = Real.sqrt 2 * zOf n1 rho Q y := by
  intro y hy
  have s2 : Real.sqrt 2 ≠ 0 := by
    have := Real.sqrt_pos.2 (show (0 : ℝ) < 2 by norm_num)
    exact ne_of_gt this
  have e : ∀ x, updU n1 rho x * Q x y = (if x = n1 - 1 then sgn rho * Q (n1 - 1) y else 0) + (if x = n1 then Q n1 y else 0) := by
    intro x
    unfold updU
    by_cases p : x + 1 = n1
    · rw [if_pos p, if_pos (by omega), if_neg (by omega), add_zero, show n1 - 1 = x by omega]
    · rw [if_neg p, if_neg (show ¬ x = n1 - 1 by omega), zero_add]
      by_cases q : x = n1
      · rw [if_pos q, if_pos q, one_mul, q]
      · rw [if_neg q, if_neg q, zero_mul]
  simp only [e]
  rw [Finset.sum_add_distrib, Finset.sum_ite_eq', Finset.sum_ite_eq', if_pos (Finset.mem_range.2 (by omega)), if_pos (Finset.mem_range.2 h1)]
  unfold zOf
  rcases Nat.lt_or_ge y n1 with p | p
  · rw [if_pos p, hB n1 h1 y hy (Or.inr ⟨p, le_refl _⟩), add_zero, mul_div_cancel₀ _ s2]
    rfl
  · rw [if_neg (by omega), hB (n1 - 1) (by omega) y hy (Or.inl ⟨by omega, p⟩), mul_zero, zero_add, mul_div_cancel₀ _ s2]

/-- The residual of a merged problem. -/
theorem merge_res {n1 n2 : Nat} (h0 : 0 < n1) (h02 : 0 < n2) {Q : Elems ℝ} {dA dB dW e lam lam' : Nat → ℝ} {δ c : ℝ} (hδ : 0 ≤ δ)
    (hBd : BlkDiag (n1 + n2) n1 Q) (hQ : (toM (n1 + n2) (n1 + n2) Q).transpose * toM (n1 + n2) (n1 + n2) Q = 1)
    (h1 : ‖(triM n1 dA e : Matrix (Fin n1) (Fin n1) ℝ) * toM n1 n1 Q - toM n1 n1 Q * diagonal (fun i : Fin n1 => lam i)‖ ≤ δ)
    (h2 : ‖(triM n2 dB (fun i => e (n1 + i)) : Matrix (Fin n2) (Fin n2) ℝ) * toM n2 n2 (shE Q n1) -
      toM n2 n2 (shE Q n1) * diagonal (fun i : Fin n2 => lam (n1 + i))‖ ≤ δ)
    (hA : ∀ i < n1, dW i = dA i + if i + 1 = n1 then |e (n1 - 1)| else 0)
    (hB : ∀ i, n1 + i < n1 + n2 → dW (n1 + i) = dB i + if i = 0 then |e (n1 - 1)| else 0)
    {M : Matrix (Fin (n1 + n2)) (Fin (n1 + n2)) ℝ} (hM : M.transpose * M = 1)
    (hc : ‖(diagonal (fun i : Fin (n1 + n2) => lam i) + (2 * |e (n1 - 1)|) • vecMulVec (fun i : Fin (n1 + n2) => zOf n1 (e (n1 - 1)) Q i)
      (fun i : Fin (n1 + n2) => zOf n1 (e (n1 - 1)) Q i)) * M - M * diagonal (fun i : Fin (n1 + n2) => lam' i)‖ ≤ c) :
    ‖(triM (n1 + n2) dW e : Matrix (Fin (n1 + n2)) (Fin (n1 + n2)) ℝ) * (toM (n1 + n2) (n1 + n2) Q * M) -
      toM (n1 + n2) (n1 + n2) Q * M * diagonal (fun i : Fin (n1 + n2) => lam' i)‖ ≤ δ + c := by
  rw [triM_toM] at h1 h2 ⊢
  have hR := blk_res hδ hBd h1 h2
  obtain ⟨rho, hrho⟩ : ∃ rho, rho = e (n1 - 1) := ⟨_, rfl⟩
  obtain ⟨Bk, hBk⟩ : ∃ Bk, Bk = toM (n1 + n2) (n1 + n2) (blkE n1 (tridE dA e) (tridE dB (fun i => e (n1 + i)))) := ⟨_, rfl⟩
  obtain ⟨Qm, hQm⟩ : ∃ Qm, Qm = toM (n1 + n2) (n1 + n2) Q := ⟨_, rfl⟩
  obtain ⟨u, hu⟩ : ∃ u : Fin (n1 + n2) → ℝ, u = fun i : Fin (n1 + n2) => updU n1 rho i := ⟨_, rfl⟩
  obtain ⟨z, hz⟩ : ∃ z : Fin (n1 + n2) → ℝ, z = fun i : Fin (n1 + n2) => zOf n1 rho Q i := ⟨_, rfl⟩
  obtain ⟨D, hD⟩ : ∃ D, D = diagonal (fun i : Fin (n1 + n2) => lam i) := ⟨_, rfl⟩
  obtain ⟨D', hD'⟩ : ∃ D', D' = diagonal (fun i : Fin (n1 + n2) => lam' i) := ⟨_, rfl⟩
  have hT : toM (n1 + n2) (n1 + n2) (tridE dW e) = Bk + |rho| • vecMulVec u u := by
    ext x y
    rw [Matrix.add_apply, Matrix.smul_apply, Matrix.vecMulVec_apply, smul_eq_mul, hu, hBk, hrho]
    exact cuppen_split h0 hA hB x x.2 y y.2
  have hzu : Qm.transpose * vecMulVec u u * Qm = (2 : ℝ) • vecMulVec z z := by
    have hv : ∀ y : Fin (n1 + n2), ∑ x : Fin (n1 + n2), u x * Qm x y = Real.sqrt 2 * z y := by
      intro y
      have := zOf_eq (rho := rho) h0 (show n1 < n1 + n2 by omega) hBd y y.2
      rw [Finset.sum_range] at this
      rw [hz, ← this, hu, hQm]
      rfl
    rw [Matrix.mul_vecMulVec, Matrix.vecMulVec_mul]
    have e1 : Qm.transpose *ᵥ u = Real.sqrt 2 • z := by
      funext y
      rw [Matrix.mulVec, dotProduct, Pi.smul_apply, smul_eq_mul, ← hv y]
      exact Finset.sum_congr rfl fun x _ => by rw [Matrix.transpose_apply, mul_comm]
    have e2 : u ᵥ* Qm = Real.sqrt 2 • z := by
      funext y
      rw [Matrix.vecMul, dotProduct, Pi.smul_apply, smul_eq_mul, ← hv y]
    rw [e1, e2]
    ext x y
    rw [Matrix.vecMulVec_apply, Matrix.smul_apply, Matrix.vecMulVec_apply, Pi.smul_apply, Pi.smul_apply, smul_eq_mul, smul_eq_mul, smul_eq_mul]
    have : Real.sqrt 2 * Real.sqrt 2 = 2 := Real.mul_self_sqrt (by norm_num)
    linear_combination z x * z y * this
  rw [hT]
  rw [← hrho, ← hz, ← hD, ← hD'] at hc
  rw [← hD'] at ⊢
  rw [← hBk, ← hQm, ← hD] at hR
  rw [← hQm] at hQ ⊢
  have hQr := orth_right hQ
  have key : (Bk + |rho| • vecMulVec u u) * (Qm * M) - Qm * M * D' =
      (Bk * Qm - Qm * D) * M + Qm * ((D + (2 * |rho|) • vecMulVec z z) * M - M * D') := by
    have e1 : |rho| • vecMulVec u u * Qm = Qm * ((2 * |rho|) • vecMulVec z z) := by
      have : (2 * |rho|) • vecMulVec z z = |rho| • (Qm.transpose * vecMulVec u u * Qm) := by rw [hzu, smul_smul, mul_comm]
      rw [this, Matrix.mul_smul, Matrix.smul_mul, ← Matrix.mul_assoc, ← Matrix.mul_assoc, hQr, Matrix.one_mul]
    have e2 : (Bk + |rho| • vecMulVec u u) * (Qm * M) = Bk * Qm * M + Qm * ((2 * |rho|) • vecMulVec z z) * M := by
      rw [← e1, Matrix.add_mul, ← Matrix.mul_assoc, ← Matrix.mul_assoc]
    rw [e2, Matrix.sub_mul, Matrix.mul_sub, Matrix.add_mul, Matrix.mul_add, ← Matrix.mul_assoc, ← Matrix.mul_assoc, ← Matrix.mul_assoc]
    abel
  rw [key]
  have n1' := norm_mul_orth (A := Bk * Qm - Qm * D) hM
  have n2' := norm_orth_mul (A := (D + (2 * |rho|) • vecMulVec z z) * M - M * D') hQ
  have := norm_add_le ((Bk * Qm - Qm * D) * M) (Qm * ((D + (2 * |rho|) • vecMulVec z z) * M - M * D'))
  linarith

/-- Computed eigenvalues are bounded by the norm of the matrix and the residual. -/
theorem eig_bound {n : Nat} {T Q : Matrix (Fin n) (Fin n) ℝ} {lam : Fin n → ℝ} {δ : ℝ} (hQ : Q.transpose * Q = 1)
    (h : ‖T * Q - Q * diagonal lam‖ ≤ δ) (i : Fin n) : |lam i| ≤ ‖T‖ + δ := by
  refine (le_norm_diag lam i).trans ?_
  have e : diagonal lam = Q.transpose * (T * Q) - Q.transpose * (T * Q - Q * diagonal lam) := by
    rw [Matrix.mul_sub, ← Matrix.mul_assoc Q.transpose Q, hQ, Matrix.one_mul, sub_sub_cancel]
  rw [e]
  have a1 := norm_sub_le (Q.transpose * (T * Q)) (Q.transpose * (T * Q - Q * diagonal lam))
  have a2 := norm_orth_t_mul (A := T * Q) hQ
  have a3 := norm_mul_orth (A := T) hQ
  have a4 := norm_orth_t_mul (A := T * Q - Q * diagonal lam) hQ
  linarith

end DLAF
