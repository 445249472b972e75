import Verif.Lemmas.OpNormBlk
import Verif.Spec.Rank1
import Mathlib.LinearAlgebra.Matrix.Permutation
/- The mathematics of a merge step. -/
namespace DLAF
open scoped Matrix.Norms.L2Operator
open Matrix

/-- `diag(U, I)`. -/
def blkW (k : Nat) (U : Nat → Nat → ℝ) : Nat → Nat → ℝ := fun l y => if l < k ∧ y < k then U l y else if l = y then 1 else 0

theorem sum_le_k {n k : Nat} (hk : k ≤ n) {f : Nat → ℝ} (h : ∀ l, k ≤ l → l < n → f l = 0) :
    ∑ l ∈ Finset.range n, f l = ∑ l ∈ Finset.range k, f l := by
  symm
  refine Finset.sum_subset (Finset.range_mono hk) fun l hl hl' => ?_
  rw [Finset.mem_range] at hl hl'
  exact h l (by omega) hl

theorem blkW_orth {n k : Nat} (hk : k ≤ n) {U : Nat → Nat → ℝ}
    (hU : ∀ a < k, ∀ b < k, ∑ l ∈ Finset.range k, U l a * U l b = if a = b then 1 else 0) :
    (toM n n (blkW k U)).transpose * toM n n (blkW k U) = 1 := by
  ext a b
  rw [Matrix.mul_apply, Matrix.one_apply]
  simp only [Matrix.transpose_apply, toM]
  rw [← Finset.sum_range (fun l => blkW k U l a * blkW k U l b)]
  have ha := a.2
  have hb := b.2
  have hab : (a = b) ↔ ((a : Nat) = b) := Fin.ext_iff
  rw [if_congr hab rfl rfl]
  generalize (a : Nat) = a' at *
  generalize (b : Nat) = b' at *
  have hge : ∀ {y}, k ≤ y → ∀ l, blkW k U l y = if l = y then 1 else 0 := by
    intro y hy l
    unfold blkW
    rw [if_neg (by omega)]
  have hlt : ∀ {y}, y < k → ∀ l, k ≤ l → blkW k U l y = 0 := by
    intro y hy l hl
    unfold blkW
    rw [if_neg (by omega), if_neg (by omega)]
  rcases Nat.lt_or_ge a' k with h1 | h1
  · rw [sum_le_k hk (fun l hl _ => by rw [hlt h1 l hl, zero_mul])]
    rcases Nat.lt_or_ge b' k with h2 | h2
    · rw [← hU a' h1 b' h2]
      refine Finset.sum_congr rfl fun l hl => ?_
      rw [Finset.mem_range] at hl
      unfold blkW
      rw [if_pos ⟨hl, h1⟩, if_pos ⟨hl, h2⟩]
    · rw [if_neg (show ¬ a' = b' by omega)]
      refine Finset.sum_eq_zero fun l hl => ?_
      rw [Finset.mem_range] at hl
      rw [hge h2, if_neg (show ¬ l = b' by omega), mul_zero]
  · simp only [hge h1, ite_mul, one_mul, zero_mul]
    rw [Finset.sum_ite_eq', if_pos (Finset.mem_range.2 ha)]
    rcases Nat.lt_or_ge b' k with h2 | h2
    · rw [hlt h2 _ h1, if_neg (show ¬ a' = b' by omega)]
    · rw [hge h2]

theorem blkW_eig {n k : Nat} (hk : k ≤ n) {U : Nat → Nat → ℝ} {d z lam : Nat → ℝ} {rho : ℝ}
    (hE : ∀ i < k, ∀ a < k, d i * U i a + rho * z i * ∑ l ∈ Finset.range k, z l * U l a = lam a * U i a)
    (hd : ∀ a, k ≤ a → a < n → lam a = d a) :
    (diagonal (fun i : Fin n => d i) + rho • vecMulVec (fun i : Fin n => if (i : Nat) < k then z i else 0)
      (fun i : Fin n => if (i : Nat) < k then z i else 0)) * toM n n (blkW k U) =
    toM n n (blkW k U) * diagonal (fun i : Fin n => lam i) := by
  ext i a
  rw [Matrix.add_mul, Matrix.add_apply, Matrix.diagonal_mul, Matrix.mul_diagonal, Matrix.smul_mul, Matrix.smul_apply, smul_eq_mul]
  have e : (vecMulVec (fun i : Fin n => if (i : Nat) < k then z i else 0) (fun i : Fin n => if (i : Nat) < k then z i else 0) *
      toM n n (blkW k U)) i a = (if (i : Nat) < k then z i else 0) * ∑ l ∈ Finset.range n, (if l < k then z l else 0) * blkW k U l a := by
    rw [Matrix.mul_apply, Finset.sum_range, Finset.mul_sum]
    refine Finset.sum_congr rfl fun l _ => ?_
    rw [Matrix.vecMulVec_apply, mul_assoc]
    rfl
  rw [e, sum_le_k hk (fun l hl _ => by rw [if_neg (by omega), zero_mul])]
  show d i * blkW k U i a + _ = blkW k U i a * lam a
  have hi := i.2
  have ha := a.2
  generalize (i : Nat) = i' at *
  generalize (a : Nat) = a' at *
  have hs : ∀ (_ : a' < k), ∑ l ∈ Finset.range k, (if l < k then z l else 0) * blkW k U l a' = ∑ l ∈ Finset.range k, z l * U l a' := by
    intro h
    refine Finset.sum_congr rfl fun l hl => ?_
    rw [Finset.mem_range] at hl
    unfold blkW
    rw [if_pos hl, if_pos ⟨hl, h⟩]
  have hs' : ∀ (_ : k ≤ a'), ∑ l ∈ Finset.range k, (if l < k then z l else 0) * blkW k U l a' = 0 := by
    intro h
    refine Finset.sum_eq_zero fun l hl => ?_
    rw [Finset.mem_range] at hl
    unfold blkW
    rw [if_neg (show ¬ (l < k ∧ a' < k) by omega), if_neg (show ¬ l = a' by omega), mul_zero]
  rcases Nat.lt_or_ge a' k with h1 | h1
  · rw [hs h1]
    rcases Nat.lt_or_ge i' k with h2 | h2
    · unfold blkW
      rw [if_pos h2, if_pos ⟨h2, h1⟩]
      linear_combination hE i' h2 a' h1
    · unfold blkW
      rw [if_neg (show ¬ i' < k by omega), if_neg (show ¬ (i' < k ∧ a' < k) by omega), if_neg (show ¬ i' = a' by omega)]
      ring
  · rw [hs' h1]
    unfold blkW
    rw [if_neg (show ¬ (i' < k ∧ a' < k) by omega)]
    by_cases h2 : i' = a'
    · rw [if_pos h2, hd a' h1 ha, h2]
      ring
    · rw [if_neg h2]
      ring

/-- Dropping the deflated entries of `z`. -/
theorem norm_drop {n : Nat} {z : Fin n → ℝ} {p : Fin n → Prop} [DecidablePred p] {rho tol : ℝ} (htol : 0 ≤ tol)
    (hz : ∑ i, z i ^ 2 ≤ 1) (hs : ∀ i, ¬ p i → |rho * z i| ≤ tol) :
    ‖rho • vecMulVec z z - rho • vecMulVec (fun i => if p i then z i else 0) (fun i => if p i then z i else 0)‖ ≤ 2 * (n * tol) := by
  obtain ⟨w, hw⟩ : ∃ w : Fin n → ℝ, ∀ i, w i = if p i then 0 else rho * z i := ⟨_, fun _ => rfl⟩
  have e : rho • vecMulVec z z - rho • vecMulVec (fun i => if p i then z i else 0) (fun i => if p i then z i else 0) =
      vecMulVec w z + vecMulVec (fun i => if p i then z i else 0) w := by
    ext i j
    simp only [Matrix.sub_apply, Matrix.smul_apply, Matrix.add_apply, Matrix.vecMulVec_apply, smul_eq_mul, hw]
    by_cases h1 : p i <;> by_cases h2 : p j <;> simp [h1, h2] <;> ring
  rw [e]
  have hz1 : Real.sqrt (∑ i, z i ^ 2) ≤ 1 := Real.sqrt_le_one.2 hz
  have hz2 : Real.sqrt (∑ i, (if p i then z i else 0) ^ 2) ≤ 1 := by
    refine Real.sqrt_le_one.2 (le_trans ?_ hz)
    refine Finset.sum_le_sum fun i _ => ?_
    split
    · exact le_refl _
    · rw [zero_pow two_ne_zero]
      positivity
  have hw1 : Real.sqrt (∑ i, w i ^ 2) ≤ n * tol := by
    rw [Real.sqrt_le_left (by positivity)]
    have h1 : ∀ i, w i ^ 2 ≤ tol ^ 2 := by
      intro i
      rw [sq_le_sq, abs_of_nonneg htol, hw]
      split
      · rw [abs_zero]; exact htol
      · next h => exact hs i h
    have h2 : ∑ i, w i ^ 2 ≤ ∑ _i : Fin n, tol ^ 2 := Finset.sum_le_sum fun i _ => h1 i
    rw [Finset.sum_const, Finset.card_univ, Fintype.card_fin, nsmul_eq_mul] at h2
    refine h2.trans ?_
    rw [mul_pow]
    refine mul_le_mul_of_nonneg_right ?_ (sq_nonneg _)
    rcases Nat.eq_zero_or_pos n with rfl | hn
    · simp
    · have : (1 : ℝ) ≤ n := by exact_mod_cast hn
      nlinarith
  have b1 := norm_vecMulVec w z
  have b2 := norm_vecMulVec (fun i => if p i then z i else 0) w
  have p1 := Real.sqrt_nonneg (∑ i, w i ^ 2)
  have p2 := Real.sqrt_nonneg (∑ i, z i ^ 2)
  have p3 := Real.sqrt_nonneg (∑ i, (if p i then z i else 0) ^ 2)
  have := norm_add_le (vecMulVec w z) (vecMulVec (fun i => if p i then z i else 0) w)
  nlinarith

/-- A merge step: the eigenvector matrix is multiplied with the orthogonal `G N`, `N` being `diag(U, I)` with permuted rows. -/
theorem merge_math {n k : Nat} (hk : k ≤ n) {rho tol : ℝ} (htol : 0 ≤ tol) {d z d1 z1 lam : Nat → ℝ} {G : Matrix (Fin n) (Fin n) ℝ}
    (hG : G.transpose * G = 1) (hz1 : ∀ y : Fin n, z1 y = ∑ x : Fin n, z x * G x y)
    (hGD : ‖G.transpose * diagonal (fun x : Fin n => d x) * G - diagonal (fun x : Fin n => d1 x)‖ ≤ 2 * tol * ((n : ℝ) - 1))
    (hz : ∑ i : Fin n, z i ^ 2 ≤ 1) (σ : Fin n ≃ Fin n) (hdef : ∀ l : Fin n, k ≤ l → |rho * z1 (σ l)| ≤ tol) {d2 z2 : Nat → ℝ}
    (hd2 : ∀ l : Fin n, d2 l = d1 (σ l)) (hz2 : ∀ l : Fin n, z2 l = z1 (σ l)) {U : Nat → Nat → ℝ}
    (hU : ∀ a < k, ∀ b < k, ∑ l ∈ Finset.range k, U l a * U l b = if a = b then 1 else 0)
    (hE : ∀ i < k, ∀ a < k, d2 i * U i a + rho * z2 i * ∑ l ∈ Finset.range k, z2 l * U l a = lam a * U i a)
    (hlam : ∀ a, k ≤ a → a < n → lam a = d2 a) :
    ∃ M : Matrix (Fin n) (Fin n) ℝ, M.transpose * M = 1 ∧ M = G * (toM n n (blkW k U)).submatrix σ.symm id ∧
      ‖(diagonal (fun x : Fin n => d x) + rho • vecMulVec (fun x : Fin n => z x) (fun x : Fin n => z x)) * M -
        M * diagonal (fun x : Fin n => lam x)‖ ≤ 4 * (n * tol) := by
  obtain ⟨W, hW⟩ : ∃ W, W = toM n n (blkW k U) := ⟨_, rfl⟩
  obtain ⟨N, hN⟩ : ∃ N, N = (toM n n (blkW k U)).submatrix σ.symm id := ⟨_, rfl⟩
  rw [← hN]
  have hWo := blkW_orth hk hU
  have hWe := blkW_eig hk hE hlam
  rw [← hW] at hN hWo hWe
  have hNo : N.transpose * N = 1 := by
    rw [hN, Matrix.transpose_submatrix, Matrix.submatrix_mul_equiv W.transpose W id σ.symm id, hWo, Matrix.submatrix_id_id]
  obtain ⟨zh, hzh⟩ : ∃ zh : Fin n → ℝ, zh = fun x => if ((σ.symm x : Fin n) : Nat) < k then z1 x else 0 := ⟨_, rfl⟩
  obtain ⟨A', hA'⟩ : ∃ A', A' = diagonal (fun x : Fin n => d1 x) + rho • vecMulVec zh zh := ⟨_, rfl⟩
  have hNe : A' * N = N * diagonal (fun x : Fin n => lam x) := by
    have e1 : A' = (diagonal (fun i : Fin n => d2 i) + rho • vecMulVec (fun i : Fin n => if (i : Nat) < k then z2 i else 0)
        (fun i : Fin n => if (i : Nat) < k then z2 i else 0)).submatrix σ.symm σ.symm := by
      ext x y
      rw [hA', hzh]
      simp only [Matrix.submatrix_apply, Matrix.add_apply, Matrix.smul_apply, Matrix.vecMulVec_apply, Matrix.diagonal_apply,
        EmbeddingLike.apply_eq_iff_eq, hd2, hz2, Equiv.apply_symm_apply]
    rw [e1, hN, Matrix.submatrix_mul_equiv _ W σ.symm σ.symm id, hWe]
    ext x y
    rw [Matrix.submatrix_apply, Matrix.mul_diagonal, Matrix.mul_diagonal, Matrix.submatrix_apply]
    rfl
  have hGr := orth_right hG
  refine ⟨G * N, ?_, rfl, ?_⟩
  · rw [Matrix.transpose_mul, Matrix.mul_assoc, ← Matrix.mul_assoc G.transpose, hG, Matrix.one_mul, hNo]
  · obtain ⟨D, hD⟩ : ∃ D, D = diagonal (fun x : Fin n => d x) := ⟨_, rfl⟩
    obtain ⟨D1, hD1⟩ : ∃ D1, D1 = diagonal (fun x : Fin n => d1 x) := ⟨_, rfl⟩
    obtain ⟨Z, hZ⟩ : ∃ Z, Z = vecMulVec (fun x : Fin n => z x) (fun x : Fin n => z x) := ⟨_, rfl⟩
    obtain ⟨Z1, hZ1⟩ : ∃ Z1, Z1 = vecMulVec (fun x : Fin n => z1 x) (fun x : Fin n => z1 x) := ⟨_, rfl⟩
    have hGZ : G.transpose * Z * G = Z1 := by
      rw [hZ, hZ1, Matrix.mul_vecMulVec, Matrix.vecMulVec_mul]
      congr 1
      · funext y
        rw [hz1 y, Matrix.mulVec, dotProduct]
        exact Finset.sum_congr rfl fun x _ => by rw [Matrix.transpose_apply, mul_comm]
      · funext y
        rw [hz1 y, Matrix.vecMul, dotProduct]
    rw [← hD, ← hZ]
    rw [← hD, ← hD1] at hGD
    have key : (D + rho • Z) * (G * N) - G * N * diagonal (fun x : Fin n => lam x) =
        G * ((G.transpose * D * G - D1) + (rho • Z1 - rho • vecMulVec zh zh)) * N := by
      have e2 : G * N * diagonal (fun x : Fin n => lam x) = G * (A' * N) := by rw [hNe, Matrix.mul_assoc]
      have e3 : (D + rho • Z) * (G * N) = G * ((G.transpose * D * G + rho • Z1) * N) := by
        rw [← hGZ]
        simp only [Matrix.add_mul, Matrix.mul_add, Matrix.smul_mul, Matrix.mul_smul]
        congr 1
        · simp only [← Matrix.mul_assoc]
          rw [hGr, Matrix.one_mul]
        · simp only [← Matrix.mul_assoc]
          rw [hGr, Matrix.one_mul]
      rw [e2, e3, hA', ← hD1, ← Matrix.mul_sub, ← Matrix.sub_mul, add_sub_add_comm, ← Matrix.mul_assoc]
    rw [key]
    have hz1n : ∑ i : Fin n, z1 i ^ 2 ≤ 1 := by
      have h1 : ∑ i : Fin n, z1 i ^ 2 = ∑ i : Fin n, z i ^ 2 := by
        have t1 : ∀ w : Fin n → ℝ, (vecMulVec w w).trace = ∑ i, w i ^ 2 := by
          intro w
          rw [Matrix.trace]
          exact Finset.sum_congr rfl fun i _ => by rw [Matrix.diag_apply, Matrix.vecMulVec_apply, sq]
        rw [← t1 (fun i : Fin n => z1 i), ← t1 (fun i : Fin n => z i), ← hZ, ← hZ1, ← hGZ, Matrix.trace_mul_comm, ← Matrix.mul_assoc, hGr,
          Matrix.one_mul]
      rw [h1]
      exact hz
    have hdrop := norm_drop (n := n) (z := fun i => z1 i) (p := fun x => ((σ.symm x : Fin n) : Nat) < k) (rho := rho) htol hz1n (by
      intro i hi
      have := hdef (σ.symm i) (by omega)
      rw [Equiv.apply_symm_apply] at this
      exact this)
    rw [← hZ1, ← hzh] at hdrop
    refine (norm_mul_orth hNo).trans ((norm_orth_mul hG).trans ((norm_add_le _ _).trans ?_))
    nlinarith

end DLAF
