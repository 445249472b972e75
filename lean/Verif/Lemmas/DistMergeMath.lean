import Verif.Lemmas.DcMerge
namespace DLAF
open Matrix

/-- Eigenvectors of `Q (diag(d) + rho z zᵀ) Qᵀ` from those of the reduced rank-one problem; `σ` leads from the places to the columns, `τ` from the result's columns to the places. -/
theorem merge_exact {n k : Nat} (hk : k ≤ n) {rho : ℝ} {d z d2 z2 lam : Nat → ℝ} {Q : Matrix (Fin n) (Fin n) ℝ} (hQ : Q.transpose * Q = 1) (σ τ : Fin n ≃ Fin n)
    (hd2 : ∀ l : Fin n, d2 l = d (σ l)) (hz2 : ∀ l : Fin n, (l : Nat) < k → z2 l = z (σ l)) (h0 : ∀ l : Fin n, k ≤ l → z (σ l) = 0) {U : Nat → Nat → ℝ}
    (hU : ∀ a < k, ∀ b < k, ∑ l ∈ Finset.range k, U l a * U l b = if a = b then 1 else 0)
    (hE : ∀ i < k, ∀ a < k, d2 i * U i a + rho * z2 i * ∑ l ∈ Finset.range k, z2 l * U l a = lam a * U i a)
    (hlam : ∀ a, k ≤ a → a < n → lam a = d2 a) {V : Matrix (Fin n) (Fin n) ℝ}
    (hV : V = (Q * (toM n n (blkW k U)).submatrix σ.symm id).submatrix id τ) :
    V.transpose * V = 1 ∧ Q * rank1M n d z rho * Q.transpose * V = V * diagonal (fun j : Fin n => lam (τ j)) := by
  obtain ⟨W, hW⟩ : ∃ W, W = toM n n (blkW k U) := ⟨_, rfl⟩
  obtain ⟨N, hN⟩ : ∃ N, N = (toM n n (blkW k U)).submatrix σ.symm id := ⟨_, rfl⟩
  rw [← hN] at hV
  have hWo := blkW_orth hk hU
  have hWe := blkW_eig hk hE hlam
  rw [← hW] at hN hWo hWe
  have hNo : N.transpose * N = 1 := by
    rw [hN, Matrix.transpose_submatrix, Matrix.submatrix_mul_equiv W.transpose W id σ.symm id, hWo, Matrix.submatrix_id_id]
  have hNe : rank1M n d z rho * N = N * diagonal (fun x : Fin n => lam x) := by
    have e1 : rank1M n d z rho = (diagonal (fun i : Fin n => d2 i) + rho • vecMulVec (fun i : Fin n => if (i : Nat) < k then z2 i else 0)
        (fun i : Fin n => if (i : Nat) < k then z2 i else 0)).submatrix σ.symm σ.symm := by
      have hz : ∀ x : Fin n, (if ((σ.symm x : Fin n) : Nat) < k then z2 (σ.symm x : Fin n) else 0) = z x := by
        intro x
        by_cases h : ((σ.symm x : Fin n) : Nat) < k
        · rw [if_pos h, hz2 _ h, Equiv.apply_symm_apply]
        · rw [if_neg h]
          have := h0 (σ.symm x) (by omega)
          rw [Equiv.apply_symm_apply] at this
          exact this.symm
      ext x y
      simp only [rank1M, Matrix.of_apply, Matrix.submatrix_apply, Matrix.add_apply, Matrix.smul_apply, Matrix.vecMulVec_apply, Matrix.diagonal_apply,
        EmbeddingLike.apply_eq_iff_eq, hd2, Equiv.apply_symm_apply, hz, smul_eq_mul, mul_assoc]
    rw [e1, hN, Matrix.submatrix_mul_equiv _ W σ.symm σ.symm id, hWe]
    ext x y
    rw [Matrix.submatrix_apply, Matrix.mul_diagonal, Matrix.mul_diagonal, Matrix.submatrix_apply]
    rfl
  have hX : (Q * N).transpose * (Q * N) = 1 := by
    rw [Matrix.transpose_mul, Matrix.mul_assoc, ← Matrix.mul_assoc Q.transpose, hQ, Matrix.one_mul, hNo]
  have hXe : Q * rank1M n d z rho * Q.transpose * (Q * N) = Q * N * diagonal (fun x : Fin n => lam x) := by
    rw [Matrix.mul_assoc, ← Matrix.mul_assoc Q.transpose, hQ, Matrix.one_mul, Matrix.mul_assoc, hNe, ← Matrix.mul_assoc]
  subst hV
  refine ⟨?_, ?_⟩
  · have := Matrix.submatrix_mul_equiv (Q * N).transpose (Q * N) τ (Equiv.refl _) τ
    rw [Matrix.transpose_submatrix]
    rw [show ((Equiv.refl (Fin n)) : Fin n → Fin n) = id from rfl] at this
    rw [this, hX, Matrix.submatrix_one_equiv]
  · have e : Q * rank1M n d z rho * Q.transpose * (Q * N).submatrix id τ = (Q * rank1M n d z rho * Q.transpose * (Q * N)).submatrix id τ := by
      ext x y
      simp only [Matrix.mul_apply, Matrix.submatrix_apply, id]
    rw [e, hXe]
    ext x y
    rw [Matrix.submatrix_apply, Matrix.mul_diagonal, Matrix.mul_diagonal, Matrix.submatrix_apply]

end DLAF
