import Verif.Spec.GenEigensolver
import Verif.Lemmas.RedBandLoop
import Mathlib.Analysis.Matrix.LDL
import Mathlib.LinearAlgebra.Matrix.Block
import Mathlib.Analysis.Matrix.PosDef
/- Every positive definite matrix has a Cholesky factor. -/
namespace DLAF
open scoped Classical ComplexOrder Matrix
variable {K : Type*} [RCLike K]

theorem chol_of_posDef {n : Nat} {S : Matrix (Fin n) (Fin n) K} (hS : S.PosDef) :
    ∃ L : Matrix (Fin n) (Fin n) K, (∀ i j, i < j → L i j = 0) ∧ (∀ i, posReal (L i i)) ∧ L * L.conjTranspose = S := by
  have hlow : ∀ i j, i < j → LDL.lower hS i j = 0 := by
    have h1 : Matrix.BlockTriangular (LDL.lowerInv hS) (OrderDual.toDual : Fin n → _) := by
      intro i j h
      exact LDL.lowerInv_triangular hS (by simpa using h)
    have h2 := Matrix.blockTriangular_inv_of_blockTriangular h1
    intro i j h
    exact h2 (show OrderDual.toDual j < OrderDual.toDual i by simpa using h)
  have hmul : LDL.lowerInv hS * LDL.lower hS = 1 := by
    unfold LDL.lower
    exact Matrix.mul_inv_of_invertible _
  have hd : ∀ i, LDL.lower hS i i ≠ 0 := by
    intro i h
    have h1 := congrFun (congrFun hmul i) i
    rw [Matrix.mul_apply, Matrix.one_apply_eq, Finset.sum_eq_single i] at h1
    · rw [h, mul_zero] at h1
      exact zero_ne_one h1
    · intro l _ hl
      rcases lt_or_gt_of_ne hl with h2 | h2
      · rw [hlow l i h2, mul_zero]
      · rw [LDL.lowerInv_triangular hS h2, zero_mul]
    · intro h; exact absurd (Finset.mem_univ _) h
  have hD : ∀ i, 0 < LDL.diagEntries hS i := by
    intro i
    have h1 : (LDL.lowerInv hS * S * (LDL.lowerInv hS).conjTranspose).PosDef := by
      refine hS.mul_mul_conjTranspose_same ?_
      intro x y hxy
      have h2 := congrArg (fun v => Matrix.vecMul v (LDL.lower hS)) hxy
      simp only [Matrix.vecMul_vecMul, hmul, Matrix.vecMul_one] at h2
      exact h2
    rw [← LDL.diag_eq_lowerInv_conj] at h1
    have h2 := h1.diag_pos (i := i)
    simpa [LDL.diag] using h2
  -- the square roots and the phases
  let g : Fin n → K := fun i => ((Real.sqrt (RCLike.re (LDL.diagEntries hS i)) : ℝ) : K) *
    (star (LDL.lower hS i i) * ((‖LDL.lower hS i i‖⁻¹ : ℝ) : K))
  have hg : ∀ i, g i * star (g i) = LDL.diagEntries hS i := by
    intro i
    have h0 : ‖LDL.lower hS i i‖ ≠ 0 := norm_ne_zero_iff.2 (hd i)
    have h1 : LDL.lower hS i i * star (LDL.lower hS i i) = ((‖LDL.lower hS i i‖ ^ 2 : ℝ) : K) := by
      rw [RCLike.star_def, RCLike.mul_conj]
      push_cast
      rfl
    have h2 := (RCLike.pos_iff (K := K)).1 (hD i)
    have h3 : LDL.diagEntries hS i = ((RCLike.re (LDL.diagEntries hS i) : ℝ) : K) := by
      conv_lhs => rw [← RCLike.re_add_im (LDL.diagEntries hS i), h2.2]
      simp
    have hr : ∀ x : ℝ, star (x : K) = (x : K) := fun x => by simp
    simp only [g, star_mul', star_star, hr]
    calc _ = (LDL.lower hS i i * star (LDL.lower hS i i)) * ((‖LDL.lower hS i i‖⁻¹ : ℝ) : K) ^ 2 *
          ((Real.sqrt (RCLike.re (LDL.diagEntries hS i)) : ℝ) : K) ^ 2 := by ring
      _ = ((‖LDL.lower hS i i‖ ^ 2 * ‖LDL.lower hS i i‖⁻¹ ^ 2 * Real.sqrt (RCLike.re (LDL.diagEntries hS i)) ^ 2 : ℝ) : K) := by
          rw [h1]; push_cast; rfl
      _ = _ := by
          rw [Real.sq_sqrt (le_of_lt h2.1), ← mul_pow, mul_inv_cancel₀ h0, one_pow, one_mul, ← h3]
  refine ⟨LDL.lower hS * Matrix.diagonal g, ?_, ?_, ?_⟩
  · intro i j h
    rw [Matrix.mul_diagonal, hlow i j h, zero_mul]
  · intro i
    have h0 : ‖LDL.lower hS i i‖ ≠ 0 := norm_ne_zero_iff.2 (hd i)
    have h2 := (RCLike.pos_iff (K := K)).1 (hD i)
    refine ⟨Real.sqrt (RCLike.re (LDL.diagEntries hS i)) * ‖LDL.lower hS i i‖,
      mul_pos (Real.sqrt_pos.2 h2.1) (lt_of_le_of_ne (norm_nonneg _) (Ne.symm h0)), ?_⟩
    rw [Matrix.mul_diagonal]
    have h1 : LDL.lower hS i i * star (LDL.lower hS i i) = ((‖LDL.lower hS i i‖ ^ 2 : ℝ) : K) := by
      rw [RCLike.star_def, RCLike.mul_conj]
      push_cast
      rfl
    calc _ = (LDL.lower hS i i * star (LDL.lower hS i i)) * ((‖LDL.lower hS i i‖⁻¹ : ℝ) : K) *
          ((Real.sqrt (RCLike.re (LDL.diagEntries hS i)) : ℝ) : K) := by simp only [g]; ring
      _ = ((‖LDL.lower hS i i‖ ^ 2 * ‖LDL.lower hS i i‖⁻¹ * Real.sqrt (RCLike.re (LDL.diagEntries hS i)) : ℝ) : K) := by
          rw [h1]; push_cast; rfl
      _ = _ := by
          congr 1
          field_simp
  · rw [Matrix.conjTranspose_mul, Matrix.diagonal_conjTranspose]
    have h4 : Matrix.diagonal g * Matrix.diagonal (star g) = LDL.diag hS := by
      rw [Matrix.diagonal_mul_diagonal]
      unfold LDL.diag
      congr 1
      funext i
      exact hg i
    calc _ = LDL.lower hS * (Matrix.diagonal g * Matrix.diagonal (star g)) * (LDL.lower hS).conjTranspose := by
          simp only [Matrix.mul_assoc]
      _ = S := by rw [h4, LDL.lower_conj_diag]

end DLAF
