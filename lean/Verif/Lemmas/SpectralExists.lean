import Verif.Spec.Eigensolver
import Mathlib.Analysis.Matrix.Spectrum
/- There is a tridiagonal eigensolver that satisfies `TridiagSpec` (used to show that the contract can be met). -/
namespace DLAF
open scoped Classical

/-- Every real symmetric matrix has ascending eigenvalues and an orthogonal matrix of eigenvectors. -/
theorem spectral_sorted {n : Nat} (A : Matrix (Fin n) (Fin n) ℝ) (hA : A.transpose = A) :
    ∃ (lam : Nat → ℝ) (Z : Nat → Nat → ℝ), (∀ i j, i ≤ j → j < n → lam i ≤ lam j) ∧ (toM n n Z).transpose * toM n n Z = 1 ∧
      A * toM n n Z = toM n n Z * diagM n lam := by
  have hH : A.IsHermitian := by
    show A.conjTranspose = A
    rw [Matrix.conjTranspose_eq_transpose_of_trivial, hA]
  obtain ⟨σ, hσ⟩ : ∃ σ : Equiv.Perm (Fin n), Monotone (hH.eigenvalues ∘ σ) := ⟨Tuple.sort _, Tuple.monotone_sort _⟩
  have hU : (hH.eigenvectorUnitary : Matrix (Fin n) (Fin n) ℝ).conjTranspose * hH.eigenvectorUnitary = 1 :=
    (Matrix.mem_unitaryGroup_iff').1 hH.eigenvectorUnitary.2
  refine ⟨fun i => if h : i < n then hH.eigenvalues (σ ⟨i, h⟩) else 0,
    fun x y => if h : x < n ∧ y < n then (hH.eigenvectorUnitary : Matrix (Fin n) (Fin n) ℝ) ⟨x, h.1⟩ (σ ⟨y, h.2⟩) else 0, ?_, ?_, ?_⟩
  · intro i j hij hj
    beta_reduce
    rw [dif_pos hj, dif_pos (Nat.lt_of_le_of_lt hij hj)]
    exact hσ (a := ⟨i, Nat.lt_of_le_of_lt hij hj⟩) (b := ⟨j, hj⟩) hij
  · ext x y
    have := congrFun (congrFun hU (σ x)) (σ y)
    rw [Matrix.mul_apply] at this ⊢
    simp only [Matrix.transpose_apply, toM, Fin.is_lt, and_self, dif_pos, Fin.eta]
    simp only [Matrix.conjTranspose_apply, star_trivial] at this
    rw [this, Matrix.one_apply, Matrix.one_apply]
    simp only [EmbeddingLike.apply_eq_iff_eq]
  · ext x y
    have h1 := congrFun (hH.mulVec_eigenvectorBasis (σ y)) x
    rw [Matrix.mul_apply]
    simp only [diagM, Matrix.mul_diagonal, toM, Fin.is_lt, and_self, dif_pos, Fin.eta, Matrix.IsHermitian.eigenvectorUnitary_apply]
    rw [Matrix.mulVec, dotProduct] at h1
    rw [h1]
    simp [mul_comm]

/-- The triangular matrix is symmetric. -/
theorem triM_transpose {K : Type*} [RCLike K] (n : Nat) (d e : Nat → ℝ) : (triM n d e : Matrix (Fin n) (Fin n) K).transpose = triM n d e := by
  ext x y
  simp only [Matrix.transpose_apply, triM]
  by_cases h1 : (x : Nat) = y
  · rw [if_pos h1.symm, if_pos h1, h1]
  · rw [if_neg (Ne.symm h1), if_neg h1]
    by_cases h2 : (x : Nat) = y + 1
    · rw [if_pos h2, if_neg (by omega), if_pos h2]
    · rw [if_neg h2]
      by_cases h3 : (y : Nat) = x + 1
      · rw [if_pos h3, if_neg h2]
      · rw [if_neg h3, if_neg h2]

/-- A tridiagonal eigensolver. -/
noncomputable def triStd (n _nb : Nat) (d e : Nat → ℝ) : Option ((Nat → ℝ) × (Nat → Nat → ℝ)) :=
  some (Classical.choose (spectral_sorted (triM n d e) (triM_transpose n d e)),
    Classical.choose (Classical.choose_spec (spectral_sorted (triM n d e) (triM_transpose n d e))))

theorem triStd_spec : TridiagSpec triStd := fun n _ d e _ _ =>
  ⟨_, _, rfl, Classical.choose_spec (Classical.choose_spec (spectral_sorted (triM n d e) (triM_transpose n d e)))⟩

end DLAF
