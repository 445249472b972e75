import Mathlib.Analysis.CStarAlgebra.Matrix
import Mathlib.Tactic.Linarith
import Mathlib.Tactic.Ring
/- The operator norm of real matrices: orthogonal, rank one, bidiagonal, block diagonal. -/
namespace DLAF
open scoped Matrix.Norms.L2Operator
open Matrix
variable {n m : Nat}

theorem star_eq_transpose (A : Matrix (Fin n) (Fin m) ℝ) : A.conjTranspose = A.transpose := by
  ext i j
  simp [Matrix.conjTranspose_apply]

theorem norm_sq_eq (A : Matrix (Fin n) (Fin m) ℝ) : ‖A‖ ^ 2 = ‖A.transpose * A‖ := by
  rw [sq, ← star_eq_transpose, Matrix.l2_opNorm_conjTranspose_mul_self]

theorem norm_transpose (A : Matrix (Fin n) (Fin m) ℝ) : ‖A.transpose‖ = ‖A‖ := by
  rw [← star_eq_transpose, Matrix.l2_opNorm_conjTranspose]

theorem norm_diag_le {v : Fin n → ℝ} {c : ℝ} (hc : 0 ≤ c) (h : ∀ i, |v i| ≤ c) : ‖diagonal v‖ ≤ c := by
  rw [Matrix.l2_opNorm_diagonal]
  exact (pi_norm_le_iff_of_nonneg hc).2 h

theorem le_norm_diag (v : Fin n → ℝ) (i : Fin n) : |v i| ≤ ‖diagonal v‖ := by
  rw [Matrix.l2_opNorm_diagonal]
  exact norm_le_pi_norm v i

theorem norm_one_le : ‖(1 : Matrix (Fin n) (Fin n) ℝ)‖ ≤ 1 := by
  rw [← Matrix.diagonal_one]
  exact norm_diag_le zero_le_one fun i => by simp

/-- Matrices with orthonormal columns have norm at most one. -/
theorem norm_orth {U : Matrix (Fin n) (Fin m) ℝ} (h : U.transpose * U = 1) : ‖U‖ ≤ 1 := by
  have h1 := norm_sq_eq U
  rw [h] at h1
  have h2 := norm_one_le (n := m)
  nlinarith [norm_nonneg U]

theorem norm_mul_orth {A : Matrix (Fin n) (Fin n) ℝ} {U : Matrix (Fin n) (Fin n) ℝ} (h : U.transpose * U = 1) : ‖A * U‖ ≤ ‖A‖ := by
  have := norm_mul_le A U
  have h1 := norm_orth h
  nlinarith [norm_nonneg A, norm_nonneg U]

theorem norm_orth_mul {A : Matrix (Fin n) (Fin n) ℝ} {U : Matrix (Fin n) (Fin n) ℝ} (h : U.transpose * U = 1) : ‖U * A‖ ≤ ‖A‖ := by
  have := norm_mul_le U A
  have h1 := norm_orth h
  nlinarith [norm_nonneg A, norm_nonneg U]

theorem norm_orth_t_mul {A : Matrix (Fin n) (Fin n) ℝ} {U : Matrix (Fin n) (Fin n) ℝ} (h : U.transpose * U = 1) : ‖U.transpose * A‖ ≤ ‖A‖ := by
  have := norm_mul_le U.transpose A
  have h1 := norm_orth h
  rw [norm_transpose] at this
  nlinarith [norm_nonneg A, norm_nonneg U]

theorem orth_right {U : Matrix (Fin n) (Fin n) ℝ} (h : U.transpose * U = 1) : U * U.transpose = 1 := mul_eq_one_comm.1 h

/-- The norm of a column. -/
theorem norm_col (u : Fin n → ℝ) : ‖(Matrix.of fun i (_ : Fin 1) => u i : Matrix (Fin n) (Fin 1) ℝ)‖ = Real.sqrt (∑ i, u i ^ 2) := by
  have h1 := norm_sq_eq (Matrix.of fun i (_ : Fin 1) => u i : Matrix (Fin n) (Fin 1) ℝ)
  have h2 : (Matrix.of fun i (_ : Fin 1) => u i : Matrix (Fin n) (Fin 1) ℝ).transpose * (Matrix.of fun i (_ : Fin 1) => u i) =
      diagonal fun _ : Fin 1 => ∑ i, u i ^ 2 := by
    ext a b
    rw [Matrix.mul_apply, Subsingleton.elim a 0, Subsingleton.elim b 0, Matrix.diagonal_apply_eq]
    exact Finset.sum_congr rfl fun i _ => by simp [Matrix.transpose_apply, sq]
  have h3 : ‖(diagonal fun _ : Fin 1 => ∑ i, u i ^ 2 : Matrix (Fin 1) (Fin 1) ℝ)‖ = ∑ i, u i ^ 2 := by
    have hs : 0 ≤ ∑ i, u i ^ 2 := Finset.sum_nonneg fun i _ => sq_nonneg _
    refine le_antisymm (norm_diag_le hs fun _ => by rw [abs_of_nonneg hs]) ?_
    have := le_norm_diag (fun _ : Fin 1 => ∑ i, u i ^ 2) 0
    rwa [abs_of_nonneg hs] at this
  rw [h2, h3] at h1
  rw [← h1, Real.sqrt_sq (norm_nonneg _)]

/-- The norm of a rank-one matrix. -/
theorem norm_vecMulVec (u v : Fin n → ℝ) : ‖vecMulVec u v‖ ≤ Real.sqrt (∑ i, u i ^ 2) * Real.sqrt (∑ i, v i ^ 2) := by
  have h : vecMulVec u v = (Matrix.of fun i (_ : Fin 1) => u i : Matrix (Fin n) (Fin 1) ℝ) *
      (Matrix.of fun i (_ : Fin 1) => v i : Matrix (Fin n) (Fin 1) ℝ).transpose := by
    ext i j
    simp [Matrix.mul_apply, Matrix.vecMulVec_apply]
  rw [h]
  refine (Matrix.l2_opNorm_mul _ _).trans ?_
  rw [norm_transpose, norm_col, norm_col]

/-- Matrices with one entry. -/
theorem norm_single_le (i j : Fin n) (t : ℝ) : ‖Matrix.single i j t‖ ≤ |t| := by
  have h : Matrix.single i j t = vecMulVec (fun x => if x = i then t else 0) (fun y => if y = j then 1 else 0) := by
    ext x y
    rw [Matrix.single_apply, Matrix.vecMulVec_apply]
    by_cases h1 : x = i <;> by_cases h2 : y = j
    · simp [h1, h2]
    · simp [h1, h2, Ne.symm h2]
    · simp [h1, h2, Ne.symm h1]
    · simp [h1, h2, Ne.symm h1]
  rw [h]
  refine (norm_vecMulVec _ _).trans ?_
  have h1 : ∑ x : Fin n, (if x = i then t else 0) ^ 2 = t ^ 2 := by
    rw [Finset.sum_eq_single i (fun b _ hb => by simp [hb]) (fun h => absurd (Finset.mem_univ _) h), if_pos rfl]
  have h2 : ∑ x : Fin n, (if x = j then (1 : ℝ) else 0) ^ 2 = 1 := by
    rw [Finset.sum_eq_single j (fun b _ hb => by simp [hb]) (fun h => absurd (Finset.mem_univ _) h), if_pos rfl, one_pow]
  rw [h1, h2, Real.sqrt_one, mul_one, Real.sqrt_sq_eq_abs]

/-- Characterization with vectors. -/
theorem norm_le_iff {R : Matrix (Fin n) (Fin n) ℝ} {δ : ℝ} (hδ : 0 ≤ δ) :
    ‖R‖ ≤ δ ↔ ∀ v : Fin n → ℝ, ∑ i, (R *ᵥ v) i ^ 2 ≤ δ ^ 2 * ∑ i, v i ^ 2 := by
  have hn : ∀ w : Fin n → ℝ, ‖(WithLp.toLp 2 w : EuclideanSpace ℝ (Fin n))‖ ^ 2 = ∑ i, w i ^ 2 := by
    intro w
    rw [EuclideanSpace.norm_sq_eq]
    exact Finset.sum_congr rfl fun i _ => by simp [sq_abs]
  constructor
  · intro h v
    have h1 := Matrix.l2_opNorm_mulVec R (WithLp.toLp 2 v : EuclideanSpace ℝ (Fin n))
    have h2 : ‖(WithLp.toLp 2 (R *ᵥ v) : EuclideanSpace ℝ (Fin n))‖ ≤ δ * ‖(WithLp.toLp 2 v : EuclideanSpace ℝ (Fin n))‖ := by
      refine le_trans h1 ?_
      exact mul_le_mul_of_nonneg_right h (norm_nonneg _)
    have h3 := pow_le_pow_left₀ (norm_nonneg _) h2 2
    rwa [hn, mul_pow, hn] at h3
  · intro h
    rw [Matrix.l2_opNorm_def]
    refine ContinuousLinearMap.opNorm_le_bound _ hδ fun x => ?_
    have h1 := h x.ofLp
    refine le_of_sq_le_sq ?_ (by positivity)
    rw [mul_pow]
    have e1 : ‖x‖ ^ 2 = ∑ i, x.ofLp i ^ 2 := hn x.ofLp
    have e2 : ‖(toEuclideanLin ≪≫ₗ LinearMap.toContinuousLinearMap) R x‖ ^ 2 = ∑ i, (R *ᵥ x.ofLp) i ^ 2 := hn (R *ᵥ x.ofLp)
    rw [e1, e2]
    exact h1

end DLAF
