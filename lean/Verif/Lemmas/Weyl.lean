import Verif.Lemmas.OpNorm
import Verif.Spec.Eigensolver
import Mathlib.LinearAlgebra.Matrix.ToLinearEquiv
import Mathlib.Algebra.Order.BigOperators.Group.Finset
/- Eigenvalues of Hermitian matrices that are close are close (Weyl); norms of real matrices as matrices over `K`. -/
namespace DLAF
open scoped Matrix.Norms.L2Operator
open Matrix Finset
variable {K : Type*} [RCLike K]

theorem knorm_sq (w : Fin n → K) : ‖(WithLp.toLp 2 w : EuclideanSpace K (Fin n))‖ ^ 2 = ∑ i, ‖w i‖ ^ 2 := by
  rw [EuclideanSpace.norm_sq_eq]

theorem knorm_unit {n m : Nat} {U : Matrix (Fin n) (Fin m) K} (h : U.conjTranspose * U = 1) : ‖U‖ ≤ 1 := by
  have h1 := Matrix.l2_opNorm_conjTranspose_mul_self U
  rw [h] at h1
  have h2 : ‖(1 : Matrix (Fin m) (Fin m) K)‖ ≤ 1 := by
    rw [← Matrix.diagonal_one, Matrix.l2_opNorm_diagonal]
    exact (pi_norm_le_iff_of_nonneg zero_le_one).2 fun i => by simp
  nlinarith [norm_nonneg U]

theorem knorm_mul_unit {n m k : Nat} (A : Matrix (Fin n) (Fin m) K) {U : Matrix (Fin m) (Fin k) K} (h : U.conjTranspose * U = 1) : ‖A * U‖ ≤ ‖A‖ := by
  have := Matrix.l2_opNorm_mul A U
  have h1 := knorm_unit h
  nlinarith [norm_nonneg A, norm_nonneg U]

theorem knorm_unit_mul {n m k : Nat} (A : Matrix (Fin m) (Fin k) K) {U : Matrix (Fin n) (Fin m) K} (h : U.conjTranspose * U = 1) : ‖U * A‖ ≤ ‖A‖ := by
  have := Matrix.l2_opNorm_mul U A
  have h1 := knorm_unit h
  nlinarith [norm_nonneg A, norm_nonneg U]

theorem kentry_le {n : Nat} (A : Matrix (Fin n) (Fin n) K) (i j : Fin n) : ‖A i j‖ ≤ ‖A‖ := by
  have h := Matrix.l2_opNorm_mulVec A (WithLp.toLp 2 (Pi.single j (1 : K)))
  have h1 : ‖(WithLp.toLp 2 (Pi.single j (1 : K)) : EuclideanSpace K (Fin n))‖ = 1 := by
    have := knorm_sq (K := K) (n := n) (Pi.single j 1)
    have h2 : ∑ i, ‖(Pi.single j (1 : K) : Fin n → K) i‖ ^ 2 = 1 := by
      rw [Finset.sum_eq_single j]
      · simp
      · intro b _ hb
        simp [Pi.single_eq_of_ne hb]
      · simp
    rw [h2] at this
    have h0 := norm_nonneg (WithLp.toLp 2 (Pi.single j (1 : K)) : EuclideanSpace K (Fin n))
    nlinarith
  rw [h1, mul_one] at h
  refine le_trans ?_ h
  have h3 : A i j = (A *ᵥ Pi.single j 1) i := by rw [Matrix.mulVec_single_one]; rfl
  rw [h3]
  exact PiLp.norm_apply_le (WithLp.toLp 2 (A *ᵥ Pi.single j (1 : K)) : EuclideanSpace K (Fin n)) i

/-- A real matrix has the same bound over `K`. -/
theorem knorm_ofReal {n : Nat} {R : Matrix (Fin n) (Fin n) ℝ} {δ : ℝ} (h : ‖R‖ ≤ δ) : ‖(R.map ((↑) : ℝ → K) : Matrix (Fin n) (Fin n) K)‖ ≤ δ := by
  have hδ : 0 ≤ δ := (norm_nonneg _).trans h
  have h1 := (norm_le_iff hδ).1 h
  rw [Matrix.l2_opNorm_def]
  refine ContinuousLinearMap.opNorm_le_bound _ hδ fun v => ?_
  refine le_of_sq_le_sq ?_ (mul_nonneg hδ (norm_nonneg _))
  rw [mul_pow]
  have e1 : ‖(Matrix.toEuclideanLin (R.map ((↑) : ℝ → K))).toContinuousLinearMap v‖ ^ 2 = ∑ i, ‖((R.map ((↑) : ℝ → K)) *ᵥ v.ofLp) i‖ ^ 2 := by
    rw [EuclideanSpace.norm_sq_eq]
    rfl
  have hre : ∀ i, RCLike.re (((R.map ((↑) : ℝ → K)) *ᵥ v.ofLp) i) = (R *ᵥ fun j => RCLike.re (v.ofLp j)) i := by
    intro i
    simp [Matrix.mulVec, dotProduct, map_sum]
  have him : ∀ i, RCLike.im (((R.map ((↑) : ℝ → K)) *ᵥ v.ofLp) i) = (R *ᵥ fun j => RCLike.im (v.ofLp j)) i := by
    intro i
    simp [Matrix.mulVec, dotProduct, map_sum]
  have hn : ∀ z : K, ‖z‖ ^ 2 = RCLike.re z ^ 2 + RCLike.im z ^ 2 := by
    intro z
    rw [RCLike.norm_sq_eq_def]
    ring
  have e2 : ‖v‖ ^ 2 = ∑ i, RCLike.re (v.ofLp i) ^ 2 + ∑ i, RCLike.im (v.ofLp i) ^ 2 := by
    rw [EuclideanSpace.norm_sq_eq, ← Finset.sum_add_distrib]
    exact Finset.sum_congr rfl fun i _ => hn _
  refine (le_of_eq e1).trans ?_
  rw [e2]
  simp only [hn, hre, him, Finset.sum_add_distrib]
  have a := h1 fun j => RCLike.re (v.ofLp j)
  have b := h1 fun j => RCLike.im (v.ofLp j)
  linarith

/-- Sum of the squares of the absolute values. -/
noncomputable def sqN {n : Nat} (x : Fin n → K) : ℝ := ∑ i, ‖x i‖ ^ 2

theorem quad_le {n : Nat} (R : Matrix (Fin n) (Fin n) K) {δ : ℝ} (h : ‖R‖ ≤ δ) (x : Fin n → K) :
    RCLike.re (star x ⬝ᵥ (R *ᵥ x)) ≤ δ * sqN x := by
  have h1 := Matrix.l2_opNorm_mulVec R (WithLp.toLp 2 x)
  have h2 := norm_inner_le_norm (𝕜 := K) (WithLp.toLp 2 x : EuclideanSpace K (Fin n)) (WithLp.toLp 2 (R *ᵥ x))
  have h3 : inner K (WithLp.toLp 2 x : EuclideanSpace K (Fin n)) (WithLp.toLp 2 (R *ᵥ x)) = star x ⬝ᵥ (R *ᵥ x) := by
    rw [EuclideanSpace.inner_eq_star_dotProduct, dotProduct_comm]
  rw [h3] at h2
  have h4 := RCLike.re_le_norm (star x ⬝ᵥ (R *ᵥ x))
  have h5 : sqN x = ‖(WithLp.toLp 2 x : EuclideanSpace K (Fin n))‖ ^ 2 := (knorm_sq x).symm
  rw [h5]
  refine h4.trans (h2.trans ?_)
  have h6 := norm_nonneg (WithLp.toLp 2 x : EuclideanSpace K (Fin n))
  have h7 : ‖(WithLp.toLp 2 (R *ᵥ x) : EuclideanSpace K (Fin n))‖ ≤ δ * ‖(WithLp.toLp 2 x : EuclideanSpace K (Fin n))‖ :=
    h1.trans (mul_le_mul_of_nonneg_right h h6)
  nlinarith

theorem quad_diag {n : Nat} {T V : Matrix (Fin n) (Fin n) K} {mu : Fin n → ℝ} (hV : V.conjTranspose * V = 1)
    (hT : T * V = V * diagonal fun i => (mu i : K)) (x : Fin n → K) :
    RCLike.re (star x ⬝ᵥ (T *ᵥ x)) = ∑ j, mu j * ‖(V.conjTranspose *ᵥ x) j‖ ^ 2 ∧ sqN x = ∑ j, ‖(V.conjTranspose *ᵥ x) j‖ ^ 2 := by
  have h1 : V * V.conjTranspose = 1 := mul_eq_one_comm.1 hV
  have hx : x = V *ᵥ (V.conjTranspose *ᵥ x) := by rw [Matrix.mulVec_mulVec, h1, Matrix.one_mulVec]
  obtain ⟨a, ha⟩ : ∃ a, a = V.conjTranspose *ᵥ x := ⟨_, rfl⟩
  rw [← ha] at hx ⊢
  have key : ∀ b : Fin n → K, star x ⬝ᵥ (V *ᵥ b) = star a ⬝ᵥ b := by
    intro b
    rw [Matrix.dotProduct_mulVec, ha, Matrix.star_mulVec, Matrix.conjTranspose_conjTranspose]
  have hz : ∀ z : K, star z * z = ((‖z‖ ^ 2 : ℝ) : K) := by
    intro z
    rw [RCLike.star_def, RCLike.conj_mul]
    push_cast
    rfl
  constructor
  · have : T *ᵥ x = V *ᵥ ((diagonal fun i => (mu i : K)) *ᵥ a) := by
      rw [hx, Matrix.mulVec_mulVec, hT, Matrix.mulVec_mulVec]
    rw [this, key]
    simp only [dotProduct, map_sum]
    refine Finset.sum_congr rfl fun j _ => ?_
    rw [Matrix.mulVec_diagonal, Pi.star_apply, mul_left_comm, hz, ← RCLike.ofReal_mul, RCLike.ofReal_re]
  · have h2 := key a
    rw [← hx] at h2
    have h3 := congrArg RCLike.re h2
    simp only [dotProduct, map_sum, Pi.star_apply, hz, RCLike.ofReal_re] at h3
    exact h3

theorem weyl_le {n : Nat} {T B V Z : Matrix (Fin n) (Fin n) K} {mu lam : Fin n → ℝ} {δ : ℝ} (hV : V.conjTranspose * V = 1)
    (hZ : Z.conjTranspose * Z = 1) (hT : T * V = V * diagonal fun i => (mu i : K)) (hB : B * Z = Z * diagonal fun i => (lam i : K))
    (hmu : ∀ i j, i ≤ j → mu i ≤ mu j) (hlam : ∀ i j, i ≤ j → lam i ≤ lam j) (hd : ‖B - T‖ ≤ δ) (i : Fin n) : lam i ≤ mu i + δ := by
  obtain ⟨x, hx0, hx⟩ : ∃ x : Fin n → K, x ≠ 0 ∧
      (Matrix.of fun (j k : Fin n) => if j < i then star (Z k j) else if i < j then star (V k j) else 0) *ᵥ x = 0 := by
    rw [Matrix.exists_mulVec_eq_zero_iff]
    refine Matrix.det_eq_zero_of_row_eq_zero i fun k => ?_
    simp
  obtain ⟨q1, q2⟩ := quad_diag hV hT x
  obtain ⟨q3, q4⟩ := quad_diag hZ hB x
  have a0 : ∀ j, i < j → (V.conjTranspose *ᵥ x) j = 0 := by
    intro j hj
    have := congrFun hx j
    simp only [Matrix.mulVec, dotProduct, Matrix.of_apply, if_neg (not_lt.2 hj.le), if_pos hj] at this
    exact this
  have b0 : ∀ j, j < i → (Z.conjTranspose *ᵥ x) j = 0 := by
    intro j hj
    have := congrFun hx j
    simp only [Matrix.mulVec, dotProduct, Matrix.of_apply, if_pos hj] at this
    exact this
  have h1 : RCLike.re (star x ⬝ᵥ (T *ᵥ x)) ≤ mu i * sqN x := by
    rw [q1, q2, Finset.mul_sum]
    refine Finset.sum_le_sum fun j _ => ?_
    rcases lt_or_ge i j with h | h
    · rw [a0 j h]; simp
    · exact mul_le_mul_of_nonneg_right (hmu j i h) (sq_nonneg _)
  have h2 : lam i * sqN x ≤ RCLike.re (star x ⬝ᵥ (B *ᵥ x)) := by
    rw [q3, q4, Finset.mul_sum]
    refine Finset.sum_le_sum fun j _ => ?_
    rcases lt_or_ge j i with h | h
    · rw [b0 j h]; simp
    · exact mul_le_mul_of_nonneg_right (hlam i j h) (sq_nonneg _)
  have h3 := quad_le (B - T) hd x
  rw [Matrix.sub_mulVec, dotProduct_sub, map_sub] at h3
  have hpos : 0 < sqN x := by
    obtain ⟨k, hk⟩ : ∃ k, x k ≠ 0 := by
      by_contra hc
      push Not at hc
      exact hx0 (funext hc)
    exact Finset.sum_pos' (fun _ _ => sq_nonneg _) ⟨k, Finset.mem_univ _, by positivity⟩
  by_contra hc
  push Not at hc
  nlinarith

/-- Eigenvalues with a small residual and orthonormal vectors are those of the matrix up to the residual. -/
theorem weyl {n : Nat} {T V Z : Matrix (Fin n) (Fin n) K} {mu lam : Fin n → ℝ} {δ : ℝ} (hV : V.conjTranspose * V = 1)
    (hZ : Z.conjTranspose * Z = 1) (hT : T * V = V * diagonal fun i => (mu i : K))
    (hB : ‖T * Z - Z * diagonal fun i => (lam i : K)‖ ≤ δ) (hmu : ∀ i j, i ≤ j → mu i ≤ mu j)
    (hlam : ∀ i j, i ≤ j → lam i ≤ lam j) (i : Fin n) : |lam i - mu i| ≤ δ := by
  have hZ' : Z * Z.conjTranspose = 1 := mul_eq_one_comm.1 hZ
  have hZt : Z.conjTranspose.conjTranspose * Z.conjTranspose = 1 := by rw [Matrix.conjTranspose_conjTranspose]; exact hZ'
  have hB1 : (Z * (diagonal fun i => (lam i : K)) * Z.conjTranspose) * Z = Z * diagonal fun i => (lam i : K) := by
    rw [Matrix.mul_assoc, hZ, Matrix.mul_one]
  have hd : ‖T - Z * (diagonal fun i => (lam i : K)) * Z.conjTranspose‖ ≤ δ := by
    have : T - Z * (diagonal fun i => (lam i : K)) * Z.conjTranspose = (T * Z - Z * diagonal fun i => (lam i : K)) * Z.conjTranspose := by
      rw [Matrix.sub_mul, Matrix.mul_assoc T, hZ', Matrix.mul_one]
    rw [this]
    exact (knorm_mul_unit _ hZt).trans hB
  have h1 := weyl_le hZ hV hB1 hT hlam hmu hd i
  have h2 := weyl_le hV hZ hT hB1 hmu hlam ((norm_sub_rev _ _).trans_le hd) i
  rw [abs_le]
  constructor <;> linarith

end DLAF
