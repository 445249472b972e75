import Verif.Lemmas.OpNorm
import Verif.Spec.BandTridiag
import Verif.Lemmas.LapackExists
/- Norms of block diagonal and tridiagonal matrices given by entries. -/
namespace DLAF
open scoped Matrix.Norms.L2Operator
open Matrix

theorem mulVec_range {n : Nat} (R : Nat → Nat → ℝ) (v : Nat → ℝ) (i : Fin n) :
    ((toM n n R : Matrix (Fin n) (Fin n) ℝ) *ᵥ fun j => v j) i = ∑ j ∈ Finset.range n, R i j * v j := by
  rw [Finset.sum_range]
  rfl

theorem norm_le_range {n : Nat} {R : Nat → Nat → ℝ} {δ : ℝ} (hδ : 0 ≤ δ) :
    ‖(toM n n R : Matrix (Fin n) (Fin n) ℝ)‖ ≤ δ ↔
    ∀ v : Nat → ℝ, ∑ i ∈ Finset.range n, (∑ j ∈ Finset.range n, R i j * v j) ^ 2 ≤ δ ^ 2 * ∑ i ∈ Finset.range n, v i ^ 2 := by
  rw [norm_le_iff hδ]
  constructor
  · intro h v
    have := h fun j => v j
    rw [Finset.sum_range, Finset.sum_range (fun i => v i ^ 2)]
    simpa only [mulVec_range] using this
  · intro h v
    have := h fun j => if hj : j < n then v ⟨j, hj⟩ else 0
    rw [Finset.sum_range, Finset.sum_range (fun i => (if hj : i < n then v ⟨i, hj⟩ else 0) ^ 2)] at this
    simp only [Fin.is_lt, dite_true, Fin.eta] at this
    refine le_trans (le_of_eq ?_) this
    refine Finset.sum_congr rfl fun i _ => ?_
    rw [← mulVec_range]
    congr 2
    congr 1
    funext j
    simp

/-- Block diagonal matrices. -/
theorem norm_blk {n1 n2 : Nat} {R : Nat → Nat → ℝ} {δ : ℝ} (hδ : 0 ≤ δ)
    (h0 : ∀ i j, i < n1 + n2 → j < n1 + n2 → (i < n1 ∧ n1 ≤ j) ∨ (j < n1 ∧ n1 ≤ i) → R i j = 0)
    (h1 : ‖(toM n1 n1 R : Matrix (Fin n1) (Fin n1) ℝ)‖ ≤ δ)
    (h2 : ‖(toM n2 n2 (fun i j => R (n1 + i) (n1 + j)) : Matrix (Fin n2) (Fin n2) ℝ)‖ ≤ δ) :
    ‖(toM (n1 + n2) (n1 + n2) R : Matrix (Fin (n1 + n2)) (Fin (n1 + n2)) ℝ)‖ ≤ δ := by
  rw [norm_le_range hδ] at h1 h2 ⊢
  intro v
  have e1 := h1 v
  have e2 := h2 fun j => v (n1 + j)
  rw [Finset.sum_range_add, Finset.sum_range_add (fun i => v i ^ 2), mul_add]
  refine add_le_add (le_trans (le_of_eq ?_) e1) (le_trans (le_of_eq ?_) e2)
  · refine Finset.sum_congr rfl fun i hi => ?_
    have hi := Finset.mem_range.1 hi
    rw [Finset.sum_range_add]
    have : ∑ x ∈ Finset.range n2, R i (n1 + x) * v (n1 + x) = 0 :=
      Finset.sum_eq_zero fun x hx => by
        have hx := Finset.mem_range.1 hx
        rw [h0 i (n1 + x) (by omega) (by omega) (Or.inl ⟨hi, by omega⟩), zero_mul]
    rw [this, add_zero]
  · refine Finset.sum_congr rfl fun i hi => ?_
    have hi := Finset.mem_range.1 hi
    rw [Finset.sum_range_add]
    have : ∑ x ∈ Finset.range n1, R (n1 + i) x * v x = 0 :=
      Finset.sum_eq_zero fun x hx => by
        have hx := Finset.mem_range.1 hx
        rw [h0 (n1 + i) x (by omega) (by omega) (Or.inr ⟨hx, by omega⟩), zero_mul]
    rw [this, zero_add]

/-- Symmetric tridiagonal matrices. -/
theorem norm_tri_le {n : Nat} {d e : Nat → ℝ} {a b : ℝ} (ha : 0 ≤ a) (hb : 0 ≤ b) (hd : ∀ i < n, |d i| ≤ a)
    (he : ∀ i, i + 1 < n → |e i| ≤ b) : ‖(triM n d e : Matrix (Fin n) (Fin n) ℝ)‖ ≤ a + 2 * b := by
  obtain ⟨F, hF⟩ : ∃ F : Matrix (Fin n) (Fin n) ℝ, ∀ x y, F x y = if (x : Nat) = y + 1 then e y else 0 :=
    ⟨Matrix.of fun x y => if (x : Nat) = y + 1 then e y else 0, fun _ _ => rfl⟩
  have hsum : (triM n d e : Matrix (Fin n) (Fin n) ℝ) = diagonal (fun i : Fin n => d i) + F + F.transpose := by
    ext x y
    simp only [Matrix.add_apply, Matrix.transpose_apply, hF, triM, Matrix.diagonal_apply]
    by_cases h1 : (x : Nat) = y
    · have h2 : x = y := Fin.ext h1
      subst h2
      simp
    · have h2 : ¬ x = y := fun h => h1 (congrArg _ h)
      rw [if_neg h1, if_neg h2, zero_add]
      by_cases h3 : (x : Nat) = y + 1
      · rw [if_pos h3, if_pos h3, if_neg (by omega), add_zero]; rfl
      · rw [if_neg h3, if_neg h3, zero_add]; rfl
  have hFn : ‖F‖ ≤ b := by
    have h1 : F.transpose * F = diagonal fun y : Fin n => if (y : Nat) + 1 < n then e y ^ 2 else 0 := by
      ext x y
      rw [Matrix.mul_apply, Matrix.diagonal_apply]
      simp only [Matrix.transpose_apply, hF]
      by_cases hxy : x = y
      · subst hxy
        rw [if_pos rfl]
        by_cases hx : (x : Nat) + 1 < n
        · rw [if_pos hx, Finset.sum_eq_single ⟨x + 1, hx⟩]
          · simp [sq]
          · intro w _ hw
            have hw' : ¬ (w : Nat) = x + 1 := fun h => hw (Fin.ext h)
            rw [if_neg hw', zero_mul]
          · intro h; exact absurd (Finset.mem_univ _) h
        · rw [if_neg hx]
          refine Finset.sum_eq_zero fun w _ => ?_
          have := w.2
          rw [if_neg (by omega), zero_mul]
      · rw [if_neg hxy]
        refine Finset.sum_eq_zero fun w _ => ?_
        by_cases h2 : (w : Nat) = x + 1
        · have h3 : ¬ (w : Nat) = y + 1 := fun h => hxy (Fin.ext (by omega))
          rw [if_neg h3, mul_zero]
        · rw [if_neg h2, zero_mul]
    have h2 := norm_sq_eq F
    have h3 : ‖F.transpose * F‖ ≤ b ^ 2 := by
      rw [h1]
      refine norm_diag_le (sq_nonneg b) fun y => ?_
      split
      · next hy =>
        rw [abs_of_nonneg (sq_nonneg _), ← sq_abs]
        exact pow_le_pow_left₀ (abs_nonneg _) (he _ hy) 2
      · rw [abs_zero]; exact sq_nonneg b
    rw [← h2] at h3
    exact le_of_sq_le_sq h3 hb
  rw [hsum]
  refine (norm_add_le _ _).trans ?_
  refine (add_le_add (norm_add_le _ _) (le_refl _)).trans ?_
  rw [norm_transpose]
  have := norm_diag_le (n := n) ha (v := fun i => d i) fun i => hd i i.2
  linarith

end DLAF
