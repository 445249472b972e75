import Verif.Model.Deflate
import Verif.Lemmas.OpNormBlk
/- Givens rotations of two columns. -/
namespace DLAF
open scoped Matrix.Norms.L2Operator
open Matrix

/-- The entries of a rotation of columns `i` and `j`. -/
def rotE (i j : Nat) (c s : ℝ) : Nat → Nat → ℝ := fun x y =>
  if y = i then (if x = i then c else if x = j then s else 0)
  else if y = j then (if x = j then c else if x = i then -s else 0) else if x = y then 1 else 0

theorem rotE_sum {n i j : Nat} (hi : i < n) (hj : j < n) (hij : i ≠ j) (c s : ℝ) (f : Nat → ℝ) {y : Nat} (hy : y < n) :
    ∑ x ∈ Finset.range n, f x * rotE i j c s x y =
      if y = i then c * f i + s * f j else if y = j then c * f j - s * f i else f y := by
  have two : ∀ (p q : ℝ), ∑ x ∈ Finset.range n, f x * (if x = i then p else if x = j then q else 0) = p * f i + q * f j := by
    intro p q
    have h1 : ∀ x ∈ Finset.range n, f x * (if x = i then p else if x = j then q else 0) =
        (if x = i then p * f i else 0) + (if x = j then q * f j else 0) := by
      intro x _
      by_cases h1 : x = i
      · rw [if_pos h1, if_pos h1, if_neg (fun h => hij (h1.symm.trans h)), h1]; ring
      · rw [if_neg h1, if_neg h1]
        by_cases h2 : x = j
        · rw [if_pos h2, if_pos h2, h2]; ring
        · rw [if_neg h2, if_neg h2]; ring
    rw [Finset.sum_congr rfl h1, Finset.sum_add_distrib, Finset.sum_ite_eq', Finset.sum_ite_eq', if_pos (Finset.mem_range.2 hi),
      if_pos (Finset.mem_range.2 hj)]
  unfold rotE
  by_cases h1 : y = i
  · simp only [if_pos h1]
    exact two c s
  · simp only [if_neg h1]
    by_cases h2 : y = j
    · simp only [if_pos h2]
      have h3 : ∀ x, (if x = j then c else if x = i then -s else 0) = if x = i then -s else if x = j then c else 0 := by
        intro x
        by_cases h4 : x = j
        · rw [if_pos h4, if_neg (fun h => hij (h.symm.trans h4)), if_pos h4]
        · rw [if_neg h4, if_neg h4]
      simp only [h3]
      rw [two]; ring
    · simp only [if_neg h2, mul_ite, mul_one, mul_zero]
      rw [Finset.sum_ite_eq', if_pos (Finset.mem_range.2 hy)]

theorem toM_rotCols {n i j : Nat} (hi : i < n) (hj : j < n) (hij : i ≠ j) (c s : ℝ) (Q : Elems ℝ) :
    toM n n (rotCols n ⟨i, j, c, s⟩ Q) = (toM n n Q * toM n n (rotE i j c s) : Matrix (Fin n) (Fin n) ℝ) := by
  ext x y
  rw [Matrix.mul_apply]
  have := rotE_sum hi hj hij c s (fun l => Q x l) y.2
  rw [Finset.sum_range] at this
  refine Eq.trans ?_ this.symm
  show rotCols n ⟨i, j, c, s⟩ Q x y = _
  unfold rotCols
  rw [if_pos x.2]

theorem rot_orth {n i j : Nat} (hi : i < n) (hj : j < n) (hij : i ≠ j) {c s : ℝ} (hcs : c ^ 2 + s ^ 2 = 1) :
    (toM n n (rotE i j c s) : Matrix (Fin n) (Fin n) ℝ).transpose * toM n n (rotE i j c s) = 1 := by
  ext a b
  rw [Matrix.mul_apply, Matrix.one_apply]
  have h := rotE_sum hi hj hij c s (fun x => rotE i j c s x a) b.2
  rw [Finset.sum_range] at h
  refine Eq.trans h ?_
  have hab : (a = b) ↔ ((a : Nat) = b) := Fin.ext_iff
  rw [if_congr hab rfl rfl]
  generalize (a : Nat) = a
  generalize (b : Nat) = b
  have hji : ¬ j = i := fun h => hij h.symm
  unfold rotE
  by_cases ha : a = i
  · subst ha
    by_cases hb : b = a
    · subst hb; simp [hji]; linear_combination hcs
    · by_cases hb2 : b = j
      · subst hb2; simp [hji, hij]; ring
      · simp [hb, hb2, Ne.symm hb]
  · by_cases ha2 : a = j
    · subst ha2
      by_cases hb : b = i
      · subst hb; simp [hji, hij]; ring
      · by_cases hb2 : b = a
        · subst hb2; simp [hji, hij]; linear_combination hcs
        · simp [ha, hb, hb2, Ne.symm hb2]
    · by_cases hb : b = i
      · subst hb; simp [ha, ha2, Ne.symm ha, Ne.symm ha2]
      · by_cases hb2 : b = j
        · subst hb2; simp [hb, ha, ha2, Ne.symm ha, Ne.symm ha2]
        · simp [ha, ha2, hb, hb2]
          exact if_congr ⟨fun h => h.symm, fun h => h.symm⟩ rfl rfl

/-- The diagonal after a rotation. -/
theorem rot_diag {n i j : Nat} (hi : i < n) (hj : j < n) (hij : i ≠ j) {c s : ℝ} (d : Nat → ℝ) :
    (toM n n (rotE i j c s) : Matrix (Fin n) (Fin n) ℝ).transpose * diagonal (fun x : Fin n => d x) * toM n n (rotE i j c s) =
      diagonal (fun x : Fin n => setF (setF d i (d i * c * c + d j * s * s)) j (d i * s * s + d j * c * c) x) +
        Matrix.single ⟨i, hi⟩ ⟨j, hj⟩ (c * s * (d j - d i)) + Matrix.single ⟨j, hj⟩ ⟨i, hi⟩ (c * s * (d j - d i)) := by
  ext a b
  rw [Matrix.mul_apply]
  simp only [Matrix.mul_diagonal, Matrix.transpose_apply, Matrix.add_apply, Matrix.single_apply, Matrix.diagonal_apply]
  have h := rotE_sum hi hj hij c s (fun x => rotE i j c s x a * d x) b.2
  rw [Finset.sum_range] at h
  refine Eq.trans h ?_
  have e1 : ∀ x y : Fin n, (x = y) ↔ ((x : Nat) = y) := fun x y => Fin.ext_iff
  simp only [e1]
  generalize (a : Nat) = a
  generalize (b : Nat) = b
  have hji : ¬ j = i := fun h => hij h.symm
  unfold rotE setF
  by_cases ha : a = i
  · subst ha
    by_cases hb : b = a
    · subst hb; simp [hji, hij]; ring
    · by_cases hb2 : b = j
      · subst hb2; simp [hji, hij]; ring
      · simp [hb, hb2, hij, hji, Ne.symm hb, Ne.symm hb2]
  · by_cases ha2 : a = j
    · subst ha2
      by_cases hb : b = i
      · subst hb; simp [hji, hij]; ring
      · by_cases hb2 : b = a
        · subst hb2; simp [hji, hij]; ring
        · simp [ha, hb, hb2, hij, Ne.symm hb2, Ne.symm hb]
    · by_cases hb : b = i
      · subst hb; simp [ha, ha2, Ne.symm ha, Ne.symm ha2]
      · by_cases hb2 : b = j
        · subst hb2; simp [hb, ha, ha2, Ne.symm ha, Ne.symm ha2]
        · simp only [ha, ha2, hb, hb2, if_false, Ne.symm ha, Ne.symm ha2, false_and, add_zero]
          by_cases hab : a = b
          · subst hab; simp
          · simp [hab, Ne.symm hab]

theorem rot_diag_norm {n i j : Nat} (hi : i < n) (hj : j < n) (hij : i ≠ j) {c s tol : ℝ} (d : Nat → ℝ)
    (ht : |c * s * (d j - d i)| ≤ tol) :
    ‖(toM n n (rotE i j c s) : Matrix (Fin n) (Fin n) ℝ).transpose * diagonal (fun x : Fin n => d x) * toM n n (rotE i j c s) -
      diagonal (fun x : Fin n => setF (setF d i (d i * c * c + d j * s * s)) j (d i * s * s + d j * c * c) x)‖ ≤ 2 * tol := by
  rw [rot_diag hi hj hij, add_assoc, add_sub_cancel_left]
  refine (norm_add_le _ _).trans ?_
  have h1 := norm_single_le (⟨i, hi⟩ : Fin n) ⟨j, hj⟩ (c * s * (d j - d i))
  have h2 := norm_single_le (⟨j, hj⟩ : Fin n) ⟨i, hi⟩ (c * s * (d j - d i))
  linarith

end DLAF
