import Mathlib.LinearAlgebra.Matrix.Charpoly.Basic
import Mathlib.Algebra.Polynomial.Roots
import Verif.Lemmas.DcMath
/- The spectrum of a matrix from orthonormal eigenvectors. -/
namespace DLAF
open Matrix Polynomial

theorem orth_charpoly {n : Nat} {A Q : Matrix (Fin n) (Fin n) ℝ} (hQ : Q.transpose * Q = 1) : (Q * A * Q.transpose).charpoly = A.charpoly := by
  have hQ' : Q * Q.transpose = 1 := mul_eq_one_comm.1 hQ
  obtain ⟨U, hU⟩ : ∃ U : (Matrix (Fin n) (Fin n) ℝ)ˣ, U = ⟨Q, Q.transpose, hQ', hQ⟩ := ⟨_, rfl⟩
  have h := Matrix.charpoly_units_conj U A
  have hi : U⁻¹.val = Q.transpose := by rw [hU]; rfl
  have hv : U.val = Q := by rw [hU]
  simp only [← Matrix.coe_units_inv] at h
  rw [hi, hv] at h
  exact h

theorem orth_roots {n : Nat} {A Q V : Matrix (Fin n) (Fin n) ℝ} {lam : Nat → ℝ} (hQ : Q.transpose * Q = 1) (hV : V.transpose * V = 1)
    (hA : Q * A * Q.transpose * V = V * diagonal (fun j : Fin n => lam j)) : A.charpoly.roots = Multiset.map lam (Multiset.range n) := by
  have hV' : V * V.transpose = 1 := mul_eq_one_comm.1 hV
  have e : Q * A * Q.transpose = V * diagonal (fun j : Fin n => lam j) * V.transpose := by
    rw [← hA, Matrix.mul_assoc (Q * A * Q.transpose) V V.transpose, hV', Matrix.mul_one]
  rw [← orth_charpoly hQ, e, orth_charpoly hV, Matrix.charpoly_diagonal]
  have : (∏ i : Fin n, (X - C (lam i))) = (Multiset.map (fun a => X - C a) (Multiset.map lam (Multiset.range n))).prod := by
    rw [Multiset.map_map]
    exact Fin.prod_univ_eq_prod_range (fun i => X - C (lam i)) n
  rw [this, Polynomial.roots_multiset_prod_X_sub_C]

end DLAF
