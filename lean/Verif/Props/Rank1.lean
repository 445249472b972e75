import Verif.Lemmas.Laed4Exists
import Mathlib.Data.Matrix.Diagonal
/- C51: the solver of the rank-one update problem. -/
namespace DLAF

/-- The permutation only moves the first `k` positions among themselves. -/
def KeepsFirst (perm : List Nat) (k n : Nat) : Prop :=
  (∀ i < k, perm.getD i 0 < k) ∧ ∀ i < n, k ≤ i → k ≤ perm.getD i 0

/-- What the workers must have computed: `(λ_j, u_j)`, `j < k`, are the eigenpairs of `diag(d) + rho z zᵀ`, eigenvalues ascending
and eigenvectors orthonormal; entry `i` of column `j` of the result is entry `perm i` of `u_j`; nothing else changes. -/
def Rank1Solved (k : Nat) (d : Nat → ℝ) (rho : ℝ) (perm : List Nat) (s s' : R1St) : Prop :=
  ∃ U : Matrix (Fin k) (Fin k) ℝ,
    U.transpose * U = 1 ∧ rank1M k d s.z rho * U = U * Matrix.diagonal (fun j : Fin k => s'.evals j) ∧
    (∀ i j, i < j → j < k → s'.evals i ≤ s'.evals j) ∧
    (∀ (i j l : Fin k), perm.getD i 0 = l → s'.q i j = U l j) ∧
    (∀ j, k ≤ j → s'.evals j = s.evals j) ∧ ∀ i j, k ≤ i ∨ k ≤ j → s'.q i j = s.q i j

theorem rank1_matrix {k : Nat} {d z : Nat → ℝ} {rho : ℝ} {lam : Nat → ℝ} {V : Nat → Nat → ℝ} (h : EigPairs k d z rho lam V) :
    (Matrix.of fun i j : Fin k => V i j).transpose * (Matrix.of fun i j : Fin k => V i j) = 1 ∧
    rank1M k d z rho * (Matrix.of fun i j : Fin k => V i j) =
      (Matrix.of fun i j : Fin k => V i j) * Matrix.diagonal (fun j : Fin k => lam j) := by
  constructor
  · ext a b
    rw [Matrix.mul_apply, Matrix.one_apply]
    simp only [Matrix.transpose_apply, Matrix.of_apply]
    have h1 := h.orth a a.2 b b.2
    rw [Finset.sum_range] at h1
    rw [h1]
    exact if_congr (by rw [Fin.ext_iff]) rfl rfl
  · ext i a
    rw [Matrix.mul_apply, Matrix.mul_diagonal]
    simp only [rank1M, Matrix.of_apply]
    have h1 := h.eig a a.2 i i.2
    rw [Finset.sum_range, Finset.mul_sum] at h1
    rw [mul_comm (V i a), ← h1]
    simp only [add_mul, Finset.sum_add_distrib, ite_mul, zero_mul, Finset.sum_ite_eq, Finset.mem_univ, if_true]
    congr 1
    exact Finset.sum_congr rfl fun l _ => by ring

/-- C51: for every order `k ≤ n`, number of tiles and of available workers (at least one), distinct ascending `d` and `z` without
zeros, `rho > 0` (none of these needed if `k ≤ 1`), and every permutation that keeps the non-deflated entries first, the solver
terminates without abort with all eigenpairs of the rank-one update, orthonormal and ascending. -/
theorem C51_solved (g : R1Cfg) (h4 : Laed4Spec g.laed4) (avail nrtiles : Nat) (hav : 0 < avail) (s : R1St) (hkn : g.k ≤ g.n)
    (hin : 2 ≤ g.k → SecularInput g.k g.d s.z g.rho) (hp : KeepsFirst g.perm g.k g.n) :
    ∃ s', solveRank1 g avail nrtiles s = some s' ∧ Rank1Solved g.k g.d g.rho g.perm s s' := by
  have hw : 0 < r1Workers avail nrtiles := by
    unfold r1Workers clampN
    split
    · omega
    · split <;> omega
  refine ⟨r1Run g (r1Workers avail nrtiles) s, ?_, ?_⟩
  · unfold solveRank1
    rw [if_neg]
    rintro ⟨-, i, hi, h⟩
    have := hp.1 i hi
    omega
  · suffices H : ∃ lam V, (∀ i j, i < j → j < g.k → lam i ≤ lam j) ∧ EigPairs g.k g.d s.z g.rho lam V ∧
        (r1Run g (r1Workers avail nrtiles) s).evals = (fun j => if j < g.k then lam j else s.evals j) ∧
        (r1Run g (r1Workers avail nrtiles) s).q = fun x y => if y < g.k ∧ x < g.k then V (g.perm.getD x 0) y else s.q x y by
      obtain ⟨lam, V, h0, h1, h2, h3⟩ := H
      obtain ⟨e1, e2⟩ := rank1_matrix h1
      have hd : (fun j : Fin g.k => (r1Run g (r1Workers avail nrtiles) s).evals j) = fun j : Fin g.k => lam j := by
        funext j
        rw [h2]
        exact if_pos j.2
      refine ⟨Matrix.of fun i j : Fin g.k => V i j, e1, by rw [hd]; exact e2, ?_, ?_, ?_, ?_⟩
      · intro i j hij hj
        rw [h2]
        beta_reduce
        rw [if_pos hj, if_pos (by omega)]
        exact h0 i j hij hj
      · intro i j l hl
        rw [h3]
        beta_reduce
        rw [if_pos ⟨j.2, i.2⟩, hl]
        rfl
      · intro j hj
        rw [h2]
        exact if_neg (by omega)
      · intro i j hij
        rw [h3]
        exact if_neg (by omega)
    rcases Nat.lt_or_ge g.k 2 with hk | hk
    · obtain ⟨lam, V, h1, h2⟩ := run_one h4 hw (by omega) s hp.1
      exact ⟨lam, V, fun i j _ _ => by omega, h1, h2⟩
    · have hmono : ∀ {lam}, Roots g.k g.d s.z g.rho lam → ∀ i j, i < j → j < g.k → lam i ≤ lam j :=
        fun hr i j hij hj => (hr.mono (hin hk) hij hj).le
      rcases Nat.lt_or_ge g.k 3 with hk3 | hk3
      · obtain ⟨lam, V, h0, h1, h2⟩ := run_two h4 hw (by omega) s (hin hk) hkn hp.1 hp.2
        exact ⟨lam, V, hmono h0, h1, h2⟩
      · obtain ⟨lam, V, h0, h1, h2⟩ := run_three h4 hw hk3 s (hin hk) hp.1
        exact ⟨lam, V, hmono h0, h1, h2⟩

/-- C51: whatever the schedule of the workers between the barriers, the bulk terminates (bounded number of steps), is never stuck and
has that result. -/
theorem C51_every_schedule (g : R1Cfg) (avail nrtiles : Nat) (hav : 0 < avail) (s s' : R1St)
    (h : solveRank1 g avail nrtiles s = some s') :
    Bulk.OneResult (r1Code g (r1Workers avail nrtiles)) (r1Workers avail nrtiles) .start s s' := by
  have hw : 0 < r1Workers avail nrtiles := by
    unfold r1Workers clampN
    split
    · omega
    · split <;> omega
  unfold solveRank1 at h
  split at h
  · exact absurd h (by simp)
  · obtain ⟨m, hm⟩ := r1_seq (g := g) hw s
    rw [Option.some.inj h] at hm
    exact hm.one

/-- C51: LAPACK's documentation of `laed4` can be met (so the theorems above are not empty). -/
theorem C51_laed4 : ∃ laed4, Laed4Spec laed4 := ⟨laed4Std, laed4Std_spec⟩

/-- Three roots of a problem of size four, two workers, rows permuted. -/
example : ∃ s', solveRank1 ⟨laed4Std, 4, 3, 2, fun i => i, [2, 0, 1, 3], fun _ _ => 7⟩ 8 4
    ⟨fun _ => 0, fun _ => 1, fun _ _ => 5, fun _ _ => 0⟩ = some s' ∧
    Rank1Solved 3 (fun i => i) 2 [2, 0, 1, 3] ⟨fun _ => 0, fun _ => 1, fun _ _ => 5, fun _ _ => 0⟩ s' := by
  refine C51_solved ⟨laed4Std, 4, 3, 2, fun i => i, [2, 0, 1, 3], fun _ _ => 7⟩ laed4Std_spec 8 4 (by omega) _ (by decide) ?_ ?_
  · intro _
    refine ⟨by norm_num, fun i j hij _ => Nat.cast_lt.2 hij, fun _ _ => one_ne_zero⟩
  · refine ⟨?_, ?_⟩
    · show ∀ i < 3, [2, 0, 1, 3].getD i 0 < 3
      decide
    · show ∀ i < 4, 3 ≤ i → 3 ≤ [2, 0, 1, 3].getD i 0
      decide

end DLAF
