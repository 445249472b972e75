import Verif.Lemmas.Rank1Result
/- A function with the documented properties of `laed4`: roots by the intermediate value theorem. -/
namespace DLAF
open Finset
open scoped Classical

/-- Roots and distances (normalized eigenvectors if `k = 2`). -/
noncomputable def laed4Std : Laed4 := fun k i d z rho =>
  if h : 2 ≤ k ∧ i < k ∧ SecularInput k d z rho then
    ((secular_exists h.2.2 h.2.1).choose,
      if k = 2 then fun j => z j / (d j - (secular_exists h.2.2 h.2.1).choose) /
        Real.sqrt (∑ l ∈ range k, (z l / (d l - (secular_exists h.2.2 h.2.1).choose)) ^ 2)
      else fun j => d j - (secular_exists h.2.2 h.2.1).choose)
  else (d 0 + rho * z 0 ^ 2, fun _ => 1)

theorem laed4Std_spec : Laed4Spec laed4Std := by
  have hroot : ∀ k i d z rho, 2 ≤ k → i < k → SecularInput k d z rho → d i < (laed4Std k i d z rho).1 ∧
      (i + 1 < k → (laed4Std k i d z rho).1 < d (i + 1)) ∧ secular k d z rho (laed4Std k i d z rho).1 = 0 := by
    intro k i d z rho hk hi h
    have hh : 2 ≤ k ∧ i < k ∧ SecularInput k d z rho := ⟨hk, hi, h⟩
    unfold laed4Std
    rw [dif_pos hh]
    exact (secular_exists h hi).choose_spec
  refine ⟨fun d z rho => ?_, hroot, fun i d z rho hi h => ?_, fun k i d z rho hk hi h j hj => ?_⟩
  · have hh : ¬ (2 ≤ 1 ∧ 0 < 1 ∧ SecularInput 1 d z rho) := fun h => absurd h.1 (by omega)
    unfold laed4Std
    rw [dif_neg hh]
    exact ⟨rfl, rfl⟩
  · have hr : Roots 2 d z rho fun j => (laed4Std 2 j d z rho).1 :=
      ⟨fun i hi => (hroot 2 i d z rho (Nat.le_refl _) hi h).1, fun i hi => (hroot 2 i d z rho (Nat.le_refl _) (by omega) h).2.1 hi,
        fun i hi => (hroot 2 i d z rho (Nat.le_refl _) hi h).2.2⟩
    have hp := hr.pairs h
    have hv : ∀ j, (laed4Std 2 i d z rho).2 j = z j / (d j - (laed4Std 2 i d z rho).1) /
        Real.sqrt (∑ l ∈ range 2, (z l / (d l - (laed4Std 2 i d z rho).1)) ^ 2) := by
      intro j
      have hh : 2 ≤ 2 ∧ i < 2 ∧ SecularInput 2 d z rho := ⟨Nat.le_refl _, hi, h⟩
      unfold laed4Std
      rw [dif_pos hh, if_pos rfl]
    have h1 := hp.orth i hi i hi
    have h2 := hp.eig i hi
    rw [if_pos rfl] at h1
    simp only [← hv] at h1 h2
    rw [Finset.sum_range_succ, Finset.sum_range_one] at h1
    refine ⟨by rw [sq, sq]; exact h1, fun j hj => ?_⟩
    have h3 := h2 j hj
    rw [Finset.sum_range_succ, Finset.sum_range_one] at h3
    exact h3
  · have hh : 2 ≤ k ∧ i < k ∧ SecularInput k d z rho := ⟨by omega, hi, h⟩
    unfold laed4Std
    rw [dif_pos hh, if_neg (show ¬ k = 2 by omega)]

end DLAF
