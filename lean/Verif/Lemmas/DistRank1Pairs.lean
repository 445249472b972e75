import Verif.Lemmas.DistRank1Perm
/- C68: the eigenpairs that the distributed solver computes. -/
namespace DLAF
namespace DistR1
open Finset
variable {g : DR1Cfg}

noncomputable def lamOf (g : DR1Cfg) (a : Nat) : ℝ := (g.laed4 g.k a g.d g.z g.rho).1

open scoped Classical in
noncomputable def vecOf (g : DR1Cfg) (i a : Nat) : ℝ :=
  if g.k ≤ 2 then (g.laed4 g.k a g.d g.z g.rho).2 i
  else g.z i / (g.d i - lamOf g a) / Real.sqrt (∑ l ∈ range g.k, (g.z l / (g.d l - lamOf g a)) ^ 2)

theorem roots (h4 : Laed4Spec g.laed4) (hk : 2 ≤ g.k) (hin : SecularInput g.k g.d g.z g.rho) : Roots g.k g.d g.z g.rho (lamOf g) := by
  refine ⟨fun i hi => ?_, fun i hi => ?_, fun i hi => ?_⟩
  · exact (h4.root _ _ _ _ _ hk hi hin).1
  · exact (h4.root _ _ _ _ _ hk (by omega) hin).2.1 hi
  · exact (h4.root _ _ _ _ _ hk hi hin).2.2

theorem pairs_two (h4 : Laed4Spec g.laed4) (hk : g.k = 2) (hin : SecularInput g.k g.d g.z g.rho) :
    EigPairs g.k g.d g.z g.rho (lamOf g) fun i a => (g.laed4 g.k a g.d g.z g.rho).2 i := by
  have hroots := roots h4 (by omega) hin
  have hne : lamOf g 0 ≠ lamOf g 1 := (hroots.mono hin (i := 0) (j := 1) (by omega) (by omega)).ne
  set V : Nat → Nat → ℝ := fun x y => (g.laed4 g.k y g.d g.z g.rho).2 x with hV
  have two : ∀ y < 2, V 0 y ^ 2 + V 1 y ^ 2 = 1 ∧
      ∀ j < 2, g.d j * V j y + g.rho * g.z j * (g.z 0 * V 0 y + g.z 1 * V 1 y) = lamOf g y * V j y := by
    intro y hy
    have h5 := h4.two y g.d g.z g.rho hy (by rw [← hk]; exact hin)
    simp only [hV, lamOf, hk]
    exact h5
  generalize lamOf g = lam at *
  rw [hk]
  constructor
  · have h01 : V 0 0 * V 0 1 + V 1 0 * V 1 1 = 0 := by
      have e00 := (two 0 (by omega)).2 0 (by omega)
      have e01 := (two 0 (by omega)).2 1 (by omega)
      have e10 := (two 1 (by omega)).2 0 (by omega)
      have e11 := (two 1 (by omega)).2 1 (by omega)
      have : (lam 0 - lam 1) * (V 0 0 * V 0 1 + V 1 0 * V 1 1) = 0 := by
        linear_combination -(V 0 1) * e00 - (V 1 1) * e01 + (V 0 0) * e10 + (V 1 0) * e11
      exact (mul_eq_zero.1 this).resolve_left (sub_ne_zero.2 hne)
    intro a ha b hb
    rw [Finset.sum_range_succ, Finset.sum_range_one]
    have e0 := (two 0 (by omega)).1
    have e1 := (two 1 (by omega)).1
    interval_cases a <;> interval_cases b
    · rw [if_pos rfl]; linear_combination e0
    · rw [if_neg (by omega)]; exact h01
    · rw [if_neg (by omega)]; linear_combination h01
    · rw [if_pos rfl]; linear_combination e1
  · intro a ha i hi
    rw [Finset.sum_range_succ, Finset.sum_range_one]
    exact (two a ha).2 i hi

theorem pairs_one (h4 : Laed4Spec g.laed4) (hk : g.k ≤ 1) :
    EigPairs g.k g.d g.z g.rho (lamOf g) fun i a => (g.laed4 g.k a g.d g.z g.rho).2 i := by
  rcases Nat.lt_or_ge g.k 1 with h | h
  · exact ⟨fun a ha => by omega, fun a ha => by omega⟩
  · have hk1 : g.k = 1 := by omega
    obtain ⟨e1, e2⟩ := h4.one g.d g.z g.rho
    unfold lamOf
    rw [hk1]
    refine ⟨fun a ha b hb => ?_, fun a ha i hi => ?_⟩
    · obtain rfl : a = 0 := by omega
      obtain rfl : b = 0 := by omega
      rw [Finset.sum_range_one, e2, if_pos rfl, mul_one]
    · obtain rfl : a = 0 := by omega
      obtain rfl : i = 0 := by omega
      rw [Finset.sum_range_one, e1, e2]
      ring

theorem vec_pairs (h4 : Laed4Spec g.laed4) (hin : 2 ≤ g.k → SecularInput g.k g.d g.z g.rho) :
    EigPairs g.k g.d g.z g.rho (lamOf g) (vecOf g) := by
  by_cases h2 : g.k ≤ 2
  · have e : vecOf g = fun i a => (g.laed4 g.k a g.d g.z g.rho).2 i := by
      funext i a
      unfold vecOf
      rw [if_pos h2]
    rw [e]
    by_cases h1 : g.k ≤ 1
    · exact pairs_one h4 h1
    · exact pairs_two h4 (by omega) (hin (by omega))
  · have e : vecOf g = fun i a => g.z i / (g.d i - lamOf g a) / Real.sqrt (∑ l ∈ range g.k, (g.z l / (g.d l - lamOf g a)) ^ 2) := by
      funext i a
      unfold vecOf
      rw [if_neg h2]
    rw [e]
    exact (roots h4 (by omega) (hin (by omega))).pairs (hin (by omega))

theorem lam_mono (h4 : Laed4Spec g.laed4) (hin : 2 ≤ g.k → SecularInput g.k g.d g.z g.rho) (i j : Nat) (hij : i < j) (hj : j < g.k) : lamOf g i < lamOf g j :=
  (roots h4 (by omega) (hin (by omega))).mono (hin (by omega)) hij hj

end DistR1
end DLAF
