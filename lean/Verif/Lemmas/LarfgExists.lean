import Verif.Lemmas.BandAlg
/- The formulas of LAPACK's `xLARFG`, in exact arithmetic, satisfy its contract. -/
namespace DLAF
open scoped Classical
variable {K : Type*} [RCLike K]

/-- Elements of a vector, zero outside. -/
def vecN (n : Nat) (x : Fin n → K) : Nat → K := fun i => if h : i < n then x ⟨i, h⟩ else 0

/-- `xLARFG`: nothing to do if the tail is zero and `alpha` real, otherwise `beta = -sign(re alpha) ‖x‖`, `tau = (beta - alpha) / beta`,
`v = x / (alpha - beta)`. -/
noncomputable def larfgStd (n : Nat) (x : Fin n → K) : K × K × (Nat → K) :=
  if (∑ i ∈ Finset.Ico 1 n, star (vecN n x i) * vecN n x i) = 0 ∧ star (vecN n x 0) = vecN n x 0 then (vecN n x 0, 0, fun _ => 0)
  else
    let nrm : K := (Real.sqrt (RCLike.re (∑ i ∈ Finset.Ico 0 n, star (vecN n x i) * vecN n x i)) : ℝ)
    let beta := if 0 ≤ RCLike.re (vecN n x 0) then -nrm else nrm
    (beta, (beta - vecN n x 0) / beta, fun i => 1 / (vecN n x 0 - beta) * vecN n x i)

theorem larfg_of_elem {n : Nat} (x : Fin n → K) {v : Nat → K} {tau beta : K}
    (h2 : tau * star tau * (∑ z ∈ Finset.range n, star (v z) * v z) = tau + star tau) (h1 : star beta = beta)
    (h3 : ∀ i < n, vecN n x i - star tau * v i * (∑ z ∈ Finset.range n, star (v z) * vecN n x z) = if i = 0 then beta else 0) :
    star beta = beta ∧ (reflector n v tau).conjTranspose * reflector n v tau = 1 ∧
    (reflector n v tau).conjTranspose.mulVec x = fun i : Fin n => if (i : Nat) = 0 then beta else 0 := by
  refine ⟨h1, reflector_unitary h2, ?_⟩
  funext i
  rw [← h3 i i.2]
  have h5 := reflector_conj_mul v tau (fun z _ => vecN n x z) i (⟨0, by omega⟩ : Fin 1)
  rw [← h5, Matrix.mul_apply]
  unfold Matrix.mulVec
  show ∑ j, _ = _
  refine Finset.sum_congr rfl fun z _ => ?_
  congr 1
  show _ = vecN n x z
  unfold vecN
  rw [dif_pos z.2]

theorem larfgStd_spec : LarfgSpec (K := K) larfgStd := by
  intro n x hn
  have hsplit : ∀ g : Nat → K, ∑ z ∈ Finset.range n, g z = g 0 + ∑ z ∈ Finset.Ico 1 n, g z := by
    intro g
    rw [Finset.range_eq_Ico, Finset.sum_eq_sum_Ico_succ_bot hn]
  unfold larfgStd
  generalize hf : vecN n x = f
  by_cases hc : (∑ i ∈ Finset.Ico 1 n, star (f i) * f i) = 0 ∧ star (f 0) = f 0
  · simp only [if_pos hc]
    have hz : ∀ i ∈ Finset.Ico 1 n, f i = 0 := by
      have h1 := hc.1
      rw [sq_real, RCLike.ofReal_eq_zero, Finset.sum_eq_zero_iff_of_nonneg (fun i _ => by positivity)] at h1
      intro i hi
      have := h1 i hi
      rwa [pow_eq_zero_iff (by decide), norm_eq_zero] at this
    refine larfg_of_elem x (by rw [star_zero]; ring) hc.2 fun i hi => ?_
    rw [hf, star_zero, zero_mul, zero_mul, sub_zero]
    by_cases h : i = 0
    · rw [if_pos h, h]
    · rw [if_neg h]; exact hz i (Finset.mem_Ico.2 (by omega))
  · simp only [if_neg hc]
    generalize hsq : (∑ i ∈ Finset.Ico 0 n, star (f i) * f i) = sq
    generalize hy : (if 0 ≤ RCLike.re (f 0) then -((Real.sqrt (RCLike.re sq) : ℝ) : K) else ((Real.sqrt (RCLike.re sq) : ℝ) : K)) = y
    have h0 : sq ≠ 0 := by
      intro h
      rw [← hsq, sq_real, RCLike.ofReal_eq_zero, Finset.sum_eq_zero_iff_of_nonneg (fun i _ => by positivity)] at h
      have hz : ∀ i < n, f i = 0 := by
        intro i hi
        have := h i (Finset.mem_Ico.2 (by omega))
        rwa [pow_eq_zero_iff (by decide), norm_eq_zero] at this
      refine hc ⟨Finset.sum_eq_zero fun i hi => ?_, by rw [hz 0 hn, star_zero]⟩
      rw [hz i (Finset.mem_Ico.1 hi).2, mul_zero]
    obtain ⟨s1, s2, s3, s4⟩ := house_sign (f := f) (a := 0) (e := n) hn hsq.symm h0 (y := y)
      (sb := if 0 ≤ RCLike.re (f 0) then false else true)
      ⟨fun h => if_pos h.le, fun h => if_neg (not_le.2 h)⟩ (by
        by_cases h : 0 ≤ RCLike.re (f 0)
        · right; rw [if_pos h] at hy; exact ⟨hy.symm, if_pos h⟩
        · left; rw [if_neg h] at hy; exact ⟨hy.symm, if_neg h⟩)
    obtain ⟨a1, a2⟩ := house_algebra s1 s2 s3 s4
    have hdot : ∑ z ∈ Finset.range n, star (if z = 0 then (1 : K) else 1 / (f 0 - y) * f z) * f z =
        f 0 + star (1 / (f 0 - y)) * ∑ z ∈ Finset.Ico (0 + 1) n, star (f z) * f z := by
      rw [hsplit, if_pos rfl, star_one, one_mul, Finset.mul_sum]
      congr 1
      refine Finset.sum_congr rfl fun z hz => ?_
      have := Finset.mem_Ico.1 hz
      rw [if_neg (by omega), star_mul]
      ring
    have hnorm : ∑ z ∈ Finset.range n, star (if z = 0 then (1 : K) else 1 / (f 0 - y) * f z) *
        (if z = 0 then (1 : K) else 1 / (f 0 - y) * f z) =
        1 + star (1 / (f 0 - y)) * (1 / (f 0 - y)) * ∑ z ∈ Finset.Ico (0 + 1) n, star (f z) * f z := by
      rw [hsplit, if_pos rfl, star_one, one_mul, Finset.mul_sum]
      congr 1
      refine Finset.sum_congr rfl fun z hz => ?_
      have := Finset.mem_Ico.1 hz
      rw [if_neg (by omega), star_mul]
      ring
    refine larfg_of_elem x ?_ s1 fun i hi => ?_
    · rw [hnorm]; exact a2
    · rw [hf, hdot, mul_right_comm, a1]
      by_cases h : i = 0
      · rw [if_pos h, if_pos h, h]; ring
      · rw [if_neg h, if_neg h]
        field_simp
        ring

end DLAF
