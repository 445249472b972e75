import Verif.Model.Tridiag
import Mathlib.Tactic.Ring
import Mathlib.Tactic.Common
/-! # C37 choice of the band size -/
namespace DLAF.C37
open DLAF

theorem bandLoop_spec (nb : Int) (hnb : 1 ≤ nb) : ∀ D : Nat, ∃ d : Int, 1 ≤ d ∧ d ≤ max 1 (D : Int) ∧ d ∣ nb ∧
    bandLoop nb D = nb / d ∧ ∀ e : Int, 1 ≤ e → e ≤ D → e ∣ nb → e ≤ d := by
  intro D
  induction D with
  | zero => exact ⟨1, by omega, by omega, one_dvd _, by simp [bandLoop], by intro e; omega⟩
  | succ D ih =>
    cases D with
    | zero => exact ⟨1, by omega, by omega, one_dvd _, by simp [bandLoop], by intro e; omega⟩
    | succ D =>
      obtain ⟨d, h1, h2, h3, h4, h5⟩ := ih
      unfold bandLoop
      split
      · rename_i hm
        refine ⟨((D + 2 : Nat) : Int), by omega, by omega, Int.dvd_of_tmod_eq_zero hm, ?_, fun e _ h _ => h⟩
        exact Int.tdiv_eq_ediv_of_nonneg (by omega)
      · rename_i hm
        refine ⟨d, h1, by omega, h3, h4, fun e he1 he2 he3 => ?_⟩
        by_cases he : e = ((D + 2 : Nat) : Int)
        · subst he
          exact absurd (Int.tmod_eq_zero_of_dvd he3) hm
        · apply h5 e he1 _ he3
          have : e ≤ ((D + 2 : Nat) : Int) := he2
          push_cast at *
          omega

/-- **The band size divides the tile size; it is the smallest divisor not below the tuning minimum, or the
tile size itself when that is below the minimum.** -/
theorem C37_band_size {b_min nb b : Int} (h : getBandSize b_min nb = some b) :
    b ∣ nb ∧ 1 ≤ b ∧ b ≤ nb ∧
    (nb < b_min → b = nb) ∧
    (b_min ≤ nb → b_min ≤ b ∧ ∀ c, c ∣ nb → b_min ≤ c → b ≤ c) := by
  unfold getBandSize at h
  split at h
  swap
  · cases h
  rename_i hc
  simp only [Option.some.injEq] at h
  obtain ⟨hnb, hb⟩ := hc
  have hq : cdiv nb b_min = nb / b_min := Int.tdiv_eq_ediv_of_nonneg (by omega)
  have hq0 : 0 ≤ nb / b_min := Int.ediv_nonneg (by omega) (by omega)
  rw [hq] at h
  obtain ⟨d, h1, h2, h3, h4, h5⟩ := bandLoop_spec nb hnb (nb / b_min).toNat
  rw [h] at h4
  rw [Int.toNat_of_nonneg hq0] at h2 h5
  obtain ⟨q, hq'⟩ := h3
  have hbq : b = q := by
    rw [h4, hq']; exact Int.mul_ediv_cancel_left _ (by omega)
  subst hbq
  have hbpos : 1 ≤ b := by
    by_contra hn
    have : d * b ≤ 0 := Int.mul_nonpos_of_nonneg_of_nonpos (by omega) (by omega)
    omega
  have hble : b ≤ nb := by
    have := Int.mul_le_mul_of_nonneg_right h1 (show 0 ≤ b by omega)
    omega
  refine ⟨⟨d, by rw [hq']; ring⟩, hbpos, hble, ?_, ?_⟩
  · intro hlt
    have : nb / b_min = 0 := Int.ediv_eq_zero_of_lt (by omega) hlt
    have hd : d = 1 := by omega
    rw [hd] at hq'; omega
  · intro hle
    have hq1 : 1 ≤ nb / b_min := by
      have := (Int.le_ediv_iff_mul_le (a := 1) (b := nb) (c := b_min) (by omega)).2 (by omega)
      exact this
    have hdq : d ≤ nb / b_min := by omega
    have hdb : d * b_min ≤ nb := (Int.le_ediv_iff_mul_le (by omega)).1 hdq
    refine ⟨?_, ?_⟩
    · by_contra hn
      have := Int.mul_lt_mul_of_pos_left (show b < b_min by omega) (show 0 < d by omega)
      omega
    · intro c hcd hcm
      obtain ⟨e, he⟩ := hcd
      have hepos : 1 ≤ e := by
        by_contra hn
        have : c * e ≤ 0 := Int.mul_nonpos_of_nonneg_of_nonpos (by omega) (by omega)
        omega
      have hele : e ≤ nb / b_min := by
        apply (Int.le_ediv_iff_mul_le (by omega)).2
        have := Int.mul_le_mul_of_nonneg_right hcm (show 0 ≤ e by omega)
        have e1 : e * b_min = b_min * e := by ring
        omega
      have hed := h5 e hepos hele ⟨c, by rw [he]; ring⟩
      by_contra hn
      have h1' := Int.mul_lt_mul_of_pos_right (show c < b by omega) (show 0 < e by omega)
      have h2' := Int.mul_le_mul_of_nonneg_right hed (show 0 ≤ b by omega)
      have e1 : b * e = e * b := by ring
      omega

/-- The function rejects exactly non-positive tile sizes and minima below 2. -/
theorem C37_band_size_accepts (b_min nb : Int) :
    (getBandSize b_min nb).isSome ↔ 1 ≤ nb ∧ 2 ≤ b_min := by
  unfold getBandSize
  split
  · rename_i h; simp; omega
  · rename_i h; simp; omega

/-- The 1D block size used in the second stage is positive; it is the largest multiple of the tile size not
above the tune parameter, if there is one. -/
theorem C37_block_size_1d {base nb b : Int} (h : get1DBlockSize base nb = some b) :
    1 ≤ b ∧ (nb ≤ base → nb ∣ b ∧ b ≤ base ∧ base < b + nb) := by
  unfold get1DBlockSize at h
  split at h
  swap
  · cases h
  rename_i hc
  simp only [Option.some.injEq] at h
  have hq : cdiv base nb = base / nb := Int.tdiv_eq_ediv_of_nonneg (by omega)
  rw [hq] at h
  refine ⟨by omega, fun hle => ?_⟩
  have h1 : 1 ≤ base / nb := (Int.le_ediv_iff_mul_le (by omega)).2 (by omega)
  have h2 := Int.mul_le_mul_of_nonneg_right h1 (show 0 ≤ nb by omega)
  have h3 := Int.emod_add_mul_ediv base nb
  have h4 := Int.emod_nonneg base (show nb ≠ 0 by omega)
  have h5 := Int.emod_lt_of_pos base (show 0 < nb by omega)
  have e1 : base / nb * nb = nb * (base / nb) := by ring
  have hb : b = base / nb * nb := by omega
  refine ⟨⟨base / nb, by rw [hb]; ring⟩, by omega, by omega⟩

/-- **Finding**: when the tune parameter is below the tile size the result is 1, which is not a multiple of
the tile size (unless the tile size is 1). -/
theorem C37_block_size_1d_small_base {base nb : Int} (h1 : 1 ≤ base) (h2 : base < nb) :
    get1DBlockSize base nb = some 1 := by
  unfold get1DBlockSize
  rw [if_pos (by omega)]
  have : cdiv base nb = 0 := Int.tdiv_eq_zero_of_lt (by omega) h2
  rw [this]; simp

/-- Non-vacuity. -/
example : getBandSize 100 512 = some 128 ∧ getBandSize 100 64 = some 64 ∧ getBandSize 100 509 = some 509 ∧
    get1DBlockSize 8192 3000 = some 6000 := by decide

end DLAF.C37
