import Verif.Spec.Rank1
import Mathlib.LinearAlgebra.Lagrange
import Mathlib.Algebra.Polynomial.BigOperators
import Mathlib.Topology.Algebra.Polynomial
import Mathlib.Topology.Order.IntermediateValue
import Mathlib.Topology.Instances.Real.Lemmas
import Mathlib.Algebra.BigOperators.Field
import Mathlib.Tactic.Linarith
import Mathlib.Tactic.FieldSimp
import Mathlib.Tactic.LinearCombination
/- The roots of the secular function: existence, orthogonality of the eigenvectors, Löwner's formula. -/
namespace DLAF
open Finset
variable {k : Nat} {d z lam : Nat → ℝ} {rho : ℝ}

/-- The characteristic polynomial of `diag(d) + rho z zᵀ`. -/
noncomputable def charFn (k : Nat) (d z : Nat → ℝ) (rho x : ℝ) : ℝ :=
  ∏ j ∈ range k, (x - d j) - ∑ j ∈ range k, rho * z j ^ 2 * ∏ l ∈ (range k).erase j, (x - d l)

theorem charFn_secular {x : ℝ} (h : ∀ j < k, x ≠ d j) :
    charFn k d z rho x = (∏ j ∈ range k, (x - d j)) * secular k d z rho x := by
  unfold charFn secular
  rw [mul_add, mul_one, Finset.mul_sum, Finset.mul_sum, sub_eq_add_neg, ← Finset.sum_neg_distrib]
  congr 1
  refine Finset.sum_congr rfl fun j hj => ?_
  have hx : x - d j ≠ 0 := sub_ne_zero.2 (h j (mem_range.1 hj))
  have hx' : d j - x ≠ 0 := sub_ne_zero.2 (h j (mem_range.1 hj)).symm
  rw [← Finset.mul_prod_erase _ _ hj]
  field_simp
  ring

theorem charFn_at {i : Nat} (hi : i < k) : charFn k d z rho (d i) = -(rho * z i ^ 2 * ∏ l ∈ (range k).erase i, (d i - d l)) := by
  unfold charFn
  rw [Finset.prod_eq_zero (mem_range.2 hi) (sub_self _), zero_sub, Finset.sum_eq_single i]
  · intro j _ hji
    rw [Finset.prod_eq_zero (i := i) (Finset.mem_erase.2 ⟨fun h => hji h.symm, mem_range.2 hi⟩) (sub_self _), mul_zero]
  · intro h
    exact absurd (mem_range.2 hi) h

theorem charFn_continuous : Continuous (charFn k d z rho) := by
  unfold charFn
  fun_prop

/-- A zero of the characteristic polynomial between `d i` and `d (i + 1)`, or above the last. -/
theorem secular_exists (h : SecularInput k d z rho) {i : Nat} (hi : i < k) :
    ∃ x, d i < x ∧ (i + 1 < k → x < d (i + 1)) ∧ secular k d z rho x = 0 := by
  obtain ⟨hr, hd, hz⟩ := h
  have hcmp : ∀ {a b}, a < k → b < k → a ≠ b → d a ≠ d b := by
    intro a b ha hb hab
    rcases Nat.lt_or_gt_of_ne hab with h | h
    · exact (hd a b h hb).ne
    · exact (hd b a h ha).ne'
  -- the end of the interval
  have hsq : ∀ j < k, 0 < rho * z j ^ 2 := fun j hj => mul_pos hr (pow_pos (abs_pos.2 (hz j hj)) 2 |>.trans_eq (sq_abs _))
  suffices H : ∃ b, d i < b ∧ (∀ j < k, d i < d j → b ≤ d j) ∧ charFn k d z rho (d i) * charFn k d z rho b < 0 by
    obtain ⟨b, hb, hb', hneg⟩ := H
    have hmem : (0 : ℝ) ∈ Set.uIcc (charFn k d z rho (d i)) (charFn k d z rho b) := by
      rw [Set.mem_uIcc]
      rcases mul_neg_iff.1 hneg with ⟨h1, h2⟩ | ⟨h1, h2⟩
      · exact Or.inr ⟨h2.le, h1.le⟩
      · exact Or.inl ⟨h1.le, h2.le⟩
    obtain ⟨x, hx, hx0⟩ := intermediate_value_uIcc (charFn_continuous (k := k) (d := d) (z := z) (rho := rho)).continuousOn hmem
    rw [Set.uIcc_of_le hb.le, Set.mem_Icc] at hx
    have hxa : x ≠ d i := by
      rintro rfl
      rw [hx0, zero_mul] at hneg
      exact lt_irrefl _ hneg
    have hxb : x ≠ b := by
      rintro rfl
      rw [hx0, mul_zero] at hneg
      exact lt_irrefl _ hneg
    have h1 : d i < x := lt_of_le_of_ne hx.1 hxa.symm
    have h2 : x < b := lt_of_le_of_ne hx.2 hxb
    have hne : ∀ j < k, x ≠ d j := by
      intro j hj
      rcases Nat.lt_trichotomy j i with h | h | h
      · exact ((hd j i h hi).trans h1).ne'
      · rw [h]; exact hxa
      · exact (h2.trans_le (hb' j hj (hd i j h hj))).ne
    refine ⟨x, h1, fun hi1 => h2.trans_le (hb' _ hi1 (hd i _ (Nat.lt_succ_self i) hi1)), ?_⟩
    rw [charFn_secular hne] at hx0
    rcases mul_eq_zero.1 hx0 with h | h
    · obtain ⟨j, hj, hj0⟩ := Finset.prod_eq_zero_iff.1 h
      exact absurd (sub_eq_zero.1 hj0) (hne j (mem_range.1 hj))
    · exact h
  by_cases hi1 : i + 1 < k
  · refine ⟨d (i + 1), hd i _ (Nat.lt_succ_self i) hi1, fun j hj hij => ?_, ?_⟩
    · have : i < j := by
        by_contra hc
        rcases Nat.lt_or_eq_of_le (not_lt.1 hc) with h | h
        · exact absurd (hd j i h hi) (not_lt.2 hij.le)
        · rw [h] at hij; exact lt_irrefl _ hij
      rcases Nat.lt_or_eq_of_le this with h | h
      · exact (hd _ _ h hj).le
      · rw [show j = i + 1 from h.symm]
    · rw [charFn_at hi, charFn_at hi1]
      have e1 : ∏ l ∈ (range k).erase i, (d i - d l) = (d i - d (i + 1)) * ∏ l ∈ ((range k).erase i).erase (i + 1), (d i - d l) :=
        (Finset.mul_prod_erase _ _ (Finset.mem_erase.2 ⟨by omega, mem_range.2 hi1⟩)).symm
      have e2 : ∏ l ∈ (range k).erase (i + 1), (d (i + 1) - d l) =
          (d (i + 1) - d i) * ∏ l ∈ ((range k).erase i).erase (i + 1), (d (i + 1) - d l) := by
        rw [Finset.erase_right_comm]
        exact (Finset.mul_prod_erase _ _ (Finset.mem_erase.2 ⟨by omega, mem_range.2 hi⟩)).symm
      have hpos : 0 < (∏ l ∈ ((range k).erase i).erase (i + 1), (d i - d l)) *
          ∏ l ∈ ((range k).erase i).erase (i + 1), (d (i + 1) - d l) := by
        rw [← Finset.prod_mul_distrib]
        refine Finset.prod_pos fun l hl => ?_
        simp only [Finset.mem_erase, mem_range] at hl
        rcases Nat.lt_or_gt_of_ne hl.2.1 with h | h
        · have := hd l i h hi
          have := hd l (i + 1) (by omega) hi1
          exact mul_pos (by linarith) (by linarith)
        · have := hd i l h hl.2.2
          have := hd (i + 1) l (by omega) hl.2.2
          exact mul_pos_of_neg_of_neg (by linarith) (by linarith)
      have hlt := hd i _ (Nat.lt_succ_self i) hi1
      rw [e1, e2]
      have hA := hsq i hi
      have hB := hsq (i + 1) hi1
      have : -(rho * z i ^ 2 * ((d i - d (i + 1)) * ∏ l ∈ ((range k).erase i).erase (i + 1), (d i - d l))) *
          -(rho * z (i + 1) ^ 2 * ((d (i + 1) - d i) * ∏ l ∈ ((range k).erase i).erase (i + 1), (d (i + 1) - d l))) =
          -((rho * z i ^ 2) * (rho * z (i + 1) ^ 2) * ((d (i + 1) - d i) * (d (i + 1) - d i)) *
            ((∏ l ∈ ((range k).erase i).erase (i + 1), (d i - d l)) *
          ∏ l ∈ ((range k).erase i).erase (i + 1), (d (i + 1) - d l))) := by ring
      rw [this, neg_lt_zero]
      have : 0 < d (i + 1) - d i := by linarith
      positivity
  · have hik : i + 1 = k := by omega
    -- above all the `d`
    set S := ∑ j ∈ range k, rho * z j ^ 2 with hS
    have hSpos : 0 < S := Finset.sum_pos (fun j hj => hsq j (mem_range.1 hj)) ⟨i, mem_range.2 hi⟩
    have hle : ∀ j < k, d j ≤ d i := by
      intro j hj
      rcases Nat.lt_or_eq_of_le (show j ≤ i by omega) with h | h
      · exact (hd j i h hi).le
      · rw [h]
    refine ⟨d i + 2 * S, by linarith, fun j hj hij => absurd hij (not_lt.2 (hle j hj)), ?_⟩
    have hgap : ∀ j < k, 2 * S ≤ d i + 2 * S - d j := fun j hj => by have := hle j hj; linarith
    have hlo : charFn k d z rho (d i) < 0 := by
      rw [charFn_at hi, neg_lt_zero]
      refine mul_pos (hsq i hi) (Finset.prod_pos fun l hl => ?_)
      simp only [Finset.mem_erase, mem_range] at hl
      have := hd l i (by omega) hi
      linarith
    have hup : 0 < charFn k d z rho (d i + 2 * S) := by
      rw [charFn_secular (fun j hj => by have := hgap j hj; intro h; rw [h] at this; linarith)]
      refine mul_pos (Finset.prod_pos fun j hj => by have := hgap j (mem_range.1 hj); linarith) ?_
      unfold secular
      rw [Finset.mul_sum]
      have : ∑ j ∈ range k, -(rho * z j ^ 2 / (2 * S)) ≤ ∑ j ∈ range k, rho * (z j ^ 2 / (d j - (d i + 2 * S))) := by
        refine Finset.sum_le_sum fun j hj => ?_
        have hg := hgap j (mem_range.1 hj)
        have e : rho * (z j ^ 2 / (d j - (d i + 2 * S))) = -(rho * z j ^ 2 / (d i + 2 * S - d j)) := by
          rw [← mul_div_assoc, ← div_neg, neg_sub]
        rw [e, neg_le_neg_iff]
        exact div_le_div_of_nonneg_left (hsq j (mem_range.1 hj)).le (by linarith) hg
      rw [Finset.sum_neg_distrib, ← Finset.sum_div, ← hS] at this
      have h2 : S / (2 * S) = 1 / 2 := by field_simp
      rw [h2] at this
      linarith
    exact mul_neg_of_neg_of_pos hlo hup

/-- Roots of the secular function, one in each interval. -/
structure Roots (k : Nat) (d z : Nat → ℝ) (rho : ℝ) (lam : Nat → ℝ) : Prop where
  lo : ∀ i < k, d i < lam i
  hi : ∀ i, i + 1 < k → lam i < d (i + 1)
  sec : ∀ i < k, secular k d z rho (lam i) = 0

theorem Roots.ne (h : SecularInput k d z rho) (hl : Roots k d z rho lam) {i j : Nat} (hi : i < k) (hj : j < k) : lam i ≠ d j := by
  rcases Nat.lt_or_ge i j with hij | hij
  · have h1 := hl.hi i (by omega)
    rcases Nat.lt_or_eq_of_le (show i + 1 ≤ j from hij) with h2 | h2
    · exact (h1.trans (h.2.1 _ _ h2 hj)).ne
    · rw [← h2]; exact h1.ne
  · have h1 := hl.lo i hi
    rcases Nat.lt_or_eq_of_le hij with h2 | h2
    · exact ((h.2.1 _ _ h2 hi).trans h1).ne'
    · rw [h2]; exact h1.ne'

theorem Roots.mono (h : SecularInput k d z rho) (hl : Roots k d z rho lam) {i j : Nat} (hij : i < j) (hj : j < k) : lam i < lam j := by
  have h1 := hl.hi i (by omega)
  have h2 := hl.lo j hj
  rcases Nat.lt_or_eq_of_le (show i + 1 ≤ j from hij) with h3 | h3
  · exact h1.trans ((h.2.1 _ _ h3 hj).trans h2)
  · rw [h3] at h1; exact h1.trans h2

/-- Löwner's formula. -/
theorem Roots.loewner (h : SecularInput k d z rho) (hl : Roots k d z rho lam) {i : Nat} (hi : i < k) :
    ∏ j ∈ range k, (d i - lam j) = -(rho * z i ^ 2) * ∏ l ∈ (range k).erase i, (d i - d l) := by
  classical
  have hinj : Set.InjOn lam (range k) := by
    intro a ha b hb hab
    simp only [Finset.coe_range, Set.mem_Iio] at ha hb
    by_contra hne
    rcases Nat.lt_or_gt_of_ne hne with h1 | h1
    · exact (hl.mono h h1 hb).ne hab
    · exact (hl.mono h h1 ha).ne' hab
  let f : Polynomial ℝ := ∏ j ∈ range k, (Polynomial.X - Polynomial.C (d j)) - ∏ j ∈ range k, (Polynomial.X - Polynomial.C (lam j))
  let g : Polynomial ℝ := ∑ j ∈ range k, Polynomial.C (rho * z j ^ 2) * ∏ l ∈ (range k).erase j, (Polynomial.X - Polynomial.C (d l))
  have hdeg : ∀ (s : Finset Nat) (v : Nat → ℝ), (∏ j ∈ s, (Polynomial.X - Polynomial.C (v j))).degree = (s.card : WithBot Nat) := by
    intro s v
    rw [Polynomial.degree_prod_of_monic _ _ fun j _ => Polynomial.monic_X_sub_C _]
    simp
  have hmon : ∀ (s : Finset Nat) (v : Nat → ℝ), (∏ j ∈ s, (Polynomial.X - Polynomial.C (v j))).Monic :=
    fun s v => Polynomial.monic_prod_of_monic _ _ fun j _ => Polynomial.monic_X_sub_C _
  have hf : f.degree < (range k).card := by
    rw [← hdeg (range k) d]
    refine Polynomial.degree_sub_lt ?_ (hmon _ _).ne_zero ?_
    · rw [hdeg, hdeg]
    · rw [(hmon _ _).leadingCoeff, (hmon _ _).leadingCoeff]
  have hg : g.degree < (range k).card := by
    refine (Polynomial.degree_sum_le _ _).trans_lt ?_
    rw [Finset.sup_lt_iff (by rw [Finset.card_range]; exact WithBot.bot_lt_coe _)]
    intro j hj
    refine (Polynomial.degree_mul_le _ _).trans_lt ?_
    rw [hdeg, Finset.card_erase_of_mem hj]
    have h1 : (Polynomial.C (rho * z j ^ 2)).degree ≤ 0 := Polynomial.degree_C_le
    refine (add_le_add_left h1 _).trans_lt ?_
    rw [zero_add, Finset.card_range]
    exact_mod_cast (by omega : k - 1 < k)
  have hfe : ∀ x, f.eval x = ∏ j ∈ range k, (x - d j) - ∏ j ∈ range k, (x - lam j) := by
    intro x
    simp only [f, Polynomial.eval_sub, Polynomial.eval_prod, Polynomial.eval_X, Polynomial.eval_C]
  have hge : ∀ x, g.eval x = ∑ j ∈ range k, rho * z j ^ 2 * ∏ l ∈ (range k).erase j, (x - d l) := by
    intro x
    simp only [g, Polynomial.eval_finset_sum, Polynomial.eval_mul, Polynomial.eval_sub, Polynomial.eval_prod, Polynomial.eval_X, Polynomial.eval_C]
  have hfg : f = g := by
    refine Polynomial.eq_of_degrees_lt_of_eval_index_eq (range k) hinj hf hg fun j hj => ?_
    have hjk := mem_range.1 hj
    have h1 := charFn_secular (k := k) (d := d) (z := z) (rho := rho) (x := lam j) fun l hlk => hl.ne h hjk hlk
    rw [hl.sec j hjk, mul_zero] at h1
    unfold charFn at h1
    have h0 : ∏ l ∈ range k, (lam j - lam l) = 0 := Finset.prod_eq_zero hj (sub_self (lam j))
    rw [hfe, hge, h0, sub_zero]
    linarith
  have h1 := congrArg (fun p => Polynomial.eval (d i) p) hfg
  simp only [hfe, hge] at h1
  have h0 : ∏ l ∈ range k, (d i - d l) = 0 := Finset.prod_eq_zero (mem_range.2 hi) (sub_self (d i))
  rw [h0, Finset.sum_eq_single i] at h1
  · linarith
  · intro j _ hji
    rw [Finset.prod_eq_zero (i := i) (Finset.mem_erase.2 ⟨fun h => hji h.symm, mem_range.2 hi⟩) (sub_self _), mul_zero]
  · intro h
    exact absurd (mem_range.2 hi) h

/-- What the code computes from Löwner's formula. -/
theorem Roots.weight (h : SecularInput k d z rho) (hl : Roots k d z rho lam) {i : Nat} (hi : i < k) :
    (d i - lam i) * ∏ j ∈ (range k).erase i, (d i - lam j) / (d i - d j) = -(rho * z i ^ 2) := by
  rw [Finset.prod_div_distrib, ← mul_div_assoc, Finset.mul_prod_erase _ (fun j => d i - lam j) (mem_range.2 hi), hl.loewner h hi,
    mul_div_assoc, div_self, mul_one]
  refine Finset.prod_ne_zero_iff.2 fun j hj => ?_
  simp only [Finset.mem_erase, mem_range] at hj
  refine sub_ne_zero.2 ?_
  rcases Nat.lt_or_gt_of_ne hj.1 with h1 | h1
  · exact (h.2.1 _ _ h1 hi).ne'
  · exact (h.2.1 _ _ h1 hj.2).ne

/-- Orthogonality of the eigenvectors `z / (d - lam)`. -/
theorem Roots.orth (h : SecularInput k d z rho) (hl : Roots k d z rho lam) {a b : Nat} (ha : a < k) (hb : b < k) (hab : a ≠ b) :
    ∑ i ∈ range k, z i / (d i - lam a) * (z i / (d i - lam b)) = 0 := by
  have hr : rho ≠ 0 := h.1.ne'
  have hne : lam a - lam b ≠ 0 := by
    refine sub_ne_zero.2 ?_
    rcases Nat.lt_or_gt_of_ne hab with h1 | h1
    · exact (hl.mono h h1 hb).ne
    · exact (hl.mono h h1 ha).ne'
  have h1 := hl.sec a ha
  have h2 := hl.sec b hb
  unfold secular at h1 h2
  have h3 : ∑ i ∈ range k, z i ^ 2 / (d i - lam a) = ∑ i ∈ range k, z i ^ 2 / (d i - lam b) :=
    mul_left_cancel₀ hr (by linarith)
  have h4 : (lam a - lam b) * ∑ i ∈ range k, z i / (d i - lam a) * (z i / (d i - lam b)) =
      ∑ i ∈ range k, z i ^ 2 / (d i - lam a) - ∑ i ∈ range k, z i ^ 2 / (d i - lam b) := by
    rw [Finset.mul_sum, ← Finset.sum_sub_distrib]
    refine Finset.sum_congr rfl fun i hi => ?_
    have e1 : d i - lam a ≠ 0 := sub_ne_zero.2 (hl.ne h ha (mem_range.1 hi)).symm
    have e2 : d i - lam b ≠ 0 := sub_ne_zero.2 (hl.ne h hb (mem_range.1 hi)).symm
    field_simp
    ring
  rw [h3, sub_self] at h4
  exact (mul_eq_zero.1 h4).resolve_left hne

/-- `z / (d - lam)` is an eigenvector. -/
theorem Roots.eig (h : SecularInput k d z rho) (hl : Roots k d z rho lam) {a i : Nat} (ha : a < k) (hi : i < k) :
    d i * (z i / (d i - lam a)) + rho * z i * ∑ l ∈ range k, z l * (z l / (d l - lam a)) = lam a * (z i / (d i - lam a)) := by
  have e1 : d i - lam a ≠ 0 := sub_ne_zero.2 (hl.ne h ha hi).symm
  have h1 := hl.sec a ha
  unfold secular at h1
  have h2 : ∑ l ∈ range k, z l * (z l / (d l - lam a)) = ∑ l ∈ range k, z l ^ 2 / (d l - lam a) :=
    Finset.sum_congr rfl fun l _ => by rw [← mul_div_assoc, sq]
  rw [h2]
  generalize (∑ l ∈ range k, z l ^ 2 / (d l - lam a)) = S at h1 ⊢
  field_simp
  linear_combination z i * (d i - lam a) * h1

theorem Roots.norm_pos (h : SecularInput k d z rho) (hl : Roots k d z rho lam) {a : Nat} (ha : a < k) :
    0 < ∑ i ∈ range k, (z i / (d i - lam a)) ^ 2 := by
  refine Finset.sum_pos (fun i hi => ?_) ⟨a, mem_range.2 ha⟩
  have e1 : d i - lam a ≠ 0 := sub_ne_zero.2 (hl.ne h ha (mem_range.1 hi)).symm
  have := div_ne_zero (h.2.2 i (mem_range.1 hi)) e1
  positivity

end DLAF
