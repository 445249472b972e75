import Verif.Lemmas.DeflateRot
import Verif.Props.IndexVectors
import Verif.Spec.Deflate
/- The loop of the deflation. -/
namespace DLAF
open scoped Matrix.Norms.L2Operator
open Matrix

/-- Order, types and sizes, after the indices below `m` have been visited. -/
structure DInv (rho tol : ℝ) (n : Nat) (idx : List Nat) (d0 z0 : Nat → ℝ) (c0 : Nat → ColType) (m : Nat) (s : DeflSt) : Prop where
  i1 : s.i1 < m
  rest : ∀ j, m ≤ j → j < n → s.d (idx.getD j 0) = d0 (idx.getD j 0) ∧ s.z (idx.getD j 0) = z0 (idx.getD j 0) ∧
    s.c (idx.getD j 0) = c0 (idx.getD j 0)
  act : s.c (idx.getD s.i1 0) ≠ .Deflated
  gone : ∀ j, s.i1 < j → j < m → s.c (idx.getD j 0) = .Deflated
  asc : ∀ j j', j < j' → j' ≤ s.i1 → s.c (idx.getD j 0) ≠ .Deflated → s.c (idx.getD j' 0) ≠ .Deflated →
    s.d (idx.getD j 0) < s.d (idx.getD j' 0)
  le : ∀ j, m ≤ j → j < n → s.d (idx.getD s.i1 0) ≤ d0 (idx.getD j 0)
  big : ∀ j < s.i1, s.c (idx.getD j 0) ≠ .Deflated → tol < |rho * s.z (idx.getD j 0)|
  fresh : (∀ j < s.i1, s.c (idx.getD j 0) = .Deflated) ∨ tol < |rho * s.z (idx.getD s.i1 0)|
  small : ∀ j < m, s.c (idx.getD j 0) = .Deflated → |rho * s.z (idx.getD j 0)| ≤ tol

/-- The rotations as an orthogonal matrix. -/
def RInv (tol : ℝ) (n : Nat) (d0 z0 : Nat → ℝ) (c0 : Nat → ColType) (m : Nat) (s : DeflSt) : Prop :=
  s.rots.length + 1 ≤ m ∧ (∀ n1 Q, ZeroBy n n1 c0 Q → ZeroBy n n1 s.c (applyRots n s.rots Q)) ∧
  ∃ G : Matrix (Fin n) (Fin n) ℝ, G.transpose * G = 1 ∧ (∀ Q, toM n n (applyRots n s.rots Q) = toM n n Q * G) ∧
    (∀ y : Fin n, s.z y = ∑ x : Fin n, z0 x * G x y) ∧
    ‖G.transpose * diagonal (fun x : Fin n => d0 x) * G - diagonal (fun x : Fin n => s.d x)‖ ≤ 2 * tol * s.rots.length

variable {rho tol : ℝ} {n : Nat} {idx : List Nat} {d0 z0 : Nat → ℝ} {c0 : Nat → ColType}

theorem setF_ne {α : Type} {f : Nat → α} {i x : Nat} {v : α} (h : x ≠ i) : setF f i v x = f x := if_neg h
theorem setF_eq {α : Type} {f : Nat → α} {i : Nat} {v : α} : setF f i v i = v := if_pos rfl

theorem applyRots_snoc (n : Nat) (l : List Rot) (r : Rot) (Q : Elems ℝ) : applyRots n (l ++ [r]) Q = rotCols n r (applyRots n l Q) := by
  unfold applyRots
  rw [List.foldl_append]
  rfl

/-- Cosine and sine. -/
theorem givens {z1 z2 : ℝ} (h : z1 ≠ 0) : 0 < Real.sqrt (z1 ^ 2 + z2 ^ 2) ∧
    (z1 / Real.sqrt (z1 ^ 2 + z2 ^ 2)) ^ 2 + (z2 / Real.sqrt (z1 ^ 2 + z2 ^ 2)) ^ 2 = 1 ∧
    z1 / Real.sqrt (z1 ^ 2 + z2 ^ 2) * z1 + z2 / Real.sqrt (z1 ^ 2 + z2 ^ 2) * z2 = Real.sqrt (z1 ^ 2 + z2 ^ 2) ∧
    z1 / Real.sqrt (z1 ^ 2 + z2 ^ 2) * z2 - z2 / Real.sqrt (z1 ^ 2 + z2 ^ 2) * z1 = 0 ∧ |z1| ≤ Real.sqrt (z1 ^ 2 + z2 ^ 2) := by
  have hp : 0 < z1 ^ 2 + z2 ^ 2 := by positivity
  have hr := Real.sqrt_pos.2 hp
  have hsq := Real.sq_sqrt hp.le
  refine ⟨hr, ?_, ?_, ?_, ?_⟩
  · rw [div_pow, div_pow, ← add_div, hsq, div_self hp.ne']
  · rw [div_mul_eq_mul_div, div_mul_eq_mul_div, ← add_div, ← sq, ← sq, div_eq_iff hr.ne', ← sq, hsq]
  · rw [div_mul_eq_mul_div, div_mul_eq_mul_div, ← sub_div, mul_comm z2 z1, sub_self, zero_div]
  · exact Real.abs_le_sqrt (by nlinarith [sq_nonneg z2])

theorem dinv_step (htol : 0 ≤ tol) (hlt : ∀ j < n, idx.getD j 0 < n)
    (hinj : ∀ i < n, ∀ j < n, idx.getD i 0 = idx.getD j 0 → i = j) (hs : ∀ i j, i ≤ j → j < n → d0 (idx.getD i 0) ≤ d0 (idx.getD j 0))
    (hc : ∀ x < n, c0 x = .UpperHalf ∨ c0 x = .LowerHalf) {m : Nat} (hm : m < n) {s : DeflSt} (h : DInv rho tol n idx d0 z0 c0 m s)
    (hR : RInv tol n d0 z0 c0 m s) :
    DInv rho tol n idx d0 z0 c0 (m + 1) (deflStep rho tol idx s m) ∧ RInv tol n d0 z0 c0 (m + 1) (deflStep rho tol idx s m) := by
  have hi1 := h.i1
  obtain ⟨rd, rz, rc⟩ := h.rest m (Nat.le_refl _) hm
  have hab : idx.getD s.i1 0 ≠ idx.getD m 0 := fun e => by
    have := hinj _ (by omega) _ hm e
    omega
  have ha : idx.getD s.i1 0 < n := hlt _ (by omega)
  have hb : idx.getD m 0 < n := hlt _ hm
  have hne : ∀ {i j}, i < n → j < n → i ≠ j → idx.getD i 0 ≠ idx.getD j 0 := fun hi hj hij e => hij (hinj _ hi _ hj e)
  have hcb : s.c (idx.getD m 0) ≠ .Deflated := by
    rw [rc]
    rcases hc _ hb with e | e <;> rw [e] <;> decide
  have hle := h.le m (Nat.le_refl _) hm
  unfold deflStep
  dsimp only
  by_cases h1 : |rho * s.z (idx.getD s.i1 0)| ≤ tol
  · rw [if_pos h1]
    have hall : ∀ j < m, setF s.c (idx.getD s.i1 0) ColType.Deflated (idx.getD j 0) = .Deflated := by
      intro j hj
      rcases Nat.lt_trichotomy j s.i1 with h2 | h2 | h2
      · rw [setF_ne (hne (by omega) (by omega) (by omega))]
        rcases h.fresh with h3 | h3
        · exact h3 j h2
        · exact absurd h1 (not_le.2 h3)
      · rw [h2]; exact setF_eq
      · rw [setF_ne (hne (by omega) (by omega) (by omega))]
        exact h.gone j h2 hj
    refine ⟨⟨Nat.lt_succ_self _, ?_, ?_, ?_, ?_, ?_, ?_, ?_, ?_⟩, ?_⟩
    · intro j hj hjn
      have := h.rest j (by omega) hjn
      exact ⟨this.1, this.2.1, (setF_ne (hne hjn (by omega) (by omega))).trans this.2.2⟩
    · dsimp only
      rw [setF_ne hab.symm]
      exact hcb
    · intro j hj hj'
      dsimp only at hj
      omega
    · intro j j' hjj hj' hd
      dsimp only at hj'
      exact absurd (hall j (by omega)) hd
    · intro j hj hjn
      dsimp only
      rw [rd]
      exact hs _ _ (by omega) hjn
    · intro j hj hd
      exact absurd (hall j hj) hd
    · exact Or.inl fun j hj => hall j hj
    · intro j hj hd
      dsimp only at hd ⊢
      rcases Nat.lt_or_ge j m with h2 | h2
      · by_cases h3 : j = s.i1
        · rw [h3]; exact h1
        · rw [setF_ne (hne (by omega) (by omega) h3)] at hd
          exact h.small j h2 hd
      · obtain rfl : j = m := by omega
        rw [setF_ne hab.symm] at hd
        exact absurd hd hcb
    · obtain ⟨r1, r2, r3⟩ := hR
      refine ⟨by dsimp only; omega, fun n1 Q hQ x hx y hy => ?_, r3⟩
      obtain ⟨q1, q2⟩ := r2 n1 Q hQ x hx y hy
      dsimp only
      by_cases hy' : y = idx.getD s.i1 0
      · subst hy'
        rw [setF_eq]
        exact ⟨fun h => absurd h (by decide), fun h => absurd h (by decide)⟩
      · rw [setF_ne hy']
        exact ⟨q1, q2⟩
  · rw [if_neg h1]
    by_cases h2 : |rho * s.z (idx.getD m 0)| ≤ tol
    · rw [if_pos h2]
      have hsame : ∀ j < n, j ≠ m → setF s.c (idx.getD m 0) ColType.Deflated (idx.getD j 0) = s.c (idx.getD j 0) :=
        fun j hj hjm => setF_ne (hne hj hm hjm)
      refine ⟨⟨by dsimp only; omega, ?_, ?_, ?_, ?_, ?_, ?_, ?_, ?_⟩, ?_⟩
      · intro j hj hjn
        have := h.rest j (by omega) hjn
        exact ⟨this.1, this.2.1, (hsame j hjn (by omega)).trans this.2.2⟩
      · dsimp only
        rw [hsame _ (by omega) (by omega)]
        exact h.act
      · intro j hj hj'
        dsimp only at hj ⊢
        by_cases hjm : j = m
        · rw [hjm]; exact setF_eq
        · rw [hsame j (by omega) hjm]
          exact h.gone j hj (by omega)
      · intro j j' hjj hj'
        dsimp only at hj' ⊢
        rw [hsame j (by omega) (by omega), hsame j' (by omega) (by omega)]
        exact h.asc j j' hjj hj'
      · intro j hj hjn
        exact h.le j (by omega) hjn
      · intro j hj
        dsimp only at hj ⊢
        rw [hsame j (by omega) (by omega)]
        exact h.big j hj
      · exact Or.inr (not_le.1 h1)
      · intro j hj hd
        dsimp only at hd ⊢
        by_cases hjm : j = m
        · rw [hjm]; exact h2
        · rw [hsame j (by omega) hjm] at hd
          exact h.small j (by omega) hd
      · obtain ⟨r1, r2, r3⟩ := hR
        refine ⟨by dsimp only; omega, fun n1 Q hQ x hx y hy => ?_, r3⟩
        obtain ⟨q1, q2⟩ := r2 n1 Q hQ x hx y hy
        dsimp only
        by_cases hy' : y = idx.getD m 0
        · subst hy'
          rw [setF_eq]
          exact ⟨fun h => absurd h (by decide), fun h => absurd h (by decide)⟩
        · rw [setF_ne hy']
          exact ⟨q1, q2⟩
    · rw [if_neg h2]
      have hz1 : s.z (idx.getD s.i1 0) ≠ 0 := fun e => h1 (by rw [e, mul_zero, abs_zero]; exact htol)
      have hz2 : s.z (idx.getD m 0) ≠ 0 := fun e => h2 (by rw [e, mul_zero, abs_zero]; exact htol)
      obtain ⟨hr, hcs, g1, g2, g3⟩ := givens (z2 := s.z (idx.getD m 0)) hz1
      generalize Real.sqrt (s.z (idx.getD s.i1 0) ^ 2 + s.z (idx.getD m 0) ^ 2) = r at hr hcs g1 g2 g3
      generalize s.z (idx.getD s.i1 0) / r = c at hcs g1 g2
      generalize s.z (idx.getD m 0) / r = sn at hcs g1 g2
      by_cases h3 : |c * sn * (s.d (idx.getD m 0) - s.d (idx.getD s.i1 0))| > tol
      · rw [if_pos h3]
        have hlt' : s.d (idx.getD s.i1 0) < s.d (idx.getD m 0) := by
          rw [rd]
          refine lt_of_le_of_ne hle fun e => ?_
          rw [rd, ← e, sub_self, mul_zero, abs_zero] at h3
          exact absurd h3 (not_lt.2 htol)
        refine ⟨⟨Nat.lt_succ_self _, ?_, hcb, ?_, ?_, ?_, ?_, ?_, ?_⟩, ?_⟩
        · intro j hj hjn
          exact h.rest j (by omega) hjn
        · intro j hj hj'
          dsimp only at hj
          omega
        · intro j j' hjj hj' hd hd'
          dsimp only at hj' hd hd' ⊢
          have hji : j ≤ s.i1 ∨ s.i1 < j := by omega
          have hcase : ∀ {j}, j < m → s.c (idx.getD j 0) ≠ .Deflated → j ≤ s.i1 := by
            intro j hj hd
            by_contra hlt
            exact hd (h.gone j (by omega) hj)
          rcases Nat.lt_or_ge j' m with h4 | h4
          · exact h.asc j j' hjj (hcase h4 hd') hd hd'
          · obtain rfl : j' = m := by omega
            rcases Nat.lt_or_eq_of_le (hcase hjj hd) with h5 | h5
            · exact (h.asc j s.i1 h5 (Nat.le_refl _) hd h.act).trans hlt'
            · rw [h5]; exact hlt'
        · intro j hj hjn
          dsimp only
          rw [rd]
          exact hs _ _ (by omega) hjn
        · intro j hj hd
          dsimp only at hj hd ⊢
          rcases Nat.lt_trichotomy j s.i1 with h4 | h4 | h4
          · exact h.big j h4 hd
          · rw [h4]; exact not_le.1 h1
          · exact absurd (h.gone j h4 hj) hd
        · exact Or.inr (not_le.1 h2)
        · intro j hj hd
          dsimp only at hd ⊢
          by_cases hjm : j = m
          · rw [hjm] at hd; exact absurd hd hcb
          · exact h.small j (by omega) hd
        · obtain ⟨r1, r2⟩ := hR
          exact ⟨by dsimp only; omega, r2⟩
      · rw [if_neg h3]
        have ht : |c * sn * (s.d (idx.getD m 0) - s.d (idx.getD s.i1 0))| ≤ tol := not_lt.1 h3
        have hact := h.act
        constructor
        · -- order
          have hda : s.d (idx.getD s.i1 0) ≤ s.d (idx.getD s.i1 0) * c * c + s.d (idx.getD m 0) * sn * sn := by
            rw [rd]
            have e1 := mul_nonneg (sub_nonneg.2 hle) (sq_nonneg sn)
            have e2 : s.d (idx.getD s.i1 0) * c * c + d0 (idx.getD m 0) * sn * sn - s.d (idx.getD s.i1 0) =
                (d0 (idx.getD m 0) - s.d (idx.getD s.i1 0)) * sn ^ 2 := by linear_combination s.d (idx.getD s.i1 0) * hcs
            linarith
          have hdb : s.d (idx.getD s.i1 0) * c * c + s.d (idx.getD m 0) * sn * sn ≤ d0 (idx.getD m 0) := by
            rw [rd]
            have e1 := mul_nonneg (sub_nonneg.2 hle) (sq_nonneg c)
            have e2 : d0 (idx.getD m 0) - (s.d (idx.getD s.i1 0) * c * c + d0 (idx.getD m 0) * sn * sn) =
                (d0 (idx.getD m 0) - s.d (idx.getD s.i1 0)) * c ^ 2 := by linear_combination -(d0 (idx.getD m 0)) * hcs
            linarith
          unfold deflRot
          generalize s.d (idx.getD s.i1 0) * sn * sn + s.d (idx.getD m 0) * c * c = db
          generalize s.d (idx.getD s.i1 0) * c * c + s.d (idx.getD m 0) * sn * sn = da at hda hdb
          have hcd : ∀ t, (if (s.c (idx.getD s.i1 0) = .UpperHalf ∧ s.c (idx.getD m 0) = .LowerHalf) ∨
              (s.c (idx.getD s.i1 0) = .LowerHalf ∧ s.c (idx.getD m 0) = .UpperHalf) then ColType.Dense else s.c (idx.getD s.i1 0)) = t →
              t ≠ .Deflated := by
            intro t ht
            rw [← ht]
            split
            · decide
            · exact hact
          generalize (if (s.c (idx.getD s.i1 0) = .UpperHalf ∧ s.c (idx.getD m 0) = .LowerHalf) ∨
              (s.c (idx.getD s.i1 0) = .LowerHalf ∧ s.c (idx.getD m 0) = .UpperHalf) then ColType.Dense else s.c (idx.getD s.i1 0)) = t at hcd
          have hcd := hcd t rfl
          have far : ∀ {α : Type} {f : Nat → α} {u v : α} {j : Nat}, j < n → j ≠ s.i1 → j ≠ m →
              setF (setF f (idx.getD s.i1 0) u) (idx.getD m 0) v (idx.getD j 0) = f (idx.getD j 0) := by
            intro α f u v j hj h4 h5
            rw [setF_ne (hne hj hm h5), setF_ne (hne hj (by omega) h4)]
          have at1 : ∀ {α : Type} {f : Nat → α} {u v : α},
              setF (setF f (idx.getD s.i1 0) u) (idx.getD m 0) v (idx.getD s.i1 0) = u := by
            intro α f u v
            rw [setF_ne hab, setF_eq]
          have at2 : ∀ {α : Type} {f : Nat → α} {u v : α},
              setF (setF f (idx.getD s.i1 0) u) (idx.getD m 0) v (idx.getD m 0) = v := by
            intro α f u v
            rw [setF_eq]
          refine ⟨by dsimp only; omega, ?_, ?_, ?_, ?_, ?_, ?_, ?_, ?_⟩
          · intro j hj hjn
            dsimp only
            rw [far hjn (by omega) (by omega), far hjn (by omega) (by omega), far hjn (by omega) (by omega)]
            exact h.rest j (by omega) hjn
          · dsimp only
            rw [at1]
            exact hcd
          · intro j hj hj'
            dsimp only at hj ⊢
            by_cases hjm : j = m
            · rw [hjm]; exact at2
            · rw [far (by omega) (by omega) hjm]
              exact h.gone j hj (by omega)
          · intro j j' hjj hj' hd hd'
            dsimp only at hj' hd hd' ⊢
            rw [far (by omega) (by omega) (by omega)] at hd
            rw [far (f := s.d) (by omega) (by omega) (by omega)]
            rcases Nat.lt_or_eq_of_le hj' with h4 | h4
            · rw [far (by omega) (by omega) (by omega)] at hd'
              rw [far (f := s.d) (by omega) (by omega) (by omega)]
              exact h.asc j j' hjj hj' hd hd'
            · rw [h4, at1]
              exact lt_of_lt_of_le (h.asc j s.i1 (by omega) (Nat.le_refl _) hd hact) hda
          · intro j hj hjn
            dsimp only
            rw [at1]
            exact hdb.trans (hs _ _ (by omega) hjn)
          · intro j hj hd
            dsimp only at hj hd ⊢
            rw [far (by omega) (by omega) (by omega)] at hd ⊢
            exact h.big j hj hd
          · refine Or.inr ?_
            dsimp only
            rw [at1]
            refine lt_of_lt_of_le (not_le.1 h1) ?_
            rw [abs_mul, abs_mul]
            refine mul_le_mul_of_nonneg_left ?_ (abs_nonneg _)
            rw [abs_of_pos hr]
            exact g3
          · intro j hj hd
            dsimp only at hd ⊢
            by_cases hjm : j = m
            · rw [hjm, at2, mul_zero, abs_zero]; exact htol
            · by_cases hji : j = s.i1
              · rw [hji, at1] at hd
                exact absurd hd hcd
              · rw [far (by omega) hji hjm] at hd ⊢
                exact h.small j (by omega) hd
        · -- rotation
          obtain ⟨r1, r2, G, q1, q2, q3, q4⟩ := hR
          have hbt := hc _ hb
          rw [← rc] at hbt
          generalize idx.getD s.i1 0 = a at *
          generalize idx.getD m 0 = b at *
          have ro := rot_orth ha hb hab hcs
          refine ⟨?_, ?_, G * toM n n (rotE a b c sn), ?_, ?_, ?_, ?_⟩
          · show (s.rots ++ [_]).length + 1 ≤ m + 1
            rw [List.length_append, List.length_singleton]
            omega
          · intro n1 Q hQ
            have hz := r2 n1 Q hQ
            show ZeroBy n n1 _ (applyRots n (s.rots ++ [⟨a, b, c, sn⟩]) Q)
            rw [applyRots_snoc]
            generalize applyRots n s.rots Q = Q' at hz
            intro x hx y hy
            obtain ⟨zy1, zy2⟩ := hz x hx y hy
            obtain ⟨za1, za2⟩ := hz x hx a ha
            obtain ⟨zb1, zb2⟩ := hz x hx b hb
            unfold rotCols deflRot
            rw [if_pos hx]
            dsimp only
            by_cases h4 : y = b
            · subst h4
              rw [setF_eq]
              exact ⟨fun h => absurd h (by decide), fun h => absurd h (by decide)⟩
            · rw [setF_ne h4, if_neg h4]
              by_cases h5 : y = a
              · subst h5
                rw [setF_eq, if_pos rfl]
                constructor
                · intro h6 h7
                  split at h6
                  · exact absurd h6 (by decide)
                  · next h8 =>
                    have hb' : s.c b = .UpperHalf := by
                      rcases hbt with e | e
                      · exact e
                      · exact absurd (Or.inl ⟨h6, e⟩) h8
                    rw [za1 h6 h7, zb1 hb' h7, mul_zero, mul_zero, add_zero]
                · intro h6 h7
                  split at h6
                  · exact absurd h6 (by decide)
                  · next h8 =>
                    have hb' : s.c b = .LowerHalf := by
                      rcases hbt with e | e
                      · exact absurd (Or.inr ⟨h6, e⟩) h8
                      · exact e
                    rw [za2 h6 h7, zb2 hb' h7, mul_zero, mul_zero, add_zero]
              · rw [setF_ne h5, if_neg h5]
                exact ⟨zy1, zy2⟩
          · rw [Matrix.transpose_mul, Matrix.mul_assoc, ← Matrix.mul_assoc G.transpose, q1, Matrix.one_mul, ro]
          · intro Q
            show toM n n (applyRots n (s.rots ++ [⟨a, b, c, sn⟩]) Q) = _
            rw [applyRots_snoc, toM_rotCols ha hb hab, q2, Matrix.mul_assoc]
          · intro y
            have h4 : ∑ x : Fin n, z0 x * (G * toM n n (rotE a b c sn)) x y = ∑ l : Fin n, s.z l * rotE a b c sn l y := by
              simp only [Matrix.mul_apply, Finset.mul_sum]
              rw [Finset.sum_comm]
              refine Finset.sum_congr rfl fun l _ => ?_
              rw [q3 l, Finset.sum_mul]
              refine Finset.sum_congr rfl fun x _ => ?_
              rw [← mul_assoc]
              rfl
            rw [h4, ← Finset.sum_range (fun l => s.z l * rotE a b c sn l y), rotE_sum ha hb hab c sn s.z y.2]
            show setF (setF s.z a r) b 0 y = _
            by_cases h5 : (y : Nat) = b
            · rw [h5, setF_eq, if_neg (fun h => hab h.symm), if_pos rfl, g2]
            · rw [setF_ne h5]
              by_cases h6 : (y : Nat) = a
              · rw [h6, setF_eq, if_pos rfl, g1]
              · rw [setF_ne h6, if_neg h6, if_neg h5]
          · have hstep := rot_diag_norm ha hb hab s.d ht
            have hlen : ((deflRot s a b r c sn).rots.length : ℝ) = s.rots.length + 1 := by
              show (((s.rots ++ [_]).length : Nat) : ℝ) = _
              rw [List.length_append, List.length_singleton, Nat.cast_add, Nat.cast_one]
            rw [hlen]
            set D0 : Matrix (Fin n) (Fin n) ℝ := diagonal (fun x : Fin n => d0 x)
            set D1 : Matrix (Fin n) (Fin n) ℝ := diagonal (fun x : Fin n => s.d x)
            set R : Matrix (Fin n) (Fin n) ℝ := toM n n (rotE a b c sn)
            show ‖(G * R).transpose * D0 * (G * R) -
              diagonal (fun x : Fin n => setF (setF s.d a (s.d a * c * c + s.d b * sn * sn)) b (s.d a * sn * sn + s.d b * c * c) x)‖ ≤ _
            set D2 : Matrix (Fin n) (Fin n) ℝ :=
              diagonal (fun x : Fin n => setF (setF s.d a (s.d a * c * c + s.d b * sn * sn)) b (s.d a * sn * sn + s.d b * c * c) x)
            have e : (G * R).transpose * D0 * (G * R) - D2 =
                R.transpose * (G.transpose * D0 * G - D1) * R + (R.transpose * D1 * R - D2) := by
              rw [Matrix.transpose_mul, Matrix.mul_sub, Matrix.sub_mul]
              simp only [Matrix.mul_assoc]
              abel
            rw [e]
            refine (norm_add_le _ _).trans ?_
            have f1 := (norm_mul_orth (A := R.transpose * (G.transpose * D0 * G - D1)) ro).trans (norm_orth_t_mul ro)
            linarith

end DLAF
