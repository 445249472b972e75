import Verif.Lemmas.DcStep3
/- One merge. -/
namespace DLAF
open C34
open scoped Matrix.Norms.L2Operator
open Matrix

/-- The permutation of a list of indices. -/
noncomputable def permEquiv {n : Nat} {l : List Nat} (h : IsPerm n l) : Fin n ≃ Fin n :=
  Equiv.ofBijective (fun j => ⟨l.getD j 0, IsPerm.getD_lt h j.2⟩)
    (Finite.injective_iff_bijective.1 fun i j e => Fin.ext (IsPerm.getD_inj h i.2 j.2 (Fin.ext_iff.1 e)))

theorem permEquiv_apply {n : Nat} {l : List Nat} (h : IsPerm n l) (j : Fin n) : ((permEquiv h j : Fin n) : Nat) = l.getD j 0 := rfl

/-- What a merge gives: eigenvectors multiplied with an orthogonal matrix that solves the rank-one update up to `4 n tol`; order of the eigenvalues. -/
structure MergeOk (off n : Nat) (rho tol : ℝ) (z : Nat → ℝ) (s s3 : DcSt) : Prop where
  eig : ∃ M : Matrix (Fin n) (Fin n) ℝ, M.transpose * M = 1 ∧ toM n n (shE s3.e0 off) = toM n n (shE s.e0 off) * M ∧
    ‖(diagonal (fun x : Fin n => s.d0 (off + x)) + (2 * |rho|) • vecMulVec (fun x : Fin n => z x) (fun x : Fin n => z x)) * M -
      M * diagonal (fun x : Fin n => s3.d0 (off + x))‖ ≤ 4 * (n * tol)
  perm : IsPerm n (winL s3.i1 off n)
  sorted : SortedAlong (winL s3.d0 off n) (winL s3.i1 off n)
  i2 : winL s3.i2 off n = winL s3.i1 off n
  e0_out : ∀ x y, ¬ ((off ≤ x ∧ x < off + n) ∧ (off ≤ y ∧ y < off + n)) → s3.e0 x y = s.e0 x y
  d0_out : ∀ x, ¬ (off ≤ x ∧ x < off + n) → s3.d0 x = s.d0 x
  i1_out : ∀ x, ¬ (off ≤ x ∧ x < off + n) → s3.i1 x = s.i1 x

/-- Zero outside the two diagonal blocks. -/
def BlkDiag (n n1 : Nat) (Q : Elems ℝ) : Prop := ∀ x < n, ∀ y < n, (x < n1 ∧ n1 ≤ y) ∨ (y < n1 ∧ n1 ≤ x) → Q x y = 0

theorem row_sq {n : Nat} {Q : Elems ℝ} (hQ : (toM n n Q).transpose * toM n n Q = 1) {x : Nat} (hx : x < n) :
    ∑ y ∈ Finset.range n, Q x y ^ 2 = 1 := by
  have := congrFun (congrFun (orth_right hQ) ⟨x, hx⟩) ⟨x, hx⟩
  rw [Matrix.mul_apply, Matrix.one_apply_eq] at this
  rw [Finset.sum_range, ← this]
  exact Finset.sum_congr rfl fun l _ => sq _

/-- The rank-one vector of two solved parts, up to the sign of the upper part. -/
noncomputable def zOf (n1 : Nat) (rho : ℝ) (Q : Elems ℝ) : Nat → ℝ := fun x =>
  if x < n1 then (if rho < 0 then -1 else 1) * Q (n1 - 1) x / Real.sqrt 2 else Q n1 x / Real.sqrt 2

theorem zOf_sq {n n1 : Nat} {rho : ℝ} {Q : Elems ℝ} (h0 : 0 < n1) (h1 : n1 < n) (hQ : (toM n n Q).transpose * toM n n Q = 1) :
    ∑ i : Fin n, zOf n1 rho Q i ^ 2 ≤ 1 := by
  have e1 := row_sq hQ (x := n1 - 1) (by omega)
  have e2 := row_sq hQ h1
  have s2 : Real.sqrt 2 ^ 2 = 2 := Real.sq_sqrt (by norm_num)
  rw [← Finset.sum_range (fun i => zOf n1 rho Q i ^ 2)]
  have hb : ∀ i ∈ Finset.range n, zOf n1 rho Q i ^ 2 ≤ (Q (n1 - 1) i ^ 2 + Q n1 i ^ 2) / 2 := by
    intro i _
    have p1 := sq_nonneg (Q (n1 - 1) i)
    have p2 := sq_nonneg (Q n1 i)
    unfold zOf
    split
    · rw [div_pow, mul_pow, s2]
      split
      · rw [neg_one_sq]; linarith
      · rw [one_pow]; linarith
    · rw [div_pow, s2]; linarith
  refine (Finset.sum_le_sum hb).trans ?_
  rw [← Finset.sum_div, Finset.sum_add_distrib, e1, e2]
  norm_num

theorem merge_ok {P : DcPar} (he : 0 ≤ P.eps) (h4 : Laed4Spec P.laed4) (hav : 0 < P.avail) {nb m ib is ie : Nat} (h : TileRange nb m ib ie)
    (h1 : ib < is) (h2 : is < ie) (rho : ℝ) {s : DcSt} (hs1 : SubIdx nb m ib is s.d0 s.i1) (hs2 : SubIdx nb m is ie s.d0 s.i1)
    (hB : BlkDiag (probN nb m ib ie) (probN nb m ib is) (shE s.e0 (ib * nb)))
    (hQ : (toM (probN nb m ib ie) (probN nb m ib ie) (shE s.e0 (ib * nb))).transpose * toM (probN nb m ib ie) (probN nb m ib ie) (shE s.e0 (ib * nb)) = 1) :
    ∃ s3, mergeSub P nb m ib is ie rho s = some s3 ∧
      MergeOk (ib * nb) (probN nb m ib ie) rho (tolOf P nb m ib is ie rho s) (zOf (probN nb m ib is) rho (shE s.e0 (ib * nb))) s s3 := by
  obtain ⟨-, hn, -, -⟩ := h.split h1 h2
  have hn1 := (h.left h1 h2).pos
  have hn2 := (h.right h2).pos
  obtain ⟨df, i2, a1, a2, a3⟩ := step1_ok he h h1 h2 rho hs1 hs2
  obtain ⟨s1, hs1'⟩ : ∃ s1 : DcSt, s1 = { s with
          i1 := joinIdx nb m ib is ie s.i1
          d0 := putF s.d0 (ib * nb) (probN nb m ib ie) df.d
          z0 := putF (assembleZ nb m ib is ie rho s.e0 s.z0) (ib * nb) (probN nb m ib ie) df.z
          c := putF (initTypes nb m ib is ie s.c) (ib * nb) (probN nb m ib ie) df.c
          e0 := putE s.e0 (ib * nb) (probN nb m ib ie) (applyRots (probN nb m ib ie) df.rots (shE s.e0 (ib * nb))) } := ⟨_, rfl⟩
  rw [← hs1'] at a1
  obtain ⟨off, hoff⟩ : ∃ off, off = ib * nb := ⟨_, rfl⟩
  obtain ⟨n, hn'⟩ : ∃ n, n = probN nb m ib ie := ⟨_, rfl⟩
  obtain ⟨n1, hn1'⟩ : ∃ n, n = probN nb m ib is := ⟨_, rfl⟩
  obtain ⟨tol, htol'⟩ : ∃ tol, tol = tolOf P nb m ib is ie rho s := ⟨_, rfl⟩
  have htol := tolOf_nonneg (nb := nb) (m := m) (ib := ib) (is := is) (ie := ie) he rho s
  have hc : ∀ i < n, shF s1.c off i = df.c i := fun i hi => by
    rw [hs1', hoff]; rw [hn'] at hi; exact putF_win _ _ _ _ hi
  have hd : ∀ i < n, shF s1.d0 off i = df.d i := fun i hi => by
    rw [hs1', hoff]; rw [hn'] at hi; exact putF_win _ _ _ _ hi
  have hzz : ∀ i < n, shF s1.z0 off i = df.z i := fun i hi => by
    rw [hs1', hoff]; rw [hn'] at hi; exact putF_win _ _ _ _ hi
  have hee : ∀ x < n, ∀ y < n, shE s1.e0 off x y = applyRots n df.rots (shE s.e0 off) x y := fun x hx y hy => by
    rw [hs1', hoff, hn']; rw [hn'] at hx hy; exact putE_win _ _ _ _ hx hy
  have hz0 : ∀ i < n, shF (assembleZ nb m ib is ie rho s.e0 s.z0) off i = zOf n1 rho (shE s.e0 off) i := by
    intro i hi
    show assembleZ nb m ib is ie rho s.e0 s.z0 (off + i) = _
    rw [hoff, assembleZ_win h h1 h2 rho s.e0 s.z0 (by omega), ← hn1']
    rfl
  rw [← htol'] at a3 htol ⊢
  obtain ⟨s2, p, nu, nd, nl, U, tau, b1, b2, b3⟩ := step2_ok h4 hav (nb := nb) (m := m) (ib := ib) (ie := ie) (rho := rho) htol (s := s1) a2
    (by
      intro i j hij hj c1 c2
      have hi := IsPerm.getD_lt a2 (j := i) (by omega)
      have hj' := IsPerm.getD_lt a2 hj
      rw [← hoff] at c1 c2 ⊢
      rw [← hn'] at hi hj'
      rw [hc _ hi] at c1
      rw [hc _ hj'] at c2
      rw [hd _ hi, hd _ hj']
      exact a3.asc i j hij hj c1 c2)
    (by
      intro i hi j hj hij c1 c2
      rw [← hoff] at c1 c2 ⊢
      rw [hc i (by omega)] at c1
      rw [hc j (by omega)] at c2
      rw [hzz i (by omega)]
      exact a3.big i hi j hj hij c1 c2)
  have hZ0 : ZeroBy n n1 (shF (initTypes nb m ib is ie s.c) off) (shE s.e0 off) := by
    intro x hx y hy
    have : shF (initTypes nb m ib is ie s.c) off y = if y < probN nb m ib is then .UpperHalf else .LowerHalf := by
      show initTypes nb m ib is ie s.c (off + y) = _
      rw [hoff]
      exact initTypes_win h h1 h2 s.c (by omega)
    rw [this, ← hn1']
    rw [← hn', ← hn1', ← hoff] at hB
    refine ⟨fun t hx1 => ?_, fun t hx1 => ?_⟩
    · by_cases hy1 : y < n1
      · exact hB x hx y hy (Or.inr ⟨hy1, hx1⟩)
      · rw [if_neg hy1] at t
        exact absurd t (by decide)
    · by_cases hy1 : y < n1
      · rw [if_pos hy1] at t
        exact absurd t (by decide)
      · exact hB x hx y hy (Or.inl ⟨hx1, by omega⟩)
  rw [← hoff, ← hn'] at a3
  have hZ := a3.zero n1 _ hZ0
  obtain ⟨s3, c1, c2⟩ := step3_ok h h1 h2 b2 b3 (by
    rw [← hoff, ← hn', ← hn1']
    intro x hx y hy
    rw [hc y hy, hee x hx y hy]
    exact hZ x hx y hy)
  rw [← hoff, ← hn'] at b2 b3 c2 ⊢
  rw [← hn'] at hQ
  rw [← hoff] at hQ
  rw [← hn1'] at ⊢
  refine ⟨s3, ?_, ?_⟩
  · unfold mergeSub
    rw [a1]
    simp only [Option.bind_eq_bind, Option.bind_some]
    rw [b1]
    simp only [Option.bind_some]
    exact c1
  · obtain ⟨G, g1, g2, g3, g4⟩ := a3.orth
    have hd0 : s3.d0 = s2.d0 := c2.d0
    obtain ⟨M, m1, m2, m3⟩ := merge_math b2.le htol (d := shF s.d0 off) (z := zOf n1 rho (shE s.e0 off)) (z1 := df.z) (d1 := df.d) (G := G) (rho := 2 * |rho|)
      (lam := shF s2.d0 off) g1 (by
        intro y
        rw [g3 y]
        exact Finset.sum_congr rfl fun x _ => by rw [hz0 x x.2]) g4 (zOf_sq (by omega) (by omega) hQ) (permEquiv b2.perm3)
      (by
        intro l hl
        rw [permEquiv_apply]
        have hlt := IsPerm.getD_lt b2.perm3 l.2
        refine a3.small _ hlt ?_
        have := b2.drop l hl l.2
        rw [hc _ hlt] at this
        exact this)
      (d2 := fun l => shF s1.d0 off (p.index_sorted.getD l 0)) (z2 := fun l => shF s1.z0 off (p.index_sorted.getD l 0))
      (fun l => by rw [permEquiv_apply]; exact hd _ (IsPerm.getD_lt b2.perm3 l.2))
      (fun l => by rw [permEquiv_apply]; exact hzz _ (IsPerm.getD_lt b2.perm3 l.2))
      (U := U) b3.orth b3.eig b3.rest
    refine
      { eig := ⟨M, m1, ?_, ?_⟩
        perm := c2.perm
        sorted := c2.sorted
        i2 := c2.i2
        e0_out := ?_
        d0_out := ?_
        i1_out := ?_ }
    · rw [m2, ← Matrix.mul_assoc, ← g2]
      ext x y
      rw [Matrix.mul_apply]
      show s3.e0 (off + x) (off + y) = _
      rw [c2.e0 x x.2 y y.2, Finset.sum_range]
      refine Fintype.sum_equiv (permEquiv b2.perm3) _ _ fun l => ?_
      rw [Matrix.submatrix_apply, Equiv.symm_apply_apply]
      have := hee x x.2 _ (permEquiv b2.perm3 l).2
      rw [show toM n n (applyRots n df.rots (shE s.e0 off)) x (permEquiv b2.perm3 l) = _ from this.symm]
      rfl
    · rw [hd0]
      exact m3
    · intro x y hxy
      rw [c2.e0_out x y hxy, hs1']
      rw [hoff, hn'] at hxy
      exact putE_out _ _ _ _ hxy
    · intro x hx
      rw [hd0, b3.d0 x hx, hs1']
      rw [hoff, hn'] at hx
      exact putF_out _ _ _ _ hx
    · intro x hx
      rw [c2.i1 x hx, b3.i1, hs1']
      rw [hoff, hn'] at hx
      exact joinIdx_out h h1 h2 s.i1 hx

end DLAF
