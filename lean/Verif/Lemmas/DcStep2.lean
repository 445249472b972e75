import Verif.Lemmas.DcPart
import Verif.Props.Rank1
/- Second part of a merge. -/
namespace DLAF
open C34

/-- What the second part gives: `U` solves the reduced rank-one problem. -/
structure Step2Ok (off n : Nat) (rho : ℝ) (s s2 : DcSt) (p : Partition) (U : Nat → Nat → ℝ) (tau : Nat → Nat) : Prop where
  orth : ∀ a < p.k, ∀ b < p.k, ∑ l ∈ Finset.range p.k, U l a * U l b = if a = b then 1 else 0
  eig : ∀ i < p.k, ∀ a < p.k, s.d0 (off + p.index_sorted.getD i 0) * U i a + 2 * |rho| * s.z0 (off + p.index_sorted.getD i 0) *
    ∑ l ∈ Finset.range p.k, s.z0 (off + p.index_sorted.getD l 0) * U l a = s2.d0 (off + a) * U i a
  rest : ∀ a, p.k ≤ a → a < n → s2.d0 (off + a) = s.d0 (off + p.index_sorted.getD a 0)
  asc : ∀ i j, i ≤ j → j < p.k → s2.d0 (off + i) ≤ s2.d0 (off + j)
  e1 : ∀ x < n, ∀ y < n, s2.e1 (off + x) (off + y) = s.e0 (off + x) (off + p.index_sorted_coltype.getD y 0)
  e2 : ∀ x < p.k, ∀ y < p.k, s2.e2 (off + x) (off + y) = U (tau x) y
  tau : ∀ x < p.k, tau x < p.k ∧ p.index_sorted.getD (tau x) 0 = p.index_sorted_coltype.getD x 0
  e0 : s2.e0 = s.e0
  i1 : s2.i1 = s.i1
  d0 : ∀ x, ¬ (off ≤ x ∧ x < off + n) → s2.d0 x = s.d0 x

theorem winL_getD {f : Nat → Nat} {off n i : Nat} (h : i < n) : (winL f off n).getD i 0 = f (off + i) := by
  rw [List.getD_eq_getElem?_getD, winL_getElem?, if_pos h, Option.getD_some]

theorem putL_shF {α : Type} {f g : Nat → α} {off n : Nat} {l : List α} {q : List Nat} (hl : l.length = n) (hq : IsPerm n q)
    (h : ∀ i (hi : i < q.length), l[i]? = (winL g off n)[q[i]]?) {i : Nat} (hi : i < n) : putL f off l (off + i) = g (off + q.getD i 0) := by
  have h1 := h i (by rw [hq.length]; exact hi)
  rw [putL_win _ _ _ (by omega)]
  rw [List.getElem?_eq_getElem (by omega), winL_getElem?, if_pos (hq.lt (List.getElem_mem _))] at h1
  rw [getD_get (by rw [hq.length]; exact hi)]
  exact Option.some.inj h1

theorem step2_ok {P : DcPar} (h4 : Laed4Spec P.laed4) (hav : 0 < P.avail) {nb m ib ie : Nat} {rho tol : ℝ} (htol : 0 ≤ tol) {s : DcSt}
    {i2 : List Nat} (hp : IsPerm (probN nb m ib ie) i2)
    (asc : ∀ i j, i < j → j < probN nb m ib ie → shF s.c (ib * nb) (i2.getD i 0) ≠ .Deflated → shF s.c (ib * nb) (i2.getD j 0) ≠ .Deflated →
      shF s.d0 (ib * nb) (i2.getD i 0) < shF s.d0 (ib * nb) (i2.getD j 0))
    (big : ∀ i < probN nb m ib ie, ∀ j < probN nb m ib ie, i ≠ j → shF s.c (ib * nb) i ≠ .Deflated → shF s.c (ib * nb) j ≠ .Deflated →
      tol < |2 * |rho| * shF s.z0 (ib * nb) i|) :
    ∃ (s2 : DcSt) (p : Partition) (nu nd nl : Nat) (U : Nat → Nat → ℝ) (tau : Nat → Nat), dcStep2 P nb m ib ie rho s i2 = some (s2, p) ∧
      PartOk (shF s.c (ib * nb)) (shF s.d0 (ib * nb)) (probN nb m ib ie) i2 p nu nd nl ∧ Step2Ok (ib * nb) (probN nb m ib ie) rho s s2 p U tau := by
  obtain ⟨off, hoff⟩ : ∃ off, off = ib * nb := ⟨_, rfl⟩
  obtain ⟨n, hn⟩ : ∃ n, n = probN nb m ib ie := ⟨_, rfl⟩
  rw [← hoff, ← hn]
  rw [← hoff, ← hn] at asc big
  rw [← hn] at hp
  obtain ⟨p, nu, nd, nl, q1, q2⟩ := part_ok (c := s.c) (d := s.d0) (off := off) hp (winL_length s.i3 off n) (winL_length s.i5 off n)
  obtain ⟨d1, a1, a2, a3⟩ := C34_apply q2.perm3 (winL_length s.d0 off n)
  obtain ⟨z1, b1, b2, b3⟩ := C34_apply q2.perm3 (winL_length s.z0 off n)
  obtain ⟨inv, c1, c2, c3, c4⟩ := C34_invert q2.perm3 hp.length
  obtain ⟨i4, f1, f2, f3⟩ := C34_apply q2.perm5 c2.length
  have hd1 : ∀ {f : Nat → ℝ} {i}, i < n → putL f off d1 (off + i) = s.d0 (off + p.index_sorted.getD i 0) :=
    fun hi => putL_shF a2 q2.perm3 a3 hi
  have hz1 : ∀ {f : Nat → ℝ} {i}, i < n → putL f off z1 (off + i) = s.z0 (off + p.index_sorted.getD i 0) :=
    fun hi => putL_shF b2 q2.perm3 b3 hi
  -- position in the sorted index of entry `x` of the other index
  have h34 : ∀ x < n, i4.getD x 0 < n ∧ p.index_sorted.getD (i4.getD x 0) 0 = p.index_sorted_coltype.getD x 0 := by
    intro x hx
    have l5 : x < p.index_sorted_coltype.length := by rw [q2.perm5.length]; exact hx
    have e := f3 x l5
    have h5 : p.index_sorted_coltype[x] < n := q2.perm5.lt (List.getElem_mem _)
    have hlt : p.index_sorted_coltype[x] < inv.length := by rw [c2.length]; exact h5
    rw [List.getElem?_eq_getElem hlt, List.getElem?_eq_getElem (by omega)] at e
    have e' := Option.some.inj e
    have g := c4 _ hlt
    have hi : inv[p.index_sorted_coltype[x]] < n := c2.lt (List.getElem_mem _)
    rw [List.getElem?_eq_getElem (by rw [q2.perm3.length]; exact hi)] at g
    rw [getD_get (by omega), e', getD_get (l := p.index_sorted) (by rw [q2.perm3.length]; exact hi), getD_get l5]
    exact ⟨hi, Option.some.inj g⟩
  have hlt : ∀ x < p.k, i4.getD x 0 < p.k := by
    intro x hx
    have hle := q2.le
    obtain ⟨u1, u2⟩ := h34 x (by omega)
    by_contra hc
    have := q2.drop _ (by omega) u1
    rw [u2] at this
    exact q2.keep5 x hx this
  have hge : ∀ x < n, p.k ≤ x → p.k ≤ i4.getD x 0 := by
    intro x hx hk
    obtain ⟨u1, u2⟩ := h34 x hx
    rw [q2.tail x hk hx] at u2
    rw [IsPerm.getD_inj q2.perm3 u1 hx u2]
    exact hk
  have hle := q2.le
  have hsec : 2 ≤ p.k → SecularInput p.k (shF (putL s.d1 off d1) off) (shF (putL s.z1 off z1) off) (2 * |rho|) := by
    intro hk
    have hb : ∀ j < p.k, tol < |2 * |rho| * s.z0 (off + p.index_sorted.getD j 0)| := by
      intro j hj
      obtain ⟨i, hi, hij⟩ : ∃ i < p.k, i ≠ j := by
        rcases Nat.eq_zero_or_pos j with h | h
        · exact ⟨1, by omega, by omega⟩
        · exact ⟨0, by omega, by omega⟩
      exact big _ (IsPerm.getD_lt q2.perm3 (by omega)) _ (IsPerm.getD_lt q2.perm3 (j := i) (by omega)) (fun e => hij (IsPerm.getD_inj q2.perm3 (by omega) (by omega) e).symm)
        (q2.keep j hj) (q2.keep i hi)
    have hne : ∀ j < p.k, 2 * |rho| * s.z0 (off + p.index_sorted.getD j 0) ≠ 0 := by
      intro j hj h0
      have := hb j hj
      rw [h0, abs_zero] at this
      linarith
    refine ⟨?_, ?_, ?_⟩
    · have h0 := hne 0 (by omega)
      have : |rho| ≠ 0 := fun h => h0 (by rw [h, mul_zero, zero_mul])
      have := lt_of_le_of_ne (abs_nonneg rho) (Ne.symm this)
      linarith
    · intro i j hij hj
      show putL s.d1 off d1 (off + i) < putL s.d1 off d1 (off + j)
      rw [hd1 (by omega), hd1 (by omega)]
      refine q2.order (fun a b => shF s.c off a ≠ .Deflated → shF s.c off b ≠ .Deflated → shF s.d0 off a < shF s.d0 off b) ?_ i j hij hj
        (q2.keep i (by omega)) (q2.keep j hj)
      rw [List.pairwise_iff_getElem]
      intro a b ha hb hab
      have := asc a b hab (by rw [← hp.length]; exact hb)
      rw [getD_get ha, getD_get hb] at this
      exact this
    · intro j hj h0
      have h0 : putL s.z1 off z1 (off + j) = 0 := h0
      rw [hz1 (by omega)] at h0
      exact hne j hj (by rw [h0, mul_zero])
  obtain ⟨r, r1, U, r2, r3, r4, r5, r6, r7⟩ := C51_solved ⟨P.laed4, n, p.k, 2 * |rho|, shF (putL s.d1 off d1) off, i4, P.junk⟩ h4 P.avail (ie - ib) hav
    ⟨shF (putL s.d0 off d1) off, shF (putL s.z1 off z1) off, shE s.e2 off, P.junk⟩ q2.le hsec ⟨hlt, hge⟩
  dsimp only at r2 r3 r4 r5 r6 r7
  obtain ⟨V, hV⟩ : ∃ V : Nat → Nat → ℝ, V = fun a b => if h : a < p.k ∧ b < p.k then U ⟨a, h.1⟩ ⟨b, h.2⟩ else 0 := ⟨_, rfl⟩
  have hVU : ∀ a b : Fin p.k, V a b = U a b := by
    intro a b
    rw [hV]
    exact dif_pos ⟨a.2, b.2⟩
  refine ⟨{ s with
        i3 := putL s.i3 off p.index_sorted
        i5 := putL s.i5 off p.index_sorted_coltype
        i4 := putL s.i4 off i4
        i2 := putL s.i2 off inv
        e1 := permCols off n p.index_sorted_coltype s.e0 s.e1
        d1 := putL s.d1 off d1
        d0 := putF (putL s.d0 off d1) off n r.evals
        z1 := putF (putL s.z1 off z1) off n r.z
        e2 := putE s.e2 off n r.q }, p, nu, nd, nl, V, fun x => i4.getD x 0, ?_, q2, ?_⟩
  · unfold dcStep2
    dsimp only
    rw [← hoff, ← hn, q1]
    simp only [Option.bind_eq_bind, Option.bind_some]
    rw [a1, Option.bind_some, b1, Option.bind_some, c1, Option.bind_some, f1, Option.bind_some, r1, Option.bind_some]
  · refine
      { orth := ?_
        eig := ?_
        rest := ?_
        asc := ?_
        e1 := ?_
        e2 := ?_
        tau := ?_
        e0 := rfl
        i1 := rfl
        d0 := ?_ }
    · intro a ha b hb
      have := congrFun (congrFun r2 ⟨a, ha⟩) ⟨b, hb⟩
      rw [Matrix.mul_apply, Matrix.one_apply] at this
      rw [Finset.sum_range]
      simp only [Matrix.transpose_apply, Fin.mk.injEq] at this
      rw [← this]
      refine Finset.sum_congr rfl fun l _ => ?_
      rw [← hVU l ⟨a, ha⟩, ← hVU l ⟨b, hb⟩]
    · intro i hi a ha
      have := congrFun (congrFun r3 ⟨i, hi⟩) ⟨a, ha⟩
      rw [Matrix.mul_apply, Matrix.mul_diagonal] at this
      simp only [rank1M, Matrix.of_apply, add_mul, Finset.sum_add_distrib, ite_mul, zero_mul, Finset.sum_ite_eq, Finset.mem_univ, if_true] at this
      show _ = putF (putL s.d0 off d1) off n r.evals (off + a) * _
      rw [putF_win _ _ _ _ (by omega), Finset.sum_range, hVU ⟨i, hi⟩ ⟨a, ha⟩, mul_comm (r.evals a), ← this, Finset.mul_sum]
      congr 1
      · show _ = putL s.d1 off d1 (off + i) * _
        rw [hd1 (by omega)]
      · refine Finset.sum_congr rfl fun l _ => ?_
        show _ = 2 * |rho| * putL s.z1 off z1 (off + i) * putL s.z1 off z1 (off + l) * _
        have := l.2
        rw [hz1 (by omega), hz1 (by omega), hVU l ⟨a, ha⟩]
        ring
    · intro a ha han
      show putF (putL s.d0 off d1) off n r.evals (off + a) = _
      rw [putF_win _ _ _ _ han, r6 a ha]
      exact hd1 han
    · intro i j hij hj
      show putF (putL s.d0 off d1) off n r.evals (off + i) ≤ putF (putL s.d0 off d1) off n r.evals (off + j)
      rw [putF_win _ _ _ _ (by omega), putF_win _ _ _ _ (by omega)]
      rcases Nat.lt_or_eq_of_le hij with h | h
      · exact r4 i j h hj
      · rw [h]
    · intro x hx y hy
      show permCols off n p.index_sorted_coltype s.e0 s.e1 (off + x) (off + y) = _
      unfold permCols
      rw [putE_win _ _ _ _ hx hy]
      rfl
    · intro x hx y hy
      show putE s.e2 off n r.q (off + x) (off + y) = _
      rw [putE_win _ _ _ _ (by omega) (by omega)]
      have := r5 ⟨x, hx⟩ ⟨y, hy⟩ ⟨i4.getD x 0, hlt x hx⟩ rfl
      rw [← hVU] at this
      exact this
    · intro x hx
      exact ⟨hlt x hx, (h34 x (by omega)).2⟩
    · intro x hx
      show putF (putL s.d0 off d1) off n r.evals x = _
      rw [putF_out _ _ _ _ hx, putL_out _ _ _ _ a2 hx]

end DLAF
