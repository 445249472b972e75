import Verif.Lemmas.DcStep2
import Verif.Lemmas.DcMath
import Verif.Lemmas.MatWin
import Mathlib.Algebra.BigOperators.Intervals
/- Third part of a merge. -/
namespace DLAF
open C34

theorem sum_reindex {k : Nat} {tau : Nat → Nat} (h1 : ∀ x < k, tau x < k) (h2 : ∀ x < k, ∀ y < k, tau x = tau y → x = y) (f : Nat → ℝ) :
    ∑ l ∈ Finset.range k, f (tau l) = ∑ l ∈ Finset.range k, f l := by
  have hm : Set.MapsTo tau (Finset.range k : Set Nat) (Finset.range k : Set Nat) := by
    intro x hx
    rw [Finset.mem_coe, Finset.mem_range] at *
    exact h1 x hx
  have hi : Set.InjOn tau (Finset.range k : Set Nat) := by
    intro x hx y hy e
    rw [Finset.mem_coe, Finset.mem_range] at *
    exact h2 x hx y hy e
  refine Finset.sum_nbij tau hm hi ?_ fun _ _ => rfl
  exact Finset.surjOn_of_injOn_of_card_le tau hm hi (le_refl _)

/-- What the third part gives. -/
structure Step3Ok (off n : Nat) (s s2 s3 : DcSt) (p : Partition) (U : Nat → Nat → ℝ) : Prop where
  e0 : ∀ x < n, ∀ y < n, s3.e0 (off + x) (off + y) =
    ∑ l ∈ Finset.range n, s.e0 (off + x) (off + p.index_sorted.getD l 0) * blkW p.k U l y
  e0_out : ∀ x y, ¬ ((off ≤ x ∧ x < off + n) ∧ (off ≤ y ∧ y < off + n)) → s3.e0 x y = s.e0 x y
  perm : IsPerm n (winL s3.i1 off n)
  sorted : SortedAlong (winL s3.d0 off n) (winL s3.i1 off n)
  i2 : winL s3.i2 off n = winL s3.i1 off n
  i1 : ∀ x, ¬ (off ≤ x ∧ x < off + n) → s3.i1 x = s2.i1 x
  d0 : s3.d0 = s2.d0

theorem multEvecs_ok {nb off n n1 n2 : Nat} (hnb : 0 < nb) (hn : n = n1 + n2) {rho : ℝ} {s s2 : DcSt} {p : Partition} {c : Nat → ColType} {d : Nat → ℝ}
    {i2 : List Nat} {nu nd nl : Nat} {U : Nat → Nat → ℝ} {tau : Nat → Nat} (hP : PartOk c d n i2 p nu nd nl) (h2 : Step2Ok off n rho s s2 p U tau)
    (hz : ZeroBy n n1 c (shE s.e0 off)) :
    ∃ e, multEvecs nb off n n1 n2 p s2.e0 s2.e1 s2.e2 = some e ∧
      (∀ x < n, ∀ y < n, e (off + x) (off + y) = ∑ l ∈ Finset.range n, s.e0 (off + x) (off + p.index_sorted.getD l 0) * blkW p.k U l y) ∧
      ∀ x y, ¬ ((off ≤ x ∧ x < off + n) ∧ (off ≤ y ∧ y < off + n)) → e x y = s.e0 x y := by
  have hle := hP.le
  have hsum := hP.sum
  obtain ⟨c1, g1, g2⟩ := gemmWin_apply hnb 1 0 s2.e1 s2.e2 s2.e0 off off off n1 p.k (nu + nd)
  obtain ⟨c2, g3, g4⟩ := gemmWin_apply hnb 1 0 s2.e1 s2.e2 c1 (off + n1) off (off + nu) n2 p.k (nd + nl)
  refine ⟨copyWin nb s2.e1 c2 off (off + p.k) n (n - p.k), ?_, ?_, ?_⟩
  · unfold multEvecs
    rw [hP.udl]
    simp only [ev_sort_order, List.getD_cons_zero, List.getD_cons_succ, Option.bind_eq_bind]
    rw [g1, Option.bind_some, g3, Option.bind_some]
  · intro x hx y hy
    rw [copyWin_apply hnb]
    rcases Nat.lt_or_ge y p.k with hk | hk
    · rw [if_neg (by omega), g4]
      have hzero : ∑ l ∈ Finset.range n, s.e0 (off + x) (off + p.index_sorted.getD l 0) * blkW p.k U l y =
          ∑ l ∈ Finset.range p.k, s2.e1 (off + x) (off + l) * s2.e2 (off + l) (off + y) := by
        rw [sum_le_k hle (fun l hl _ => by
          unfold blkW
          rw [if_neg (by omega), if_neg (by omega), mul_zero])]
        rw [← sum_reindex (tau := tau) (fun x hx => (h2.tau x hx).1) (fun a ha b hb e => by
          have e1 := (h2.tau a ha).2
          have e2 := (h2.tau b hb).2
          rw [e, e2] at e1
          exact (IsPerm.getD_inj hP.perm5 (by omega) (by omega) e1).symm)]
        refine Finset.sum_congr rfl fun l hl => ?_
        rw [Finset.mem_range] at hl
        have ht := h2.tau l hl
        rw [h2.e1 x hx l (by omega), h2.e2 l hl y hk, ht.2]
        unfold blkW
        rw [if_pos ⟨ht.1, hk⟩]
      rw [hzero]
      rcases Nat.lt_or_ge x n1 with h1 | h1
      · rw [if_neg (by omega), g2, if_pos (by omega), one_mul, zero_mul, add_zero, ← hsum]
        rw [sum_le_k (n := nu + nd + nl) (k := nu + nd) (by omega) (fun l hl hl' => by
          rw [h2.e1 x hx l (by omega)]
          have := (hz x hx _ (IsPerm.getD_lt hP.perm5 (j := l) (by omega))).2 (hP.lower l hl (by omega)) h1
          unfold shE at this
          rw [this, zero_mul])]
      · rw [if_pos (by omega), one_mul, zero_mul, add_zero, ← hsum, Nat.add_assoc, Finset.sum_range_add _ nu (nd + nl)]
        rw [Finset.sum_eq_zero (s := Finset.range nu) (fun l hl => by
          rw [Finset.mem_range] at hl
          rw [h2.e1 x hx l (by omega)]
          have := (hz x hx _ (IsPerm.getD_lt hP.perm5 (j := l) (by omega))).1 (hP.upper l hl) h1
          unfold shE at this
          rw [this, zero_mul]), zero_add]
        exact Finset.sum_congr rfl fun l _ => by rw [Nat.add_assoc]
    · rw [if_pos (by omega), h2.e1 x hx y hy, hP.tail y hk hy]
      have : ∀ l, blkW p.k U l y = if l = y then 1 else 0 := by
        intro l
        unfold blkW
        rw [if_neg (by omega)]
      simp only [this, mul_ite, mul_one, mul_zero]
      rw [Finset.sum_ite_eq', if_pos (Finset.mem_range.2 hy)]
  · intro x y hxy
    rw [copyWin_apply hnb, if_neg (by omega), g4, if_neg (by omega), g2, if_neg (by omega), h2.e0]

theorem step3_ok {nb m ib is ie : Nat} (h : TileRange nb m ib ie) (hb1 : ib < is) (hb2 : is < ie) {rho : ℝ} {s s2 : DcSt} {p : Partition}
    {c : Nat → ColType} {i2 : List Nat} {nu nd nl : Nat} {U : Nat → Nat → ℝ} {tau : Nat → Nat}
    (hP : PartOk c (shF s.d0 (ib * nb)) (probN nb m ib ie) i2 p nu nd nl) (h2 : Step2Ok (ib * nb) (probN nb m ib ie) rho s s2 p U tau)
    (hz : ZeroBy (probN nb m ib ie) (probN nb m ib is) c (shE s.e0 (ib * nb))) :
    ∃ s3, dcStep3 nb m ib is ie s2 p = some s3 ∧ Step3Ok (ib * nb) (probN nb m ib ie) s s2 s3 p U := by
  obtain ⟨-, hn, -, -⟩ := h.split hb1 hb2
  obtain ⟨e, f1, f2, f3⟩ := multEvecs_ok h.nbp hn hP h2 hz
  have hle := hP.le
  have hp : IsPerm (probN nb m ib ie) (List.range (probN nb m ib ie)) := List.Perm.refl _
  have hget : ∀ {a b}, a < b → (List.range b).getD a 0 = a := by
    intro a b h
    rw [getD_get (by rw [List.length_range]; exact h), List.getElem_range]
  obtain ⟨out, o1, o2, o3⟩ := C34_sort (v := winL s2.d0 (ib * nb) (probN nb m ib ie)) (k := p.k) (winL_length _ _ _) hp hP.le
    (by
      rw [List.take_range, Nat.min_eq_left hle, sortedAlong_win (fun i hi => lt_of_lt_of_le (List.mem_range.1 hi) hle)]
      intro i j hij hj
      rw [List.length_range] at hj
      rw [hget hj, hget (by omega)]
      exact h2.asc i j hij hj)
    (by
      rw [sortedAlong_win (fun i hi => List.mem_range.1 (List.mem_of_mem_drop hi))]
      intro i j hij hj
      rw [List.length_drop, List.length_range] at hj
      rw [getD_get (by rw [List.length_drop, List.length_range]; omega), getD_get (by rw [List.length_drop, List.length_range]; omega),
        List.getElem_drop, List.getElem_drop, List.getElem_range, List.getElem_range, h2.rest _ (by omega) (by omega), h2.rest _ (by omega) (by omega)]
      exact hP.sorted _ _ (by omega) (by omega) (by omega))
  refine ⟨{ s2 with
      e0 := e
      i2 := putL s2.i2 (ib * nb) out
      i1 := putL (initIdx nb m ib ie s2.i1) (ib * nb) out }, ?_, ?_⟩
  · unfold dcStep3
    dsimp only
    rw [f1]
    simp only [Option.bind_eq_bind, Option.bind_some]
    rw [initIdx_win h, o1, Option.bind_some]
  · have w1 : winL (putL (initIdx nb m ib ie s2.i1) (ib * nb) out) (ib * nb) (probN nb m ib ie) = out := winL_putL _ _ _ _ o2.length
    have w2 : winL (putL s2.i2 (ib * nb) out) (ib * nb) (probN nb m ib ie) = out := winL_putL _ _ _ _ o2.length
    exact
      { e0 := f2
        e0_out := f3
        perm := by
          dsimp only
          rw [w1]
          exact o2
        sorted := by
          dsimp only
          rw [w1]
          exact o3
        i2 := by
          dsimp only
          rw [w1, w2]
        i1 := by
          intro x hx
          dsimp only
          rw [putL_out _ _ _ _ o2.length hx, initIdx_out h _ hx]
        d0 := rfl }

end DLAF
