import Verif.Model.MatWin
import Verif.Props.Multiplication
import Verif.Lemmas.TFactor
/- Multiplication and copy of sub-matrices. -/
namespace DLAF
variable {K : Type*} [Field K] [StarRing K]

theorem winBeg_succ {nb o i : Nat} (h : 0 < nb) : winBeg nb o i ≤ winBeg nb o (i + 1) := by
  unfold winBeg
  have h1 := Nat.div_add_mod o nb
  have h2 := Nat.mod_lt o h
  rw [Nat.mul_comm] at h1
  rcases Nat.eq_zero_or_pos i with rfl | hi
  · simp
  · rw [if_neg (by omega), if_neg (by omega)]
    have : (o / nb + (i + 1)) * nb = (o / nb + i) * nb + nb := by ring
    omega

theorem winBeg_succ_eq {nb o i : Nat} (h : 0 < nb) : winBeg nb o (i + 1) + o = (o / nb + i + 1) * nb := by
  unfold winBeg
  have h1 := Nat.div_add_mod o nb
  have h2 := Nat.mod_lt o h
  rw [Nat.mul_comm] at h1
  rw [if_neg (by omega)]
  have h3 : (o / nb + i + 1) * nb = o / nb * nb + i * nb + nb := by ring
  have h4 : (o / nb + (i + 1)) * nb = o / nb * nb + i * nb + nb := by ring
  rw [h3, h4]
  omega

theorem tileStart_win {nb o len : Nat} (h : 0 < nb) : ∀ i, tileStart (winSize nb o len) i = min (winBeg nb o i) len := by
  intro i
  induction i with
  | zero => simp [tileStart, winBeg]
  | succ i ih =>
    rw [tileStart_succ, ih]
    unfold winSize
    have := winBeg_succ (o := o) (i := i) h
    omega

theorem tileStart_win_all {nb o len : Nat} (h : 0 < nb) : tileStart (winSize nb o len) (winCnt nb o len) = len := by
  rw [tileStart_win h]
  unfold winCnt
  by_cases h0 : len = 0
  · simp [h0]
  · rw [if_neg h0]
    have h1 := le_ceilDivN_mul (o % nb + len) h
    obtain ⟨c, hc⟩ : ∃ c, ceilDivN (o % nb + len) nb = c + 1 := by
      rcases Nat.eq_zero_or_pos (ceilDivN (o % nb + len) nb) with e | e
      · rw [e] at h1; omega
      · exact ⟨_, (Nat.succ_pred_eq_of_pos e).symm⟩
    rw [hc] at h1 ⊢
    have h2 := winBeg_succ_eq (o := o) (i := c) h
    have h3 := Nat.div_add_mod o nb
    rw [Nat.mul_comm] at h3
    have h4 : (o / nb + c + 1) * nb = o / nb * nb + (c + 1) * nb := by ring
    omega

theorem win_shaped (nb r0 c0 rows cols nt mt : Nat) (A : Elems K) :
    Shaped (winTiles nb A r0 c0 rows cols) (winSize nb r0 rows) (winSize nb c0 cols) nt mt := fun _ _ _ _ => ⟨rfl, rfl⟩

theorem win_holds {nb : Nat} (h : 0 < nb) {r0 c0 rows cols nt mt : Nat} (A : Elems K) (sel : Nat → Nat → Prop) :
    HoldsOn (winTiles nb A r0 c0 rows cols) (winSize nb r0 rows) (winSize nb c0 cols) nt mt (fun x y => A (r0 + x) (c0 + y)) sel := by
  intro i _ j _ r hr c hc _
  rw [tileStart_win h, tileStart_win h]
  unfold winSize at hr hc
  show A (r0 + winBeg nb r0 i + r) (c0 + winBeg nb c0 j + c) = _
  rw [show min (winBeg nb r0 i) rows = winBeg nb r0 i by omega, show min (winBeg nb c0 j) cols = winBeg nb c0 j by omega,
    Nat.add_assoc, Nat.add_assoc]

theorem win_index {nb o len x : Nat} (h : 0 < nb) (h1 : o ≤ x) (h2 : x < o + len) :
    x / nb - o / nb < winCnt nb o len ∧ winBeg nb o (x / nb - o / nb) ≤ x - o ∧
    x - o - winBeg nb o (x / nb - o / nb) < winSize nb o len (x / nb - o / nb) := by
  have hq := Nat.div_le_div_right (c := nb) h1
  have dx := Nat.div_add_mod x nb
  have dox := Nat.div_add_mod o nb
  have mx := Nat.mod_lt x h
  have mo := Nat.mod_lt o h
  rw [Nat.mul_comm] at dx dox
  obtain ⟨q, hq'⟩ : ∃ q, x / nb = o / nb + q := ⟨x / nb - o / nb, by omega⟩
  rw [hq', Nat.add_sub_cancel_left]
  have e1 := winBeg_succ_eq (o := o) (i := q) h
  have e2 : (o / nb + q + 1) * nb = x / nb * nb + nb := by rw [hq']; ring
  have e3 : winBeg nb o q ≤ x - o := by
    unfold winBeg
    split
    · omega
    · rw [← hq']; omega
  refine ⟨?_, e3, ?_⟩
  · unfold winCnt
    rw [if_neg (by omega)]
    have h3 := le_ceilDivN_mul (o % nb + len) h
    have h4 : x / nb * nb = o / nb * nb + q * nb := by rw [hq']; ring
    refine Nat.lt_of_mul_lt_mul_right (a := nb) ?_
    omega
  · unfold winSize
    omega

theorem putWin_holds {nb : Nat} (h : 0 < nb) {r0 c0 rows cols : Nat} {t : Tiles K} {A X : Elems K}
    (ht : HoldsOn t (winSize nb r0 rows) (winSize nb c0 cols) (winCnt nb r0 rows) (winCnt nb c0 cols) X fun _ _ => True) (x y : Nat) :
    putWin nb A r0 c0 rows cols t x y =
      if r0 ≤ x ∧ x < r0 + rows ∧ c0 ≤ y ∧ y < c0 + cols then X (x - r0) (y - c0) else A x y := by
  unfold putWin
  by_cases hw : r0 ≤ x ∧ x < r0 + rows ∧ c0 ≤ y ∧ y < c0 + cols
  · rw [if_pos hw, if_pos hw]
    obtain ⟨x1, x2, y1, y2⟩ := hw
    obtain ⟨a1, a2, a3⟩ := win_index h x1 x2
    obtain ⟨b1, b2, b3⟩ := win_index h y1 y2
    have := ht _ a1 _ b1 _ a3 _ b3 trivial
    rw [tileStart_win h, tileStart_win h] at this
    rw [this]
    congr 1 <;> omega
  · rw [if_neg hw, if_neg hw]

theorem copyWin_apply {nb : Nat} (h : 0 < nb) (S D : Elems K) (r0 c0 rows cols x y : Nat) :
    copyWin nb S D r0 c0 rows cols x y = if r0 ≤ x ∧ x < r0 + rows ∧ c0 ≤ y ∧ y < c0 + cols then S x y else D x y := by
  unfold copyWin
  rw [putWin_holds h (win_holds h S _)]
  by_cases hw : r0 ≤ x ∧ x < r0 + rows ∧ c0 ≤ y ∧ y < c0 + cols
  · rw [if_pos hw, if_pos hw, Nat.add_sub_cancel' hw.1, Nat.add_sub_cancel' hw.2.2.1]
  · rw [if_neg hw, if_neg hw]

theorem gemmWin_apply [DecidableEq K] {nb : Nat} (h : 0 < nb) (alpha beta : K) (A B C : Elems K) (ro co io m n k : Nat) :
    ∃ C', gemmWin nb alpha A ro io B io co beta C ro co m n k = some C' ∧ ∀ x y, C' x y =
      if ro ≤ x ∧ x < ro + m ∧ co ≤ y ∧ y < co + n then
        alpha * ∑ l ∈ Finset.range k, A x (io + l) * B (io + l) y + beta * C x y else C x y := by
  obtain ⟨t, h1, _, h3⟩ := C32_general (m := winCnt nb ro m) (n := winCnt nb co n) (k := winCnt nb io k) alpha beta
    (win_shaped nb ro io m k _ _ A) (win_shaped nb io co k n _ _ B) (win_shaped nb ro co m n _ _ C)
    (win_holds h A _) (win_holds h B _) (win_holds h C _)
  refine ⟨_, by unfold gemmWin; rw [show genNN _ _ _ _ _ _ _ _ = some t from h1]; rfl, fun x y => ?_⟩
  rw [putWin_holds h h3, tileStart_win_all h]
  by_cases hw : ro ≤ x ∧ x < ro + m ∧ co ≤ y ∧ y < co + n
  · rw [if_pos hw, if_pos hw, Nat.add_sub_cancel' hw.1, Nat.add_sub_cancel' hw.2.2.1]
  · rw [if_neg hw, if_neg hw]

end DLAF
