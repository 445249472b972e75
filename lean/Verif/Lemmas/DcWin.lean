import Verif.Model.DivConq
import Verif.Lemmas.MatWin
import Verif.Props.IndexVectors
/- Ranges of tiles and windows. -/
namespace DLAF
open C34

/-- `ib < ie` tiles, tile `ie - 1` exists. -/
structure TileRange (nb m ib ie : Nat) : Prop where
  nbp : 0 < nb
  lt : ib < ie
  last : (ie - 1) * nb < m

section
variable {nb m ib ie : Nat}

theorem TileRange.probN (h : TileRange nb m ib ie) : probN nb m ib ie + ib * nb = min (ie * nb) m := by
  obtain ⟨h0, h1, h2⟩ := h
  unfold DLAF.probN tileN
  obtain ⟨q, rfl⟩ : ∃ q, ie = ib + q + 1 := ⟨ie - ib - 1, by omega⟩
  rw [show ib + q + 1 - ib - 1 = q by omega, show ib + q + 1 - 1 = ib + q by omega]
  rw [show ib + q + 1 - 1 = ib + q by omega] at h2
  have e1 : (ib + q) * nb = ib * nb + q * nb := by ring
  have e2 : (ib + q + 1) * nb = ib * nb + q * nb + nb := by ring
  rw [e1] at h2
  rw [e1, e2]
  omega

theorem TileRange.pos (h : TileRange nb m ib ie) : 0 < DLAF.probN nb m ib ie := by
  have h1 := h.probN
  have h2 := h.last
  have h3 : ib * nb ≤ (ie - 1) * nb := Nat.mul_le_mul_right _ (by have := h.lt; omega)
  have h4 : (ie - 1) * nb + nb = ie * nb := by
    rw [← Nat.succ_mul]
    congr 1
    have := h.lt
    omega
  have := h.nbp
  omega

theorem TileRange.mem (h : TileRange nb m ib ie) {x : Nat} :
    (ib ≤ x / nb ∧ x / nb < ie ∧ x < m) ↔ (ib * nb ≤ x ∧ x < ib * nb + DLAF.probN nb m ib ie) := by
  have h1 := h.probN
  rw [Nat.le_div_iff_mul_le h.nbp, Nat.div_lt_iff_lt_mul h.nbp]
  omega

theorem TileRange.left {is : Nat} (h : TileRange nb m ib ie) (h1 : ib < is) (h2 : is < ie) : TileRange nb m ib is := by
  refine ⟨h.nbp, h1, lt_of_le_of_lt (Nat.mul_le_mul_right _ ?_) h.last⟩
  omega

theorem TileRange.right {is : Nat} (h : TileRange nb m ib ie) (h2 : is < ie) : TileRange nb m is ie := ⟨h.nbp, h2, h.last⟩

/-- Size of the upper part; the two parts. -/
theorem TileRange.split {is : Nat} (h : TileRange nb m ib ie) (h1 : ib < is) (h2 : is < ie) :
    ib * nb + DLAF.probN nb m ib is = is * nb ∧
    DLAF.probN nb m ib ie = DLAF.probN nb m ib is + DLAF.probN nb m is ie ∧
    (is - 1) * nb + (tileN nb m (is - 1) - 1) + 1 = is * nb ∧ is * nb < m := by
  have e1 := h.probN
  have e2 := (h.left h1 h2).probN
  have e3 := (h.right h2).probN
  have e4 : is * nb ≤ (ie - 1) * nb := Nat.mul_le_mul_right _ (by omega)
  have := h.last
  have e5 : (is - 1) * nb + nb = is * nb := by
    rw [← Nat.succ_mul]
    congr 1
    omega
  have e6 : ib * nb ≤ is * nb := Nat.mul_le_mul_right _ (by omega)
  have e7 : is * nb ≤ ie * nb := Nat.mul_le_mul_right _ (by omega)
  have := h.nbp
  unfold tileN
  omega

end

/-! ### windows -/

theorem winL_length {α : Type} (f : Nat → α) (off n : Nat) : (winL f off n).length = n := by simp [winL]

theorem winL_getElem? {α : Type} (f : Nat → α) (off n i : Nat) : (winL f off n)[i]? = if i < n then some (f (off + i)) else none := by
  unfold winL
  rw [List.getElem?_map]
  by_cases h : i < n
  · rw [List.getElem?_range h, if_pos h]; rfl
  · rw [List.getElem?_eq_none (by simp; omega), if_neg h]; rfl

theorem winL_congr {α : Type} {f g : Nat → α} {off off' n : Nat} (h : ∀ i < n, f (off + i) = g (off' + i)) :
    winL f off n = winL g off' n := by
  unfold winL
  exact List.map_congr_left fun i hi => h i (List.mem_range.1 hi)

theorem winL_append {α : Type} (f : Nat → α) (off n1 n2 : Nat) : winL f off (n1 + n2) = winL f off n1 ++ winL f (off + n1) n2 := by
  unfold winL
  rw [List.range_add, List.map_append, List.map_map]
  congr 1
  exact List.map_congr_left fun i _ => by simp [Nat.add_assoc]

theorem winL_range (off n : Nat) (f : Nat → Nat) (h : ∀ i < n, f (off + i) = i) : winL f off n = List.range n := by
  have : winL f off n = (List.range n).map id := List.map_congr_left fun i hi => h i (List.mem_range.1 hi)
  rw [this, List.map_id]

theorem putL_win {α : Type} (f : Nat → α) (off : Nat) (l : List α) {i : Nat} (h : i < l.length) : putL f off l (off + i) = l[i] := by
  unfold putL
  rw [if_pos (by omega), Nat.add_sub_cancel_left, List.getD_eq_getElem?_getD, List.getElem?_eq_getElem h, Option.getD_some]

theorem winL_putL {α : Type} (f : Nat → α) (off n : Nat) (l : List α) (h : l.length = n) : winL (putL f off l) off n = l := by
  apply List.ext_getElem?
  intro i
  rw [winL_getElem?]
  by_cases hi : i < n
  · rw [if_pos hi, putL_win _ _ _ (by omega), List.getElem?_eq_getElem (by omega)]
  · rw [if_neg hi, List.getElem?_eq_none (by omega)]

theorem putL_out {α : Type} (f : Nat → α) (off n : Nat) (l : List α) (h : l.length = n) {x : Nat} (hx : ¬ (off ≤ x ∧ x < off + n)) :
    putL f off l x = f x := by
  unfold putL
  by_cases h1 : off ≤ x
  · rw [if_pos h1, List.getD_eq_getElem?_getD, List.getElem?_eq_none (by omega), Option.getD_none]
  · rw [if_neg h1]

theorem putF_win {α : Type} (f : Nat → α) (off n : Nat) (g : Nat → α) {i : Nat} (h : i < n) : putF f off n g (off + i) = g i := by
  unfold putF
  rw [if_pos (by omega), Nat.add_sub_cancel_left]

theorem putF_out {α : Type} (f : Nat → α) (off n : Nat) (g : Nat → α) {x : Nat} (hx : ¬ (off ≤ x ∧ x < off + n)) : putF f off n g x = f x :=
  if_neg hx

theorem putE_win (M : Elems ℝ) (off n : Nat) (g : Elems ℝ) {x y : Nat} (hx : x < n) (hy : y < n) :
    putE M off n g (off + x) (off + y) = g x y := by
  unfold putE
  rw [if_pos (by omega), Nat.add_sub_cancel_left, Nat.add_sub_cancel_left]

theorem putE_out (M : Elems ℝ) (off n : Nat) (g : Elems ℝ) {x y : Nat} (h : ¬ ((off ≤ x ∧ x < off + n) ∧ (off ≤ y ∧ y < off + n))) :
    putE M off n g x y = M x y := if_neg h

/-! ### index vectors -/

theorem IsPerm.getD_lt {n : Nat} {l : List Nat} (h : IsPerm n l) {j : Nat} (hj : j < n) : l.getD j 0 < n := by
  rw [List.getD_eq_getElem?_getD, List.getElem?_eq_getElem (by rw [h.length]; exact hj), Option.getD_some]
  exact h.lt (List.getElem_mem _)

theorem getD_get {l : List Nat} {j : Nat} (hj : j < l.length) : l.getD j 0 = l[j] := by
  rw [List.getD_eq_getElem?_getD, List.getElem?_eq_getElem hj, Option.getD_some]

theorem IsPerm.getD_inj {n : Nat} {l : List Nat} (h : IsPerm n l) {i j : Nat} (hi : i < n) (hj : j < n) (e : l.getD i 0 = l.getD j 0) :
    i = j := by
  rw [getD_get (by rw [h.length]; exact hi), getD_get (by rw [h.length]; exact hj)] at e
  exact (h.nodup.getElem_inj_iff).1 e

theorem IsPerm.getD_sur {n : Nat} {l : List Nat} (h : IsPerm n l) {x : Nat} (hx : x < n) : ∃ j < n, l.getD j 0 = x := by
  obtain ⟨j, hj, he⟩ := List.getElem_of_mem (h.mem hx)
  exact ⟨j, by rw [← h.length]; exact hj, by rw [getD_get hj]; exact he⟩

/-- Sorted along an index, for a window. -/
theorem sortedAlong_win {f : Nat → ℝ} {off n : Nat} {l : List Nat} (hl : ∀ i ∈ l, i < n) :
    SortedAlong (winL f off n) l ↔ ∀ i j, i ≤ j → j < l.length → f (off + l.getD i 0) ≤ f (off + l.getD j 0) := by
  unfold SortedAlong
  rw [List.pairwise_iff_getElem]
  constructor
  · intro h i j hij hj
    rcases Nat.lt_or_eq_of_le hij with h1 | h1
    · obtain ⟨a, b, ha, hb, hab⟩ := h i j (by omega) hj h1
      rw [winL_getElem?, if_pos (hl _ (List.getElem_mem _))] at ha hb
      rw [getD_get (by omega), getD_get hj, Option.some.inj ha, Option.some.inj hb]
      exact hab
    · rw [h1]
  · intro h i j hi hj hij
    refine ⟨_, _, by rw [winL_getElem?, if_pos (hl _ (List.getElem_mem _))], by rw [winL_getElem?, if_pos (hl _ (List.getElem_mem _))], ?_⟩
    have := h i j (by omega) hj
    rw [getD_get hi, getD_get hj] at this
    exact this

end DLAF
