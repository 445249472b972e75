import Verif.Lemmas.BtBandAlg
import Verif.Spec.BtBandTridiag
/- The tiles V, T and W of a block of reflectors. -/
namespace DLAF
open scoped Classical

section tiles
variable {K : Type*} [Field K] [StarRing K]

theorem sub_win {t : Blk K} {M : Elems K} {r0 c0 R C : Nat} (h : IsWin t M r0 c0 R C) {r c rows cols : Nat} (hr : r + rows ≤ R)
    (hc : c + cols ≤ C) : ∃ s, subTileO t r c rows cols = some s ∧ IsWin s M (r0 + r) (c0 + c) rows cols := by
  unfold subTileO
  rw [if_pos ⟨by rw [h.1]; exact hr, by rw [h.2.1]; exact hc⟩]
  refine ⟨_, rfl, rfl, rfl, fun x hx y hy => ?_⟩
  beta_reduce
  rw [h.2.2 _ (by omega) _ (by omega), Nat.add_assoc, Nat.add_assoc]

theorem putTile_win {t s : Blk K} {M N : Elems K} {r0 c0 R C : Nat} (h : IsWin t M r0 c0 R C) {r c rows cols : Nat}
    (hs : IsWin s N (r0 + r) (c0 + c) rows cols) :
    IsWin (putTile t r c s) (fun x y => if (r0 + r ≤ x ∧ x < r0 + r + rows) ∧ (c0 + c ≤ y ∧ y < c0 + c + cols) then N x y else M x y)
      r0 c0 R C := by
  refine ⟨h.1, h.2.1, fun x hx y hy => ?_⟩
  unfold putTile
  beta_reduce
  simp only
  rw [hs.1, hs.2.1]
  by_cases h1 : r ≤ x ∧ x < r + rows ∧ c ≤ y ∧ y < c + cols
  · rw [if_pos h1, if_pos (by omega), hs.2.2 _ (by omega) _ (by omega)]
    congr 1 <;> omega
  · rw [if_neg h1, if_neg (by omega), h.2.2 x hx y hy]

end tiles

variable {K : Type*} [RCLike K]

/-- Sizes of a block: `k` reflectors, the first of them starts at row `i b + 1`. -/
structure BlkOK (n b i j k : Nat) : Prop where
  hb : 2 ≤ b
  hj : j ≤ i
  hk1 : 1 ≤ k
  hkb : k ≤ b
  hkn : i * b + k + 1 ≤ n
  hk2 : k = b ∨ n ≤ i * b + k + 2

/-- The vectors of the block `(j, st)`. -/
def blkV (n b : Nat) (V : Nat → Nat → K) (j st : Nat) : Elems K := fun x c => hhVec n b V (j * b + c) st x

/-- Their taus. -/
def blkTau (b : Nat) (V : Nat → Nat → K) (j st : Nat) : Nat → K := fun c => V ((j + st) * b) (j * b + c)

theorem blkV_val {n b j st c : Nat} (hc : c < b) (V : Nat → Nat → K) (x : Nat) :
    blkV n b V j st x c = if x < (j + st) * b + 1 + c then 0 else if x = (j + st) * b + 1 + c then 1
      else if x < (j + st) * b + 1 + c + min b (n - ((j + st) * b + 1 + c)) then
        V ((j + st) * b + (x - ((j + st) * b + 1 + c))) (j * b + c) else 0 := by
  unfold blkV hhVec
  have h1 : (j * b + c) / b = j := by
    rw [Nat.mul_comm, Nat.mul_add_div (by omega), Nat.div_eq_of_lt hc, Nat.add_zero]
  have h2 : 1 + (j * b + c) + st * b = (j + st) * b + 1 + c := by rw [Nat.add_mul]; omega
  simp only [h1, h2]

/-- `setupVWellFormed` writes the vectors as they are applied. -/
theorem setupV_spec {n b j st k : Nat} (ok : BlkOK n b (j + st) j k) (V : Nat → Nat → K) {v : Blk K}
    (hv : v.rows = min (2 * b) (n - (j + st) * b) - 1 ∧ v.cols = k) :
    ∃ v', setupVWellFormed b (getB V ((j + st) * b) (j * b) (min b (n - (j + st) * b)) (min b (n - j * b))) v = some v' ∧
      IsWin v' (blkV n b V j st) ((j + st) * b + 1) 0 (min (2 * b) (n - (j + st) * b) - 1) k := by
  obtain ⟨hb, hj, hk1, hkb, hkn, hk2⟩ := ok
  have hjb : j * b ≤ (j + st) * b := Nat.mul_le_mul_right b hj
  generalize hi : (j + st) * b = ib at *
  unfold setupVWellFormed
  rw [if_pos (by simp only [getB, hv.1, hv.2]; omega)]
  refine ⟨_, rfl, hv.1, hv.2, fun r hr c hc => ?_⟩
  rw [Nat.zero_add, blkV_val (by omega), hi]
  simp only [hv.1, hv.2, getB]
  by_cases h1 : r < c
  · rw [if_neg (by omega), if_pos h1, if_pos (by omega)]
  by_cases h2 : r = c
  · rw [if_neg (by omega), if_neg h1, if_pos h2, if_neg (by omega), if_pos (by omega)]
  rw [if_neg (show ¬ ib + 1 + r < ib + 1 + c by omega), if_neg (show ¬ ib + 1 + r = ib + 1 + c by omega)]
  by_cases h3 : r < c + b
  · rw [if_neg (by omega), if_neg h1, if_neg h2, if_pos (by omega), if_pos (by omega)]
    congr 1
    omega
  · rw [if_neg (show ¬ ib + 1 + r < ib + 1 + c + min b (n - (ib + 1 + c)) by omega)]
    rw [if_pos]
    omega

/-- Rows of a group. -/
def grpRows (n b i jg jb : Nat) : Nat := min (jb + b - 1) (min (2 * b) (n - i * b) - 1 - jg)

theorem grp_support {n b j st k jg jb : Nat} (ok : BlkOK n b (j + st) j k) (hg : jg + jb ≤ k) (V : Nat → Nat → K) {x c : Nat}
    (hx : x < n) (hc : c < jb) (h : ¬ ((j + st) * b + 1 + jg ≤ x ∧ x < (j + st) * b + 1 + jg + grpRows n b (j + st) jg jb)) :
    blkV n b V j st x (jg + c) = 0 := by
  obtain ⟨hb, hj, hk1, hkb, hkn, hk2⟩ := ok
  rw [blkV_val (by omega)]
  unfold grpRows at h
  generalize (j + st) * b = ib at *
  by_cases h1 : x < ib + 1 + (jg + c)
  · rw [if_pos h1]
  · rw [if_neg h1, if_neg (by omega), if_neg (by omega)]

theorem grp_unit {n b j st k jg jb : Nat} (ok : BlkOK n b (j + st) j k) (hg : jg + jb ≤ k) (V : Nat → Nat → K) {r c : Nat} (hc : c < jb) :
    unitLow (fun r c => blkV n b V j st ((j + st) * b + 1 + jg + r) (jg + c)) r c =
      blkV n b V j st ((j + st) * b + 1 + jg + r) (jg + c) := by
  obtain ⟨hb, hj, hk1, hkb, hkn, hk2⟩ := ok
  unfold unitLow
  have h := blkV_val (n := n) (b := b) (j := j) (st := st) (c := jg + c) (by omega) V ((j + st) * b + 1 + jg + r)
  by_cases h1 : r < c
  · rw [if_pos h1, h, if_pos (by omega)]
  rw [if_neg h1]
  by_cases h2 : r = c
  · rw [if_pos h2, h, if_neg (by omega), if_pos (by omega)]
  · rw [if_neg h2]

end DLAF
