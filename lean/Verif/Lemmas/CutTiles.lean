import Verif.Model.GenEigensolver
import Verif.Spec.Kernels
import Verif.Lemmas.Tasks
import Verif.Lemmas.TFactor
/- Cutting a matrix into tiles and putting them together. -/
namespace DLAF
open scoped Classical
variable {K : Type*} [RCLike K]

/-- Size of tile `i`. -/
def cutSize (nb n : Nat) : Nat → Nat := fun i => min nb (n - i * nb)

theorem tileStart_cut (nb n : Nat) : ∀ i, tileStart (cutSize nb n) i = min (i * nb) n := by
  intro i
  induction i with
  | zero => simp [tileStart]
  | succ i ih =>
    rw [tileStart_succ, ih, Nat.add_mul, Nat.one_mul]
    unfold cutSize
    omega

theorem tileStart_cut_all {nb : Nat} (n : Nat) (h : 0 < nb) : tileStart (cutSize nb n) (ceilDivN n nb) = n := by
  rw [tileStart_cut]
  have := le_ceilDivN_mul n h
  omega

theorem cut_shaped (nb n m nt mt : Nat) (A : Elems K) : Shaped (cutTiles nb n m A) (cutSize nb n) (cutSize nb m) nt mt :=
  fun _ _ _ _ => ⟨rfl, rfl⟩

theorem cut_holds {nb n m nt mt : Nat} (A : Elems K) (sel : Nat → Nat → Prop) :
    HoldsOn (cutTiles nb n m A) (cutSize nb n) (cutSize nb m) nt mt A sel := by
  intro i _ j _ r hr c hc _
  rw [tileStart_cut, tileStart_cut]
  unfold cutSize at hr hc
  show A (i * nb + r) (j * nb + c) = _
  rw [show min (i * nb) n = i * nb by omega, show min (j * nb) m = j * nb by omega]

theorem glue_holds {nb n m : Nat} (h : 0 < nb) {t : Tiles K} {A X : Elems K} {sel : Nat → Nat → Prop}
    (ht : HoldsOn t (cutSize nb n) (cutSize nb m) (ceilDivN n nb) (ceilDivN m nb) X sel) {x y : Nat} (hx : x < n) (hy : y < m)
    (hs : sel x y) : glueTiles nb n m A t x y = X x y := by
  unfold glueTiles
  rw [if_pos ⟨hx, hy⟩]
  have dx := Nat.div_add_mod x nb
  have dy := Nat.div_add_mod y nb
  have mx := Nat.mod_lt x h
  have my := Nat.mod_lt y h
  rw [Nat.mul_comm] at dx dy
  have hq : ∀ {z k : Nat}, z < k → z / nb < ceilDivN k nb := by
    intro z k hz
    rw [Nat.div_lt_iff_lt_mul h]
    have := le_ceilDivN_mul k h
    omega
  have e : ∀ {z k : Nat}, z < k → z / nb * nb + z % nb = z → tileStart (cutSize nb k) (z / nb) + z % nb = z := by
    intro z k hz hd
    rw [tileStart_cut]
    omega
  have := ht (x / nb) (hq hx) (y / nb) (hq hy) (x % nb) (by unfold cutSize; omega) (y % nb) (by unfold cutSize; omega)
  rw [e hx dx, e hy dy] at this
  exact this hs

theorem glue_out {nb n m : Nat} {t : Tiles K} {A : Elems K} {x y : Nat} (h : ¬ (x < n ∧ y < m)) : glueTiles nb n m A t x y = A x y := by
  unfold glueTiles
  rw [if_neg h]

end DLAF
