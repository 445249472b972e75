import Verif.Lemmas.BandRun
import Verif.Lemmas.BtRedBand
import Mathlib.Algebra.Group.Commute.Basic
/- Order of the reflectors in the back-transformation from tridiagonal to band form. -/
namespace DLAF
open scoped Classical

section order
variable {M : Type*} [Monoid M]

/-- `f 0 f 1 ... f (k - 1)`. -/
def ascP (k : Nat) (f : Nat → M) : M := ((List.range k).map f).prod

/-- `f (k - 1) ... f 1 f 0`. -/
def descP : Nat → (Nat → M) → M
  | 0, _ => 1
  | k + 1, f => f k * descP k f

theorem ascP_succ (k : Nat) (f : Nat → M) : ascP (k + 1) f = ascP k f * f k := by
  simp [ascP, List.range_succ]

theorem ascP_zero (f : Nat → M) : ascP 0 f = 1 := rfl

theorem ascP_congr {k : Nat} {f g : Nat → M} (h : ∀ i < k, f i = g i) : ascP k f = ascP k g := by
  unfold ascP
  rw [List.map_congr_left fun i hi => h i (List.mem_range.1 hi)]

theorem descP_congr {k : Nat} {f g : Nat → M} (h : ∀ i < k, f i = g i) : descP k f = descP k g := by
  induction k with
  | zero => rfl
  | succ k ih => rw [descP, descP, h k (by omega), ih fun i hi => h i (by omega)]

theorem ascP_one {k l : Nat} {f : Nat → M} (h : k ≤ l) (h1 : ∀ i, k ≤ i → i < l → f i = 1) : ascP l f = ascP k f := by
  induction l with
  | zero => rw [Nat.le_zero.1 h]
  | succ l ih =>
    by_cases hk : k = l + 1
    · rw [hk]
    · rw [ascP_succ, h1 l (by omega) (by omega), mul_one, ih (by omega) fun i h2 h3 => h1 i h2 (by omega)]

theorem ascP_mul (b : Nat) (f : Nat → M) (k : Nat) : ascP k (fun j => ascP b fun c => f (j * b + c)) = ascP (k * b) f := by
  induction k with
  | zero => rw [Nat.zero_mul]; rfl
  | succ k ih =>
    rw [ascP_succ, ih, Nat.add_mul, Nat.one_mul]
    have : ∀ c, ascP (k * b) f * ascP c (fun c => f (k * b + c)) = ascP (k * b + c) f := by
      intro c
      induction c with
      | zero => rw [ascP_zero, mul_one, Nat.add_zero]
      | succ c ih => rw [ascP_succ, ← mul_assoc, ih, Nat.add_succ, ascP_succ]
    exact this b

theorem descP_ones (k : Nat) : descP k (fun _ => (1 : M)) = 1 := by
  induction k with
  | zero => rfl
  | succ k ih => rw [descP, ih, one_mul]

theorem descP_comm {k : Nat} {f : Nat → M} {x : M} (h : ∀ i < k, Commute x (f i)) : Commute x (descP k f) := by
  induction k with
  | zero => exact Commute.one_right x
  | succ k ih => exact (h k (by omega)).mul_right (ih fun i hi => h i (by omega))

theorem ascP_comm {k : Nat} {f : Nat → M} {x : M} (h : ∀ i < k, Commute x (f i)) : Commute x (ascP k f) := by
  induction k with
  | zero => exact Commute.one_right x
  | succ k ih => rw [ascP_succ]; exact (ih fun i hi => h i (by omega)).mul_right (h k (by omega))

theorem swap_prod {S : Nat} {B H : Nat → M} (hB : ∀ st < S, ∀ st' < st, Commute (H st) (B st'))
    (hH : ∀ st < S, ∀ st' < st, Commute (H st) (H st')) : descP S (fun st => B st * H st) = descP S B * ascP S H := by
  induction S with
  | zero => exact (one_mul 1).symm
  | succ S ih =>
    have h1 : Commute (H S) (descP S B) := descP_comm fun i hi => hB S (by omega) i hi
    have h2 : Commute (H S) (ascP S H) := ascP_comm fun i hi => hH S (by omega) i hi
    rw [descP, descP, ascP_succ, ih (fun st h => hB st (by omega)) fun st h => hH st (by omega), mul_assoc, mul_assoc, ← mul_assoc (H S),
      h1.eq, mul_assoc, h2.eq]

/-- The products over columns, then steps, in the order of the steps from the last, then columns. -/
theorem block_reorder {S k : Nat} {h : Nat → Nat → M}
    (hc : ∀ c < k, ∀ c' ≤ c, ∀ st < S, ∀ st' < st, Commute (h c st) (h c' st')) :
    ascP k (fun c => ascP S fun st => h c st) = descP S fun st => ascP k fun c => h c st := by
  induction k with
  | zero => exact (descP_ones S).symm
  | succ k ih =>
    rw [ascP_succ, ih fun c hk => hc c (by omega)]
    have : (fun st => ascP (k + 1) fun c => h c st) = fun st => ascP k (fun c => h c st) * h k st := by
      funext st; exact ascP_succ k _
    rw [this, swap_prod]
    · intro st hs st' hs'
      exact ascP_comm fun c hk => hc k (by omega) c (by omega) st hs st' hs'
    · intro st hs st' hs'
      exact hc k (by omega) k (Nat.le_refl _) st hs st' hs'

end order

section refl
variable {K : Type*} [Field K] [StarRing K]

theorem reflector_commute {n : Nat} {u v : Nat → K} {s t : K} (h : ∀ x < n, u x = 0 ∨ v x = 0) :
    Commute (reflector n u s) (reflector n v t) := by
  have h1 : ∀ (p q : Nat → K), (∀ x < n, p x = 0 ∨ q x = 0) →
      Matrix.vecMulVec (fun x : Fin n => p x) (fun x : Fin n => star (p x)) *
        Matrix.vecMulVec (fun x : Fin n => q x) (fun x : Fin n => star (q x)) = 0 := by
    intro p q hpq
    ext x y
    rw [Matrix.mul_apply, Matrix.zero_apply]
    refine Finset.sum_eq_zero fun z _ => ?_
    rw [Matrix.vecMulVec_apply, Matrix.vecMulVec_apply]
    rcases hpq z z.2 with h | h <;> simp [h]
  unfold reflector
  refine (Commute.one_left _).sub_left ((Commute.one_right _).sub_right ?_)
  show _ * _ = _ * _
  rw [Matrix.smul_mul, Matrix.mul_smul, Matrix.smul_mul, Matrix.mul_smul, h1 u v h, h1 v u fun x hx => (h x hx).symm]
  simp

/-- One reflector from the left, by elements. -/
def reflF (n : Nat) (v : Nat → K) (tau : K) (C : Nat → Nat → K) : Nat → Nat → K := fun x y =>
  C x y - tau * v x * ∑ z ∈ Finset.range n, star (v z) * C z y

theorem reflector_mul {n m : Nat} (v : Nat → K) (tau : K) (C : Nat → Nat → K) :
    reflector n v tau * toM n m C = toM n m (reflF n v tau C) := by
  ext x y
  unfold reflector
  rw [Matrix.sub_mul, Matrix.one_mul, Matrix.sub_apply, Matrix.smul_mul, Matrix.smul_apply, Matrix.mul_apply]
  simp only [toM, reflF, Matrix.vecMulVec_apply, smul_eq_mul]
  rw [Finset.sum_range]
  simp only [mul_assoc, Finset.mul_sum]

/-- Reflectors in a window of the rows. -/
theorem win_prod {n n' a m : Nat} (hn : a + n' ≤ n) {V W : Nat → Nat → K} (tau : Nat → K) : ∀ (k : Nat),
    (∀ c < k, ∀ x < n, ¬ (a ≤ x ∧ x < a + n') → V x c = 0) → (∀ c < k, ∀ r < n', V (a + r) c = W r c) →
    ∀ (C D : Nat → Nat → K), toM n' m (fun r y => D (a + r) y) = reflectorProd n' W tau k * toM n' m (fun r y => C (a + r) y) →
      (∀ x < n, ∀ y < m, ¬ (a ≤ x ∧ x < a + n') → D x y = C x y) → toM n m D = reflectorProd n V tau k * toM n m C := by
  intro k
  induction k with
  | zero =>
    intro _ _ C D h1 h2
    simp only [reflectorProd, List.range_zero, List.map_nil, List.prod_nil, Matrix.one_mul] at h1 ⊢
    ext x y
    by_cases hx : a ≤ (x : Nat) ∧ (x : Nat) < a + n'
    · have := congrFun (congrFun h1 ⟨x - a, by omega⟩) y
      simp only [toM] at this ⊢
      rwa [show a + ((x : Nat) - a) = x by omega] at this
    · exact h2 x x.2 y y.2 hx
  | succ k ih =>
    intro hV hW C D h1 h2
    rw [reflectorProd_succ, Matrix.mul_assoc, reflector_mul] at h1 ⊢
    have hsum : ∀ y, ∑ z ∈ Finset.range n, star (V z k) * C z y = ∑ r ∈ Finset.range n', star (W r k) * C (a + r) y := by
      intro y
      rw [Finset.range_eq_Ico, ← Finset.sum_Ico_consecutive _ (Nat.zero_le a) (show a ≤ n by omega),
        ← Finset.sum_Ico_consecutive _ (show a ≤ a + n' by omega) hn,
        Finset.sum_eq_zero (s := Finset.Ico 0 a), Finset.sum_eq_zero (s := Finset.Ico (a + n') n), zero_add, add_zero,
        Finset.sum_Ico_eq_sum_range, Nat.add_sub_cancel_left]
      · refine Finset.sum_congr rfl fun r hr => ?_
        rw [hW k (by omega) r (Finset.mem_range.1 hr)]
      · intro z hz
        rw [Finset.mem_Ico] at hz
        rw [hV k (by omega) z (by omega) (by omega), star_zero, zero_mul]
      · intro z hz
        rw [Finset.mem_Ico] at hz
        rw [hV k (by omega) z (by omega) (by omega), star_zero, zero_mul]
    refine ih (fun c hc => hV c (by omega)) (fun c hc => hW c (by omega)) _ _ ?_ ?_
    · rw [h1]
      congr 1
      ext r y
      simp only [toM, reflF]
      rw [hsum, hW k (by omega) r r.2]
    · intro x hx y hy hxa
      rw [h2 x hx y hy hxa]
      unfold reflF
      beta_reduce
      rw [hV k (by omega) x hx hxa, mul_zero, zero_mul, sub_zero]

end refl
end DLAF
