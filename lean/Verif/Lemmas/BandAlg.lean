import Verif.Lemmas.RedBandCol
import Verif.Spec.BandTridiag
/- Similarity transformations with a reflector, element by element. -/
namespace DLAF
open scoped Classical
variable {K : Type*} [RCLike K]

/-- `G H` with `H = I - tau u uᴴ`. -/
def rightF (n : Nat) (u : Nat → K) (tau : K) (G : Nat → Nat → K) : Nat → Nat → K := fun x y =>
  G x y - tau * (∑ z ∈ Finset.range n, G x z * u z) * star (u y)

/-- `Hᴴ G`. -/
def leftF (n : Nat) (u : Nat → K) (tau : K) (G : Nat → Nat → K) : Nat → Nat → K := fun x y =>
  G x y - star tau * u x * ∑ z ∈ Finset.range n, star (u z) * G z y

/-- `Hᴴ G H`. -/
def congF (n : Nat) (u : Nat → K) (tau : K) (G : Nat → Nat → K) : Nat → Nat → K := leftF n u tau (rightF n u tau G)

theorem toM_rightF {n : Nat} (u : Nat → K) (tau : K) (G : Nat → Nat → K) :
    toM n n (rightF n u tau G) = toM n n G * reflector n u tau := by
  ext x y
  unfold reflector
  rw [Matrix.mul_sub, Matrix.mul_one, Matrix.sub_apply, Matrix.mul_smul, Matrix.smul_apply, Matrix.mul_apply, smul_eq_mul]
  simp only [Matrix.vecMulVec_apply, toM, rightF]
  rw [← Fin.sum_univ_eq_sum_range (fun z => G x z * u z), mul_assoc, Finset.sum_mul]
  congr 2
  exact Finset.sum_congr rfl fun z _ => by ring

theorem toM_leftF {n : Nat} (u : Nat → K) (tau : K) (G : Nat → Nat → K) :
    toM n n (leftF n u tau G) = (reflector n u tau).conjTranspose * toM n n G := by
  ext x y
  rw [reflector_conj_mul]
  rfl

theorem toM_congF {n : Nat} (u : Nat → K) (tau : K) (G : Nat → Nat → K) :
    toM n n (congF n u tau G) = (reflector n u tau).conjTranspose * toM n n G * reflector n u tau := by
  unfold congF
  rw [toM_leftF, toM_rightF, Matrix.mul_assoc]

theorem rightF_zero {n : Nat} {u : Nat → K} {tau : K} {G : Nat → Nat → K} {x y : Nat} (h : u y = 0) : rightF n u tau G x y = G x y := by
  unfold rightF
  rw [h, star_zero, mul_zero, sub_zero]

theorem leftF_zero {n : Nat} {u : Nat → K} {tau : K} {G : Nat → Nat → K} {x y : Nat} (h : u x = 0) : leftF n u tau G x y = G x y := by
  unfold leftF
  rw [h, mul_zero, zero_mul, sub_zero]

theorem rightF_row {n : Nat} {u : Nat → K} {tau : K} {G : Nat → Nat → K} {x y : Nat} (h : ∀ z < n, u z = 0 ∨ G x z = 0) :
    rightF n u tau G x y = G x y := by
  unfold rightF
  rw [Finset.sum_eq_zero, mul_zero, zero_mul, sub_zero]
  intro z hz
  rcases h z (Finset.mem_range.1 hz) with h | h
  · rw [h, mul_zero]
  · rw [h, zero_mul]

theorem leftF_col {n : Nat} {u : Nat → K} {tau : K} {G : Nat → Nat → K} {x y : Nat} (h : ∀ z < n, u z = 0 ∨ G z y = 0) :
    leftF n u tau G x y = G x y := by
  unfold leftF
  rw [Finset.sum_eq_zero, mul_zero, sub_zero]
  intro z hz
  rcases h z (Finset.mem_range.1 hz) with h | h
  · rw [h, star_zero, zero_mul]
  · rw [h, mul_zero]

theorem leftF_congr {n : Nat} {u : Nat → K} {tau : K} {G G' : Nat → Nat → K} {x y : Nat} (h0 : G x y = G' x y)
    (h : ∀ z < n, u z = 0 ∨ G z y = G' z y) : leftF n u tau G x y = leftF n u tau G' x y := by
  unfold leftF
  rw [h0]
  congr 2
  refine Finset.sum_congr rfl fun z hz => ?_
  rcases h z (Finset.mem_range.1 hz) with h | h
  · rw [h, star_zero, zero_mul, zero_mul]
  · rw [h]

/-- Outside of the columns of `u` only the rows change. -/
theorem congF_col {n : Nat} {u : Nat → K} {tau : K} {G : Nat → Nat → K} {x y : Nat} (h : u y = 0) :
    congF n u tau G x y = leftF n u tau G x y :=
  leftF_congr (rightF_zero h) fun _ _ => Or.inr (rightF_zero h)

/-- Outside of the rows of `u` only the columns change. -/
theorem congF_row {n : Nat} {u : Nat → K} {tau : K} {G : Nat → Nat → K} {x y : Nat} (h : u x = 0) :
    congF n u tau G x y = rightF n u tau G x y := leftF_zero h

/-- Hermitian, rows and columns below `n`. -/
def HermF (n : Nat) (G : Nat → Nat → K) : Prop := ∀ x < n, ∀ y < n, star (G x y) = G y x

theorem HermF.congF {n : Nat} {u : Nat → K} {tau : K} {G : Nat → Nat → K} (hG : HermF n G) : HermF n (congF n u tau G) := by
  have h : (toM n n (DLAF.congF n u tau G)).conjTranspose = toM n n (DLAF.congF n u tau G) := by
    rw [toM_congF, Matrix.conjTranspose_mul, Matrix.conjTranspose_mul, Matrix.conjTranspose_conjTranspose, Matrix.mul_assoc]
    congr 2
    ext x y
    exact hG y y.2 x x.2
  intro x hx y hy
  exact congrFun (congrFun h ⟨y, hy⟩) ⟨x, hx⟩

/-- The rank two form of the transformation of a Hermitian matrix (`apply_HH_left_right_herm`). -/
theorem congF_herm {n : Nat} {u : Nat → K} {tau : K} {G : Nat → Nat → K} (hG : HermF n G) {x y : Nat} (hy : y < n) :
    congF n u tau G x y = G x y -
      (-(∑ r ∈ Finset.range n, star (tau * ∑ z ∈ Finset.range n, G r z * u z) * u r) * tau / 2 * u x +
        tau * ∑ z ∈ Finset.range n, G x z * u z) * star (u y) -
      u x * star (-(∑ r ∈ Finset.range n, star (tau * ∑ z ∈ Finset.range n, G r z * u z) * u r) * tau / 2 * u y +
        tau * ∑ z ∈ Finset.range n, G y z * u z) := by
  unfold congF leftF rightF
  have e1 : ∑ z ∈ Finset.range n, star (u z) * (G z y - tau * (∑ z_1 ∈ Finset.range n, G z z_1 * u z_1) * star (u y)) =
      star (∑ z ∈ Finset.range n, G y z * u z) -
        tau * star (u y) * ∑ r ∈ Finset.range n, star (u r) * ∑ z ∈ Finset.range n, G r z * u z := by
    rw [star_sum, Finset.mul_sum, ← Finset.sum_sub_distrib]
    refine Finset.sum_congr rfl fun z hz => ?_
    rw [star_mul, hG y hy z (Finset.mem_range.1 hz)]
    ring
  have e2 : ∑ r ∈ Finset.range n, star (tau * ∑ z ∈ Finset.range n, G r z * u z) * u r =
      star tau * ∑ r ∈ Finset.range n, star (u r) * ∑ z ∈ Finset.range n, G r z * u z := by
    have e3 : ∀ r, star (tau * ∑ z ∈ Finset.range n, G r z * u z) * u r =
        star tau * ∑ z ∈ Finset.range n, star (u z) * star (G r z) * u r := by
      intro r
      rw [star_mul, star_sum, mul_comm _ (star tau), mul_assoc, Finset.sum_mul]
      congr 1
      exact Finset.sum_congr rfl fun z _ => by rw [star_mul]
    rw [Finset.sum_congr rfl fun r _ => e3 r, ← Finset.mul_sum, Finset.sum_comm]
    congr 1
    refine Finset.sum_congr rfl fun z hz => ?_
    rw [Finset.mul_sum]
    refine Finset.sum_congr rfl fun r hr => ?_
    rw [hG r (Finset.mem_range.1 hr) z (Finset.mem_range.1 hz)]
    ring
  have e4 : star (∑ r ∈ Finset.range n, star (u r) * ∑ z ∈ Finset.range n, G r z * u z) =
      ∑ r ∈ Finset.range n, star (u r) * ∑ z ∈ Finset.range n, G r z * u z := by
    rw [star_sum]
    have e5 : ∀ r, star (star (u r) * ∑ z ∈ Finset.range n, G r z * u z) = ∑ z ∈ Finset.range n, star (u z) * (star (G r z) * u r) := by
      intro r
      rw [star_mul, star_star, star_sum, Finset.sum_mul]
      exact Finset.sum_congr rfl fun z _ => by rw [star_mul]; ring
    rw [Finset.sum_congr rfl fun r _ => e5 r, Finset.sum_comm]
    refine Finset.sum_congr rfl fun z hz => ?_
    rw [Finset.mul_sum]
    refine Finset.sum_congr rfl fun r hr => ?_
    rw [hG r (Finset.mem_range.1 hr) z (Finset.mem_range.1 hz)]
  rw [e1, e2]
  generalize (∑ r ∈ Finset.range n, star (u r) * ∑ z ∈ Finset.range n, G r z * u z) = q at e4 ⊢
  have s2 : star (2 : K) = 2 := star_ofNat 2
  rw [star_add, star_mul, star_div₀, star_mul, star_neg, star_mul, star_mul, star_star, e4, s2]
  ring

/-- A vector with elements `v 0, ..., v (m - 1)` in the rows from `j` on. -/
def emb (j m : Nat) (v : Nat → K) : Nat → K := fun z => if j ≤ z ∧ z < j + m then v (z - j) else 0

theorem emb_in {j m c : Nat} (v : Nat → K) (h : c < m) : emb j m v (j + c) = v c := by
  unfold emb
  rw [if_pos (by omega), show j + c - j = c by omega]

theorem emb_out {j m z : Nat} (v : Nat → K) (h : ¬ (j ≤ z ∧ z < j + m)) : emb j m v z = 0 := if_neg h

theorem sum_emb {n j m : Nat} (h : j + m ≤ n) (v f : Nat → K) (t : K → K) (ht : t 0 = 0) :
    ∑ z ∈ Finset.range n, f z * t (emb j m v z) = ∑ c ∈ Finset.range m, f (j + c) * t (v c) := by
  rw [Finset.range_eq_Ico, ← Finset.sum_Ico_consecutive _ (Nat.zero_le j) (show j ≤ n by omega),
    ← Finset.sum_Ico_consecutive _ (show j ≤ j + m by omega) h]
  rw [Finset.sum_eq_zero (s := Finset.Ico 0 j), Finset.sum_eq_zero (s := Finset.Ico (j + m) n), zero_add, add_zero]
  · rw [Finset.sum_Ico_eq_sum_range, show j + m - j = m by omega]
    refine Finset.sum_congr rfl fun c hc => ?_
    rw [emb_in v (Finset.mem_range.1 hc)]
  · intro z hz
    have := Finset.mem_Ico.1 hz
    rw [emb_out v (by omega), ht, mul_zero]
  · intro z hz
    have := Finset.mem_Ico.1 hz
    rw [emb_out v (by omega), ht, mul_zero]

theorem sum_emb_r {n j m : Nat} (h : j + m ≤ n) (v f : Nat → K) :
    ∑ z ∈ Finset.range n, f z * emb j m v z = ∑ c ∈ Finset.range m, f (j + c) * v c := sum_emb h v f (fun a => a) rfl

theorem sum_emb_star {n j m : Nat} (h : j + m ≤ n) (v f : Nat → K) :
    ∑ z ∈ Finset.range n, star (emb j m v z) * f z = ∑ c ∈ Finset.range m, star (v c) * f (j + c) := by
  have := sum_emb h v f star (star_zero _)
  rw [Finset.sum_congr rfl fun z _ => mul_comm _ _, this]
  exact Finset.sum_congr rfl fun z _ => mul_comm _ _

/-- What `larfg` guarantees, element by element. -/
theorem larfg_elem {larfg : (n : Nat) → (Fin n → K) → K × K × (Nat → K)} (h : LarfgSpec larfg) {m : Nat} (hm : 0 < m) (x : Fin m → K)
    {v : Nat → K} (hv : ∀ i < m, v i = if i = 0 then 1 else (larfg m x).2.2 i) :
    star (larfg m x).1 = (larfg m x).1 ∧
    (larfg m x).2.1 * star (larfg m x).2.1 * (∑ z ∈ Finset.range m, star (v z) * v z) = (larfg m x).2.1 + star (larfg m x).2.1 ∧
    ∀ (f : Nat → K), (∀ i : Fin m, f i = x i) → ∀ i < m,
      f i - star (larfg m x).2.1 * v i * (∑ z ∈ Finset.range m, star (v z) * f z) = if i = 0 then (larfg m x).1 else 0 := by
  obtain ⟨h1, h2, h3⟩ := h m x hm
  have hr : reflector m (fun i => if i = 0 then 1 else (larfg m x).2.2 i) (larfg m x).2.1 = reflector m v (larfg m x).2.1 := by
    unfold reflector
    congr 2
    ext a c
    rw [Matrix.vecMulVec_apply, Matrix.vecMulVec_apply, hv a a.2, hv c c.2]
  rw [hr] at h2 h3
  generalize (larfg m x).2.1 = tau at h2 h3 ⊢
  generalize (larfg m x).1 = beta at h1 h3 ⊢
  refine ⟨h1, ?_, fun f hf i hi => ?_⟩
  · have hv0 : v 0 = 1 := by rw [hv 0 hm, if_pos rfl]
    have e : reflector m v tau = toM m m (fun x y => (if x = y then 1 else 0) - tau * (v x * star (v y))) := by
      ext x y
      unfold reflector
      simp only [Matrix.sub_apply, Matrix.smul_apply, Matrix.vecMulVec_apply, toM, smul_eq_mul, Matrix.one_apply, Fin.ext_iff]
    have h4 := reflector_conj_mul v tau (fun x y => (if x = y then 1 else 0) - tau * (v x * star (v y))) (⟨0, hm⟩ : Fin m) ⟨0, hm⟩
    rw [← e, h2, Matrix.one_apply, if_pos rfl] at h4
    have h5 : ∑ z ∈ Finset.range m, star (v z) * ((if z = 0 then 1 else 0) - tau * (v z * star (v 0))) =
        1 - tau * ∑ z ∈ Finset.range m, star (v z) * v z := by
      have : ∀ z, star (v z) * ((if z = 0 then 1 else 0) - tau * (v z * star (v 0))) =
          (if z = 0 then star (v z) else 0) - tau * (star (v z) * v z) := by
        intro z
        rw [hv0, star_one]
        split_ifs <;> ring
      rw [Finset.sum_congr rfl fun z _ => this z, Finset.sum_sub_distrib, ← Finset.mul_sum, Finset.sum_ite_eq',
        if_pos (Finset.mem_range.2 hm), hv0, star_one]
    dsimp only at h4
    rw [h5, if_pos rfl, hv0, star_one] at h4
    linear_combination -h4
  · have h4 := congrFun h3 ⟨i, hi⟩
    have h5 := reflector_conj_mul v tau (fun z _ => f z) (⟨i, hi⟩ : Fin m) (⟨0, by omega⟩ : Fin 1)
    rw [← h5, Matrix.mul_apply]
    refine Eq.trans ?_ h4
    unfold Matrix.mulVec
    show _ = ∑ j, _
    exact Finset.sum_congr rfl fun z _ => by rw [← hf z]; rfl

/-- The embedded reflector is unitary as well. -/
theorem emb_unitary {n j m : Nat} (h : j + m ≤ n) {v : Nat → K} {tau : K}
    (hu : tau * star tau * (∑ z ∈ Finset.range m, star (v z) * v z) = tau + star tau) :
    (reflector n (emb j m v) tau).conjTranspose * reflector n (emb j m v) tau = 1 := by
  refine reflector_unitary ?_
  rw [sum_emb_star h]
  rw [Finset.sum_congr rfl fun c hc => by rw [emb_in v (Finset.mem_range.1 hc)]]
  exact hu

end DLAF
