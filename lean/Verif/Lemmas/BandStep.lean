import Verif.Lemmas.BandProg
import Verif.Lemmas.BandAlg
/- The kernels of the reduction to tridiagonal form on the elements of the band. -/
namespace DLAF
open scoped Classical
variable {K : Type*} [RCLike K] {E : BtEnv K}

/-- Element `(x, y)` of the compact band. -/
def lo (b : Nat) (mem : Nat → K) (x y : Nat) : K := mem (y * (2 * b) + (x - y))

theorem addr_inj {B y y' o o' : Nat} (h : o < B) (h' : o' < B) (e : y * B + o = y' * B + o') : y = y' ∧ o = o' := by
  have h1 := col_addr (x := y) h
  have h2 := col_addr (x := y') h'
  have h3 := off_addr (x := y) h
  have h4 := off_addr (x := y') h'
  rw [e] at h1 h3
  exact ⟨h1.symm.trans h2, h3.symm.trans h4⟩

theorem lo_ptr (hb : 2 ≤ E.b) {o j r c : Nat} (mem : Nat → K) (h : c ≤ o + r) :
    mem (E.ptr o j + r + c * E.ld) = lo E.b mem (j + o + r) (j + c) := by
  rw [addr_eq hb h]
  unfold lo
  congr 2
  omega

/-- A change of a window. -/
theorem putW_lo (hb : 2 ≤ E.b) {mem : Nat → K} {o j m n : Nat} {sel : Nat → Nat → Prop} {g : Nat → Nat → K} (hm : m ≤ E.ld)
    (hw : ∀ r c, r < m → c < n → sel r c → c ≤ o + r ∧ o + r - c < 2 * E.b) {x y : Nat} (hyx : y ≤ x) (hx : x < y + 2 * E.b) :
    lo E.b (putW mem (E.ptr o j) E.ld m n sel g) x y =
      if (j + o ≤ x ∧ x < j + o + m) ∧ (j ≤ y ∧ y < j + n) ∧ sel (x - j - o) (y - j) then g (x - j - o) (y - j) else lo E.b mem x y := by
  by_cases h : (j + o ≤ x ∧ x < j + o + m) ∧ (j ≤ y ∧ y < j + n) ∧ sel (x - j - o) (y - j)
  · rw [if_pos h]
    obtain ⟨h1, h2, h3⟩ := h
    have h4 := putW_in (mem := mem) (p := E.ptr o j) (n := n) (g := g) (r := x - j - o) (c := y - j) hm (by omega) (by omega) h3
    rw [addr_eq hb (by omega)] at h4
    rw [← h4]
    unfold lo
    rw [show j + (y - j) = y by omega, show o + (x - j - o) - (y - j) = x - y by omega]
  · rw [if_neg h]
    unfold lo
    refine putW_out fun r c hr hc hs e => h ?_
    obtain ⟨h1, h2⟩ := hw r c hr hc hs
    rw [addr_eq hb h1] at e
    obtain ⟨e1, e2⟩ := addr_inj (by omega) h2 e
    refine ⟨by omega, by omega, ?_⟩
    rw [show x - j - o = r by omega, show y - j = c by omega]
    exact hs

theorem applyHerm_lo (hb : 2 ≤ E.b) {n j : Nat} (hn : n ≤ E.b) (tau : K) (v : Nat → K) (mem : Nat → K) {x y : Nat} (hyx : y ≤ x)
    (hx : x < y + 2 * E.b) :
    lo E.b (applyHerm n tau v (E.ptr 0 j) E.ld mem) x y =
      if j ≤ y ∧ x < j + n then
        lo E.b mem x y -
          (-(∑ r ∈ Finset.range n, star (tau * ∑ c ∈ Finset.range n, lowE (lo E.b mem) (j + r) (j + c) * v c) * v r) * tau / 2 * v (x - j) +
            tau * ∑ c ∈ Finset.range n, lowE (lo E.b mem) x (j + c) * v c) * star (v (y - j)) -
          v (x - j) *
            star (-(∑ r ∈ Finset.range n, star (tau * ∑ c ∈ Finset.range n, lowE (lo E.b mem) (j + r) (j + c) * v c) * v r) * tau / 2 *
              v (y - j) + tau * ∑ c ∈ Finset.range n, lowE (lo E.b mem) y (j + c) * v c)
      else lo E.b mem x y := by
  have hld := ld_succ (E := E) hb
  have hw0 : ∀ r, r < n → (∑ c ∈ Finset.range n, (if c ≤ r then mem (E.ptr 0 j + r + c * E.ld) else
      star (mem (E.ptr 0 j + c + r * E.ld))) * v c) = ∑ c ∈ Finset.range n, lowE (lo E.b mem) (j + r) (j + c) * v c := by
    intro r hr
    refine Finset.sum_congr rfl fun c hc => ?_
    unfold lowE
    by_cases h : c ≤ r
    · rw [if_pos h, if_pos (by omega), lo_ptr hb mem (by omega), Nat.add_zero]
    · rw [if_neg h, if_neg (by omega), lo_ptr hb mem (by omega), Nat.add_zero]
  unfold applyHerm
  dsimp only
  rw [putW_lo hb (by omega) (fun r c hr hc hs => by have : c ≤ r := hs; omega) hyx hx]
  by_cases h : j ≤ y ∧ x < j + n
  · rw [if_pos h, if_pos ⟨by omega, by omega, show y - j ≤ x - j - 0 by omega⟩]
    have hs : (∑ r ∈ Finset.range n, star (tau * ∑ c ∈ Finset.range n, (if c ≤ r then mem (E.ptr 0 j + r + c * E.ld) else
      star (mem (E.ptr 0 j + c + r * E.ld))) * v c) * v r) =
      ∑ r ∈ Finset.range n, star (tau * ∑ c ∈ Finset.range n, lowE (lo E.b mem) (j + r) (j + c) * v c) * v r :=
      Finset.sum_congr rfl fun r hr => by rw [hw0 r (Finset.mem_range.1 hr)]
    rw [Nat.sub_zero, hs, hw0 (x - j) (by omega), hw0 (y - j) (by omega), lo_ptr hb mem (by omega),
      show j + (x - j) = x by omega, show j + 0 + (x - j) = x by omega, show j + (y - j) = y by omega]
  · rw [if_neg h, if_neg fun h' => h ⟨by omega, by omega⟩]

theorem applyRight_lo (hb : 2 ≤ E.b) {m n o j : Nat} (hm : m ≤ E.b) (hn : n ≤ o + 1) (ho : o + m ≤ 2 * E.b) (tau : K) (v : Nat → K)
    (mem : Nat → K) {x y : Nat} (hyx : y ≤ x) (hx : x < y + 2 * E.b) :
    lo E.b (applyRight m n tau v (E.ptr o j) E.ld mem) x y =
      if (j + o ≤ x ∧ x < j + o + m) ∧ j ≤ y ∧ y < j + n then
        lo E.b mem x y - tau * (∑ c ∈ Finset.range n, lo E.b mem x (j + c) * v c) * star (v (y - j))
      else lo E.b mem x y := by
  have hld := ld_succ (E := E) hb
  unfold applyRight
  dsimp only
  rw [putW_lo hb (by omega) (fun r c hr hc hs => by omega) hyx hx]
  by_cases h : (j + o ≤ x ∧ x < j + o + m) ∧ j ≤ y ∧ y < j + n
  · rw [if_pos h, if_pos ⟨h.1, h.2, trivial⟩, lo_ptr hb mem (by omega), show j + o + (x - j - o) = x by omega,
      show j + (y - j) = y by omega]
    congr 3
    refine Finset.sum_congr rfl fun c hc => ?_
    have := Finset.mem_range.1 hc
    rw [lo_ptr hb mem (by omega), show j + o + (x - j - o) = x by omega]
  · rw [if_neg h, if_neg fun h' => h ⟨h'.1, h'.2.1⟩]

theorem applyLeft_lo (hb : 2 ≤ E.b) {m n o j : Nat} (hm : m ≤ E.b) (hn : n ≤ o + 1) (ho : o + m ≤ 2 * E.b) (tau : K) (v : Nat → K)
    (mem : Nat → K) {x y : Nat} (hyx : y ≤ x) (hx : x < y + 2 * E.b) :
    lo E.b (applyLeft m n tau v (E.ptr o j) E.ld mem) x y =
      if (j + o ≤ x ∧ x < j + o + m) ∧ j ≤ y ∧ y < j + n then
        lo E.b mem x y - star tau * v (x - j - o) * ∑ c ∈ Finset.range m, star (v c) * lo E.b mem (j + o + c) y
      else lo E.b mem x y := by
  have hld := ld_succ (E := E) hb
  unfold applyLeft
  dsimp only
  rw [putW_lo hb (by omega) (fun r c hr hc hs => by omega) hyx hx]
  by_cases h : (j + o ≤ x ∧ x < j + o + m) ∧ j ≤ y ∧ y < j + n
  · rw [if_pos h, if_pos ⟨h.1, h.2, trivial⟩, lo_ptr hb mem (by omega), show j + o + (x - j - o) = x by omega,
      show j + (y - j) = y by omega, star_sum]
    congr 2
    refine Finset.sum_congr rfl fun c hc => ?_
    have := Finset.mem_range.1 hc
    rw [lo_ptr hb mem (by omega), show j + (y - j) = y by omega, star_mul, star_star]
  · rw [if_neg h, if_neg fun h' => h ⟨h'.1, h'.2.1⟩]

theorem hhReflector_lo (hb : 2 ≤ E.b) {m o j : Nat} (hm : 0 < m) (ho : o + m ≤ 2 * E.b) (s : Wk K) {x y : Nat} (hyx : y ≤ x)
    (hx : x < y + 2 * E.b) :
    lo E.b (hhReflector E m (E.ptr o j) s).mem x y =
      if y = j ∧ j + o ≤ x ∧ x < j + o + m then
        (if x = j + o then (E.larfg m fun i => lo E.b s.mem (j + o + i) j).1 else 0) else lo E.b s.mem x y := by
  have hl : (fun i : Fin m => s.mem (E.ptr o j + i.val)) = fun i : Fin m => lo E.b s.mem (j + o + i) j := by
    funext i
    have := lo_ptr hb (o := o) (j := j) (r := i) (c := 0) s.mem (by omega)
    rw [Nat.zero_mul, Nat.add_zero, Nat.add_zero] at this
    exact this
  unfold hhReflector
  dsimp only
  rw [hl]
  show (if y * (2 * E.b) + (x - y) = E.ptr o j then _ else if E.ptr o j < y * (2 * E.b) + (x - y) ∧
    y * (2 * E.b) + (x - y) < E.ptr o j + m then _ else s.mem (y * (2 * E.b) + (x - y))) = _
  rw [ptr_eq hb]
  by_cases h : y = j ∧ j + o ≤ x ∧ x < j + o + m
  · rw [if_pos h]
    obtain ⟨h1, h2, h3⟩ := h
    subst h1
    by_cases h4 : x = y + o
    · rw [if_pos h4, if_pos (by omega)]
    · rw [if_neg h4, if_neg (by omega), if_pos (by omega)]
  · rw [if_neg h]
    have : ∀ i < m, y * (2 * E.b) + (x - y) ≠ j * (2 * E.b) + (o + i) := by
      intro i hi e
      obtain ⟨e1, e2⟩ := addr_inj (by omega) (by omega) e
      exact h (by omega)
    rw [if_neg (by have := this 0 hm; omega), if_neg]
    · rfl
    · rintro ⟨h1, h2⟩
      exact this (y * (2 * E.b) + (x - y) - (j * (2 * E.b) + o)) (by omega) (by omega)

/-- The memory holds the lower triangle of `F`. -/
def HoldsG (b n : Nat) (mem : Nat → K) (F : Nat → Nat → K) : Prop := ∀ x < n, ∀ y ≤ x, x < y + 2 * b → lo b mem x y = F x y

/-- After the application of a reflector from the right (`do_step_full`, first part) the memory holds the transformed matrix. -/
theorem finish_step (hb : 2 ≤ E.b) {n j nh m : Nat} {G : Nat → Nat → K} {tau : K} {v : Nat → K} (hG : HermF n G) (hnh : nh ≤ E.b)
    (hm : m ≤ E.b) (hjn : j + nh + m ≤ n) (mem : Nat → K)
    (hold : HoldsG E.b n mem fun x y => if y < j then congF n (emb j nh v) tau G x y else G x y)
    (hfill : ∀ x < n, ∀ y, j ≤ y → y < j + nh → j + nh + m ≤ x → G x y = 0) :
    HoldsG E.b n (if 0 < m then applyRight m nh tau v (E.ptr nh j) E.ld (applyHerm nh tau v (E.ptr 0 j) E.ld mem) else
      applyHerm nh tau v (E.ptr 0 j) E.ld mem) (congF n (emb j nh v) tau G) := by
  -- the first kernel
  have hG' : ∀ x < n, ∀ y ≤ x, x < y + 2 * E.b → j ≤ y → lo E.b mem x y = G x y := by
    intro x hx y hyx hxy hjy
    rw [hold x hx y hyx hxy]
    exact if_neg (by omega)
  have hlow : ∀ x, j ≤ x → x < j + nh → ∀ c < nh, lowE (lo E.b mem) x (j + c) = G x (j + c) := by
    intro x h1 h2 c hc
    unfold lowE
    by_cases h : j + c ≤ x
    · rw [if_pos h, hG' x (by omega) _ h (by omega) (by omega)]
    · rw [if_neg h, hG' (j + c) (by omega) _ (by omega) (by omega) (by omega), hG _ (by omega) _ (by omega)]
  have h1 : HoldsG E.b n (applyHerm nh tau v (E.ptr 0 j) E.ld mem) fun x y =>
      if y < j ∨ x < j + nh then congF n (emb j nh v) tau G x y else G x y := by
    intro x hx y hyx hxy
    rw [applyHerm_lo hb hnh tau v mem hyx hxy]
    beta_reduce
    by_cases h : j ≤ y ∧ x < j + nh
    · rw [if_pos h, if_pos (Or.inr h.2), congF_herm hG (by omega), hG' x hx y hyx hxy h.1]
      have hs : ∀ x, j ≤ x → x < j + nh → (∑ z ∈ Finset.range n, G x z * emb j nh v z) =
          ∑ c ∈ Finset.range nh, lowE (lo E.b mem) x (j + c) * v c := by
        intro x h1 h2
        rw [sum_emb_r (by omega)]
        exact Finset.sum_congr rfl fun c hc => by rw [hlow x h1 h2 c (Finset.mem_range.1 hc)]
      have hq : (∑ r ∈ Finset.range n, star (tau * ∑ z ∈ Finset.range n, G r z * emb j nh v z) * emb j nh v r) =
          ∑ r ∈ Finset.range nh, star (tau * ∑ c ∈ Finset.range nh, lowE (lo E.b mem) (j + r) (j + c) * v c) * v r := by
        rw [sum_emb_r (by omega) v (fun r => star (tau * ∑ z ∈ Finset.range n, G r z * emb j nh v z))]
        exact Finset.sum_congr rfl fun r hr => by rw [hs (j + r) (by omega) (by have := Finset.mem_range.1 hr; omega)]
      have ex : emb j nh v x = v (x - j) := if_pos (by omega)
      have ey : emb j nh v y = v (y - j) := if_pos (by omega)
      rw [hq, hs x (by omega) (by omega), hs y (by omega) (by omega), ex, ey]
    · rw [if_neg h, hold x hx y hyx hxy]
      beta_reduce
      by_cases h2 : y < j
      · rw [if_pos h2, if_pos (Or.inl h2)]
      · rw [if_neg h2, if_neg (by omega)]
  generalize applyHerm nh tau v (E.ptr 0 j) E.ld mem = mem1 at h1 ⊢
  have h2 : ∀ x < n, ∀ y ≤ x, x < y + 2 * E.b → lo E.b (if 0 < m then applyRight m nh tau v (E.ptr nh j) E.ld mem1 else mem1) x y =
      if (j + nh ≤ x ∧ x < j + nh + m) ∧ j ≤ y ∧ y < j + nh then
        lo E.b mem1 x y - tau * (∑ c ∈ Finset.range nh, lo E.b mem1 x (j + c) * v c) * star (v (y - j))
      else lo E.b mem1 x y := by
    intro x hx y hyx hxy
    by_cases h0 : 0 < m
    · rw [if_pos h0, applyRight_lo hb hm (by omega) (by omega) tau v mem1 hyx hxy]
    · rw [if_neg h0, if_neg (by omega)]
  intro x hx y hyx hxy
  rw [h2 x hx y hyx hxy]
  by_cases h3 : (j + nh ≤ x ∧ x < j + nh + m) ∧ j ≤ y ∧ y < j + nh
  · rw [if_pos h3, congF_row (emb_out v (by omega))]
    unfold rightF
    have ey : emb j nh v y = v (y - j) := if_pos (by omega)
    rw [sum_emb_r (by omega), ey, h1 x hx y hyx hxy]
    beta_reduce
    rw [if_neg (by omega)]
    congr 3
    refine Finset.sum_congr rfl fun c hc => ?_
    have := Finset.mem_range.1 hc
    rw [h1 x hx (j + c) (by omega) (by omega)]
    beta_reduce
    rw [if_neg (by omega)]
  · rw [if_neg h3, h1 x hx y hyx hxy]
    beta_reduce
    by_cases h4 : y < j ∨ x < j + nh
    · rw [if_pos h4]
    · rw [if_neg h4, congF_row (emb_out v (by omega))]
      by_cases h5 : y < j + nh
      · rw [rightF_row]
        intro z hz
        by_cases h6 : j ≤ z ∧ z < j + nh
        · exact Or.inr (hfill x hx z h6.1 h6.2 (by omega))
        · exact Or.inl (emb_out v h6)
      · rw [rightF_zero (emb_out v (by omega))]

/-- A new reflector is applied from the left to the columns before its first row (`start_sweep`, and `do_step_full`, last part). -/
theorem new_refl (hb : 2 ≤ E.b) (hl : LarfgSpec E.larfg) {n j nn m : Nat} {G : Nat → Nat → K} (hnn : 0 < nn) (hnb : nn ≤ E.b)
    (hm0 : 0 < m) (hm : m ≤ E.b)
    (hjn : j + nn + m ≤ n) (s : Wk K) (hold : HoldsG E.b n s.mem G)
    (hz : ∀ x < n, ∀ y, (y < j) → j + nn ≤ x → x < j + nn + m → G x y = 0) :
    ∃ tau v, (hhReflector E m (E.ptr nn j) s).tau = tau ∧ (hhReflector E m (E.ptr nn j) s).v = v ∧ v 0 = 1 ∧
      tau * star tau * (∑ z ∈ Finset.range m, star (v z) * v z) = tau + star tau ∧
      HoldsG E.b n (applyLeft m (nn - 1) tau v (E.ptr (nn - 1) (j + 1)) E.ld (hhReflector E m (E.ptr nn j) s).mem)
        (fun x y => if y < j + nn then congF n (emb (j + nn) m v) tau G x y else G x y) ∧
      star (congF n (emb (j + nn) m v) tau G (j + nn) j) = congF n (emb (j + nn) m v) tau G (j + nn) j ∧
      ∀ x, j + nn < x → x < j + nn + m → congF n (emb (j + nn) m v) tau G x j = 0 := by
  have hv0 : (hhReflector E m (E.ptr nn j) s).v 0 = 1 := rfl
  refine ⟨_, _, rfl, rfl, hv0, ?_⟩
  have hl' := larfg_elem hl hm0 (fun i => lo E.b s.mem (j + nn + i) j) (v := (hhReflector E m (E.ptr nn j) s).v) (by
    intro i hi
    have hq : (fun i : Fin m => s.mem (E.ptr nn j + i.val)) = fun i : Fin m => lo E.b s.mem (j + nn + i) j := by
      funext i
      have := lo_ptr hb (o := nn) (j := j) (r := i) (c := 0) s.mem (by omega)
      rw [Nat.zero_mul, Nat.add_zero, Nat.add_zero] at this
      exact this
    show (if i = 0 then 1 else if i < m then (E.larfg m fun i : Fin m => s.mem (E.ptr nn j + i.val)).2.2 i else s.v i) = _
    rw [hq, if_pos hi])
  have ht : (hhReflector E m (E.ptr nn j) s).tau = (E.larfg m (fun i => lo E.b s.mem (j + nn + i) j)).2.1 := by
    show (E.larfg m fun i : Fin m => s.mem (E.ptr nn j + i.val)).2.1 = _
    have hq : (fun i : Fin m => s.mem (E.ptr nn j + i.val)) = fun i : Fin m => lo E.b s.mem (j + nn + i) j := by
      funext i
      have := lo_ptr hb (o := nn) (j := j) (r := i) (c := 0) s.mem (by omega)
      rw [Nat.zero_mul, Nat.add_zero, Nat.add_zero] at this
      exact this
    rw [hq]
  have hlo := fun x y => hhReflector_lo hb (o := nn) (j := j) hm0 (by omega) s (x := x) (y := y)
  rw [ht]
  generalize (hhReflector E m (E.ptr nn j) s).v = v at hl' ⊢
  generalize (hhReflector E m (E.ptr nn j) s).mem = mem1 at hlo ⊢
  generalize E.larfg m (fun i => lo E.b s.mem (j + nn + i) j) = q at hl' hlo ⊢
  generalize q.2.1 = tau at hl' ⊢
  obtain ⟨g1, g2, g3⟩ := hl'
  -- the columns before the reflector
  have hcong : ∀ x y, y < j + nn → congF n (emb (j + nn) m v) tau G x y = leftF n (emb (j + nn) m v) tau G x y := fun x y hy =>
    congF_col (emb_out v (by omega))
  have hleft : ∀ x y, leftF n (emb (j + nn) m v) tau G x y = G x y - star tau * emb (j + nn) m v x *
      ∑ c ∈ Finset.range m, star (v c) * G (j + nn + c) y := by
    intro x y
    unfold leftF
    rw [sum_emb_star hjn]
  have hfirst : ∀ x, j + nn ≤ x → x < j + nn + m → congF n (emb (j + nn) m v) tau G x j = if x = j + nn then q.1 else 0 := by
    intro x h1 h2
    rw [hcong x j (by omega), hleft]
    have := g3 (fun i => G (j + nn + i) j) (fun i => (hold _ (by omega) _ (by omega) (by omega)).symm) (x - (j + nn)) (by omega)
    beta_reduce at this
    rw [show j + nn + (x - (j + nn)) = x by omega] at this
    have ex : emb (j + nn) m v x = v (x - (j + nn)) := if_pos (by omega)
    rw [ex, this]
    by_cases h : x = j + nn
    · rw [if_pos h, if_pos (by omega)]
    · rw [if_neg h, if_neg (by omega)]
  refine ⟨g2, ?_, ?_, ?_⟩
  · intro x hx y hyx hxy
    rw [applyLeft_lo hb hm (by omega) (by omega) tau v mem1 hyx hxy]
    beta_reduce
    rw [show j + 1 + (nn - 1) = j + nn by omega]
    by_cases hy : y < j + nn
    · rw [if_pos hy]
      by_cases hx1 : j + nn ≤ x ∧ x < j + nn + m
      · have ex : emb (j + nn) m v x = v (x - (j + nn)) := if_pos (by omega)
        by_cases hyj : y = j
        · subst hyj
          rw [if_neg (by omega), hlo x y hyx hxy, if_pos ⟨rfl, hx1⟩, hfirst x hx1.1 hx1.2]
        · by_cases hyj2 : y < j
          · rw [if_neg (by omega), hlo x y hyx hxy, if_neg (by omega), hcong x y hy, leftF_col, hold x hx y hyx hxy]
            intro z hz'
            by_cases h6 : j + nn ≤ z ∧ z < j + nn + m
            · exact Or.inr (hz z hz' y hyj2 h6.1 h6.2)
            · exact Or.inl (emb_out v h6)
          · rw [if_pos ⟨hx1, by omega⟩, hcong x y hy, hleft, hlo x y hyx hxy, if_neg (by omega), hold x hx y hyx hxy, ex,
              show x - (j + 1) - (nn - 1) = x - (j + nn) by omega]
            congr 2
            refine Finset.sum_congr rfl fun c hc => ?_
            have := Finset.mem_range.1 hc
            rw [hlo _ y (by omega) (by omega), if_neg (by omega), hold _ (by omega) y (by omega) (by omega)]
      · rw [if_neg (fun h => hx1 h.1), hlo x y hyx hxy, if_neg (fun h => hx1 h.2), hcong x y hy, leftF_zero (emb_out v hx1),
          hold x hx y hyx hxy]
    · rw [if_neg hy, if_neg (by omega), hlo x y hyx hxy, if_neg (by omega), hold x hx y hyx hxy]
  · rw [hfirst (j + nn) (Nat.le_refl _) (by omega), if_pos rfl, g1]
  · intro x h1 h2
    rw [hfirst x (by omega) h2, if_neg (by omega)]

end DLAF
