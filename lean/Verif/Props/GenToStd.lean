import Verif.Lemmas.GenToStd
import Verif.Props.Inverse
/- C42: transformation of a generalized eigenproblem to standard form. -/
namespace DLAF
variable {K : Type*} [Field K] [StarRing K]

/-- The Hermitian solution of `L C Lᴴ = A`. -/
theorem congruence_exists {N : Nat} {A B : Nat → Nat → K} (hB : ∀ i < N, B i i ≠ 0)
    (hA : ∀ i < N, star (A i i) = A i i) :
    ∃ C : Nat → Nat → K, (∀ x y, star (C y x) = C x y) ∧ ∀ x < N, ∀ y < N,
      ∑ p ∈ Finset.range N, ∑ q ∈ Finset.range N, triE .Lower .NonUnit B x p * C p q * star (triE .Lower .NonUnit B y q) =
        hermE .Lower A x y := by
  obtain ⟨a, ha⟩ : ∃ a : Blk K, a = ⟨N, N, A⟩ := ⟨_, rfl⟩
  obtain ⟨b, hb⟩ : ∃ b : Blk K, b = ⟨N, N, B⟩ := ⟨_, rfl⟩
  have hns : Nonsing .NonUnit b := ⟨by rw [hb], Or.inr (by rw [hb]; exact hB)⟩
  have hbt : ∀ x y, (b.tri .Lower .NonUnit).e x y = triE .Lower .NonUnit B x y := by
    intro x y; rw [hb]; simp only [Blk.tri, triE, decide_eq_true_eq]
  have hae : ∀ x y, (a.herm .Lower).e x y = hermE .Lower A x y := by
    intro x y; rw [ha]; simp only [Blk.herm, hermE, decide_eq_true_eq]
  obtain ⟨f, _, h2, h3, _⟩ := (lapack_spec (fun _ : K => True)).hegst .Lower a b (by rw [ha]) hns (by rw [ha, hb])
    (by rw [ha]; exact hA)
  simp only [hbt, hae, show a.rows = N by rw [ha]] at h2 h3
  obtain ⟨D, hD⟩ : ∃ D : Nat → Nat → K, D = ((⟨N, N, f⟩ : Blk K).herm .Lower).e := ⟨_, rfl⟩
  rw [← hD] at h2
  refine ⟨fun x y => if x < N ∧ y < N then D x y else 0, ?_, ?_⟩
  · intro x y
    by_cases h : x < N ∧ y < N
    · beta_reduce
      rw [if_pos ⟨h.2, h.1⟩, if_pos h, hD]
      simp only [Blk.herm, decide_eq_true_eq]
      rcases Nat.lt_trichotomy x y with h1 | h1 | h1
      · rw [if_pos (by omega), if_neg (by omega)]
      · subst h1
        rw [if_pos (le_refl _), h3 x h.1]
      · rw [if_neg (by omega), if_pos (by omega), star_star]
    · beta_reduce
      rw [if_neg (fun e => h ⟨e.2, e.1⟩), if_neg h, star_zero]
  · intro x hx y hy
    rw [h2 x hx y hy]
    refine Finset.sum_congr rfl fun p hp => Finset.sum_congr rfl fun q hq => ?_
    rw [Finset.mem_range] at hp hq
    beta_reduce
    rw [if_pos ⟨hp, hq⟩]

theorem genToStd_lower {lp : Lapack K} {pos : K → Prop} (hl : LapackSpec lp pos) (h2 : (2 : K) ≠ 0)
    {sz : Nat → Nat} {nt : Nat} {a b : Tiles K} (ha : Shaped a sz sz nt nt) (hb : Shaped b sz sz nt nt) {A B : Nat → Nat → K}
    (hA : HoldsOn a sz sz nt nt A fun _ _ => True) (hB : HoldsOn b sz sz nt nt B fun _ _ => True)
    (hn : NonsingE .NonUnit (tileStart sz nt) B) (hr : ∀ i < tileStart sz nt, star (A i i) = A i i) :
    ∃ a' X, generalized_to_standard lp .Lower nt b a = some a' ∧ Has a' sz sz nt nt X ∧
      (∀ x < tileStart sz nt, ∀ y < tileStart sz nt, hermE .Lower A x y =
        ∑ p ∈ Finset.range (tileStart sz nt), ∑ q ∈ Finset.range (tileStart sz nt),
          triE .Lower .NonUnit B x p * hermE .Lower X p q * star (triE .Lower .NonUnit B y q)) ∧
      (∀ x, star (X x x) = X x x) ∧ ∀ x y, x < y → X x y = A x y := by
  have hn' := hn.resolve_left (by simp)
  obtain ⟨C, c1, c2⟩ := congruence_exists hn' hr
  obtain ⟨a', h3, h4⟩ := genToStdL_spec hl h2 hn' c1 (Has.of hb hB) (Has.of ha hA) (by
    intro x hx y hy
    have := c2 x hx y (by omega)
    simp only [hermE] at this
    rw [if_pos hy] at this
    rw [← this]
    unfold gsTrail
    rw [Nat.Ico_zero_eq_range])
  have hX : ∀ p q, hermE .Lower (fun x y => if y ≤ x then C x y else A x y) p q = C p q := by
    intro p q
    simp only [hermE]
    by_cases h : q ≤ p
    · rw [if_pos h, if_pos h]
    · rw [if_neg h, if_pos (by omega), c1]
  refine ⟨a', _, h3, h4, ?_, ?_, ?_⟩
  · intro x hx y hy
    rw [← c2 x hx y hy]
    simp only [hX]
  · intro x
    rw [if_pos (le_refl _), c1]
  · intro x y hxy
    rw [if_neg (by omega)]

/-- C42, lower: for every tiling, every nonsingular lower triangular `B` and every Hermitian `A` given by its lower
triangle (so with a real diagonal), the call returns, and the lower triangle of `A` holds that of the Hermitian `X` with
`L X Lᴴ = A`, that is `X = L⁻¹ A L⁻ᴴ`.  The other triangle is unchanged. -/
theorem C42_gen_to_std_lower {lp : Lapack K} {pos : K → Prop} (hl : LapackSpec lp pos) (h2 : (2 : K) ≠ 0)
    {sz : Nat → Nat} {nt : Nat} {a b : Tiles K} (ha : Shaped a sz sz nt nt) (hb : Shaped b sz sz nt nt) {A B : Nat → Nat → K}
    (hA : HoldsOn a sz sz nt nt A fun _ _ => True) (hB : HoldsOn b sz sz nt nt B fun _ _ => True)
    (hn : NonsingE .NonUnit (tileStart sz nt) B) (hr : ∀ i < tileStart sz nt, star (A i i) = A i i) :
    ∃ a' X, generalized_to_standard lp .Lower nt b a = some a' ∧ Shaped a' sz sz nt nt ∧
      HoldsOn a' sz sz nt nt X (fun _ _ => True) ∧
      (∀ x < tileStart sz nt, ∀ y < tileStart sz nt, hermE .Lower A x y =
        ∑ p ∈ Finset.range (tileStart sz nt), ∑ q ∈ Finset.range (tileStart sz nt),
          triE .Lower .NonUnit B x p * hermE .Lower X p q * star (triE .Lower .NonUnit B y q)) ∧
      (∀ x, star (X x x) = X x x) ∧ ∀ x y, x < y → X x y = A x y := by
  obtain ⟨a', X, h3, h4, h5⟩ := genToStd_lower hl h2 ha hb hA hB hn hr
  exact ⟨a', X, h3, h4.shaped, h4.holds _, h5⟩

/-- C42, upper: the same with `Uᴴ X U = A`. -/
theorem C42_gen_to_std_upper {lp : Lapack K} {pos : K → Prop} (hl : LapackSpec lp pos) (hp : Positive pos) (h2 : (2 : K) ≠ 0)
    {sz : Nat → Nat} {nt : Nat} {a b : Tiles K} (ha : Shaped a sz sz nt nt) (hb : Shaped b sz sz nt nt) {A B : Nat → Nat → K}
    (hA : HoldsOn a sz sz nt nt A fun _ _ => True) (hB : HoldsOn b sz sz nt nt B fun _ _ => True)
    (hn : NonsingE .NonUnit (tileStart sz nt) B) (hr : ∀ i < tileStart sz nt, star (A i i) = A i i) :
    ∃ a' X, generalized_to_standard lp .Upper nt b a = some a' ∧ Shaped a' sz sz nt nt ∧
      HoldsOn a' sz sz nt nt X (fun _ _ => True) ∧
      (∀ x < tileStart sz nt, ∀ y < tileStart sz nt, hermE .Upper A x y =
        ∑ p ∈ Finset.range (tileStart sz nt), ∑ q ∈ Finset.range (tileStart sz nt),
          star (triE .Upper .NonUnit B p x) * hermE .Upper X p q * triE .Upper .NonUnit B q y) ∧
      (∀ x, star (X x x) = X x x) ∧ ∀ x y, y < x → X x y = A x y := by
  obtain ⟨a1, X, h3, h4, h5, h6, h7⟩ := genToStd_lower (hl.adj hp) h2 ha.adj hb.adj
    (hA.adj (sel' := fun _ _ => True) fun _ _ _ => trivial) (hB.adj (sel' := fun _ _ => True) fun _ _ _ => trivial) hn.adj
    (by intro i hi; simp only [adjE]; rw [star_star, hr i hi])
  have hsim : (generalized_to_standard lp .Upper nt b a).map adjT =
      generalized_to_standard lp.adj .Lower nt (adjT b) (adjT a) := genToStdU_adj lp nt b a
  rw [h3, Option.map_eq_some_iff] at hsim
  obtain ⟨a', h8, rfl⟩ := hsim
  have h9 := h4.adj
  rw [adjT_adjT] at h9
  refine ⟨a', adjE X, h8, h9.shaped, h9.holds _, ?_, ?_, ?_⟩
  · intro x hx y hy
    have e := congrArg star (h5 y hy x hx)
    have a0 := hermE_adj .Upper A y x
    simp only [Uplo.flip] at a0
    rw [a0, star_star] at e
    rw [e]
    simp only [star_sum]
    rw [Finset.sum_comm]
    refine Finset.sum_congr rfl fun p _ => Finset.sum_congr rfl fun q _ => ?_
    have a1 := triE_adj .Upper .NonUnit B y q
    have a2 := triE_adj .Upper .NonUnit B x p
    have a3 := hermE_adj .Lower X p q
    simp only [Uplo.flip] at a1 a2 a3
    rw [a1, a2, a3, star_mul', star_mul', star_star, star_star]
    ring
  · intro x
    simp only [adjE]
    rw [h6, h6]
  · intro x y hxy
    have := h7 y x hxy
    unfold adjE at this ⊢
    rw [this, star_star]

section example_
private def exSz : Nat → Nat := fun i => if i = 0 then 2 else 1
private def exB : Nat → Nat → ℚ
  | 0, 0 => 1
  | 1, 0 => 2
  | 1, 1 => 3
  | 2, 0 => 4
  | 2, 1 => 5
  | 2, 2 => 6
  | 0, 2 => 9
  | _, _ => 0
private def exA : Nat → Nat → ℚ := fun r c => 2 * r + c
private def exT (E : Nat → Nat → ℚ) : Tiles ℚ := fun z =>
  ⟨exSz z.1, exSz z.2, fun r c => E (tileStart exSz z.1 + r) (tileStart exSz z.2 + c)⟩
private theorem exS (E) : Shaped (exT E) exSz exSz 2 2 := fun _ _ _ _ => ⟨rfl, rfl⟩
private theorem exH (E) : HoldsOn (exT E) exSz exSz 2 2 E (fun _ _ => True) := fun _ _ _ _ _ _ _ _ _ => rfl
private theorem exN : NonsingE .NonUnit (tileStart exSz 2) exB := by
  refine Or.inr ?_
  rw [show tileStart exSz 2 = 3 from rfl]
  intro i hi
  interval_cases i <;> norm_num [exB]

example : ∃ a' X, generalized_to_standard (lapackOf posQ) .Lower 2 (exT exB) (exT exA) = some a' ∧
    HoldsOn a' exSz exSz 2 2 X (fun _ _ => True) ∧ (∀ x < 3, ∀ y < 3, hermE .Lower exA x y =
      ∑ p ∈ Finset.range 3, ∑ q ∈ Finset.range 3,
        triE .Lower .NonUnit exB x p * hermE .Lower X p q * star (triE .Lower .NonUnit exB y q)) ∧ X 0 2 = 2 := by
  obtain ⟨a', X, h1, _, h3, h4, _, h6⟩ := C42_gen_to_std_lower (lapack_spec posQ) (by norm_num) (exS exA) (exS exB)
    (exH exA) (exH exB) exN (fun _ _ => rfl)
  exact ⟨a', X, h1, h3, h4, by rw [h6 0 2 (by omega)]; norm_num [exA]⟩

example : ∃ a' X, generalized_to_standard (lapackOf posQ) .Upper 2 (exT exB) (exT exA) = some a' ∧
    HoldsOn a' exSz exSz 2 2 X (fun _ _ => True) ∧ (∀ x < 3, ∀ y < 3, hermE .Upper exA x y =
      ∑ p ∈ Finset.range 3, ∑ q ∈ Finset.range 3,
        star (triE .Upper .NonUnit exB p x) * hermE .Upper X p q * triE .Upper .NonUnit exB q y) ∧ X 2 0 = 4 := by
  obtain ⟨a', X, h1, _, h3, h4, _, h6⟩ := C42_gen_to_std_upper (lapack_spec posQ) positiveQ (by norm_num) (exS exA) (exS exB)
    (exH exA) (exH exB) exN (fun _ _ => rfl)
  exact ⟨a', X, h1, h3, h4, by rw [h6 2 0 (by omega)]; norm_num [exA]⟩
end example_

end DLAF
