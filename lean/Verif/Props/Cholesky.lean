import Verif.Lemmas.Cholesky
import Verif.Lemmas.Adjoint
import Mathlib.Data.Matrix.Mul
import Mathlib.LinearAlgebra.Matrix.ConjTranspose
import Mathlib.LinearAlgebra.Matrix.Hermitian
import Mathlib.Tactic.NormNum
import Mathlib.Tactic.IntervalCases
import Mathlib.Tactic.Linarith
import Mathlib.Algebra.Star.Rat
import Mathlib.Data.Complex.Basic
import Mathlib.Data.Real.Star
import Mathlib.Algebra.Order.Field.Rat
/- C29: Cholesky factorization. -/
namespace DLAF
variable {K : Type*} [Field K] [StarRing K]

/-- The columns `< q` of a lower Cholesky factor are determined by the matrix. -/
theorem chol_unique {pos : K → Prop} (hp : Positive pos) {n q : Nat} {a f g : Nat → Nat → K} (hq : q ≤ n)
    (pf : ∀ c < q, pos (f c c)) (pg : ∀ c < q, pos (g c c))
    (hf : ∀ c < q, ∀ r, c ≤ r → r < n → ∑ l ∈ Finset.range (c + 1), f r l * star (f c l) = a r c)
    (hg : ∀ c < q, ∀ r, c ≤ r → r < n → ∑ l ∈ Finset.range (c + 1), g r l * star (g c l) = a r c) :
    ∀ c < q, ∀ r, c ≤ r → r < n → f r c = g r c := by
  intro c
  induction c using Nat.strong_induction_on with
  | _ c ih =>
    intro hc
    have hprev : ∀ r, c ≤ r → r < n →
        ∑ l ∈ Finset.range c, f r l * star (f c l) = ∑ l ∈ Finset.range c, g r l * star (g c l) := by
      intro r h1 h2
      refine Finset.sum_congr rfl ?_
      intro l hl
      rw [Finset.mem_range] at hl
      rw [ih l hl (by omega) r (by omega) h2, ih l hl (by omega) c (by omega) (by omega)]
    have hlast : ∀ r, c ≤ r → r < n → f r c * star (f c c) = g r c * star (g c c) := by
      intro r h1 h2
      have e1 := hf c hc r h1 h2
      have e2 := hg c hc r h1 h2
      rw [Finset.sum_range_succ] at e1 e2
      have e3 := hprev r h1 h2
      linear_combination e1 - e2 - e3
    have hcc : f c c = g c c := by
      have := hlast c (le_refl _) (by omega)
      rw [hp.real _ (pf c hc), hp.real _ (pg c hc)] at this
      exact hp.sq_inj _ _ (pf c hc) (pg c hc) this
    intro r h1 h2
    have := hlast r h1 h2
    rw [hcc, hp.real _ (pg c hc)] at this
    exact mul_right_cancel₀ (hp.ne_zero _ (pg c hc)) this

/-- The elements of the finished columns satisfy the factor equation. -/
theorem InvL.factor {pos : K → Prop} {sz : Nat → Nat} {nt k : Nat} {m0 m : Tiles K} (hk : k ≤ nt)
    (inv : InvL pos sz nt m0 k m) {A : Nat → Nat → K} (hA : HoldsOn m0 sz sz nt nt A fun r c => c ≤ r) :
    (∀ c < tileStart sz k, pos (elemOf m sz sz nt nt c c)) ∧
    ∀ c < tileStart sz k, ∀ r, c ≤ r → r < tileStart sz nt →
      ∑ l ∈ Finset.range (c + 1), elemOf m sz sz nt nt r l * star (elemOf m sz sz nt nt c l) = A r c := by
  constructor
  · intro c hc
    obtain ⟨j, hj, c', hc', rfl⟩ := exists_tile sz hc
    rw [elemOf_eq m sz sz (by omega) (by omega) hc' hc']
    exact inv.pos j hj c' hc'
  · intro c hc r hcr hr
    obtain ⟨j, hj, c', hc', rfl⟩ := exists_tile sz hc
    obtain ⟨i, hi, r', hr', rfl⟩ := exists_tile sz hr
    have hle := (tile_le_iff sz hr' hc').1 hcr
    rw [← hA i hi j (by omega) r' hr' c' hc' hcr,
      inv.done j hj i (by omega) hi r' hr' c' hc' (by intro h; omega),
      show tileStart sz j + c' + 1 = tileStart sz j + (c' + 1) by ring, Finset.sum_range_add, sum_tiles]
    congr 1
    · refine Finset.sum_congr rfl ?_
      intro p hp
      rw [Finset.mem_range] at hp
      refine Finset.sum_congr rfl ?_
      intro l hl
      rw [Finset.mem_range] at hl
      rw [elemOf_eq m sz sz hi (by omega) hr' hl, elemOf_eq m sz sz (by omega) (by omega) hc' hl]
    · refine Finset.sum_congr rfl ?_
      intro l hl
      rw [Finset.mem_range] at hl
      rw [elemOf_eq m sz sz hi (by omega) hr' (by omega), elemOf_eq m sz sz (by omega) (by omega) hc' (by omega)]

theorem cholL_inv {lp : Lapack K} {pos : K → Prop} (hl : LapackSpec lp pos) (hp : Positive pos) {sz : Nat → Nat}
    {nt : Nat} {m m1 : Tiles K} (hs : Shaped m sz sz nt nt) (h : cholL lp nt m = some m1) : InvL pos sz nt m nt m1 := by
  refine forM'_inv_some (I := fun k s => InvL pos sz nt m k s) ?_ (InvL.init hs) h
  intro k hk s s' inv hstep
  have hp' : ∃ F, lp.potrf .Lower (s (k, k)) = some F := by
    cases hF : lp.potrf .Lower (s (k, k)) with
    | some F => exact ⟨F, rfl⟩
    | none =>
      exfalso
      unfold cholStepL potrfL Lapack.tilePotrf at hstep
      have hd := inv.shape k hk k hk
      rw [if_pos (by rw [hd.1, hd.2]), hF] at hstep
      simp [Tiles.write] at hstep
  obtain ⟨F, hF⟩ := hp'
  obtain ⟨s'', h1, h2⟩ := cholStepL_spec inv.shape hk hF
  rw [h1] at hstep
  cases hstep
  exact inv.step hl hp hk hF h2

/-- C29, lower, soundness: if the call returns, the lower triangle holds the Cholesky factor of the matrix whose
lower triangle was given; the rest of the matrix and the tiling are unchanged. -/
theorem C29_cholesky_lower {lp : Lapack K} {pos : K → Prop} (hl : LapackSpec lp pos) (hp : Positive pos)
    {sz : Nat → Nat} {nt : Nat} {m m1 : Tiles K} (hs : Shaped m sz sz nt nt) {A : Nat → Nat → K}
    (hA : HoldsOn m sz sz nt nt A fun r c => c ≤ r) (h : cholesky_factorization lp .Lower nt m = some m1) :
    Shaped m1 sz sz nt nt ∧
    (∃ L, HoldsOn m1 sz sz nt nt L (fun r c => c ≤ r) ∧ IsChol pos .Lower (tileStart sz nt) A L) ∧
    ∀ U, HoldsOn m sz sz nt nt U (fun r c => r < c) → HoldsOn m1 sz sz nt nt U (fun r c => r < c) := by
  have inv := cholL_inv hl hp hs h
  obtain ⟨h1, h2⟩ := inv.factor (le_refl nt) hA
  refine ⟨inv.shape, ⟨_, elemOf_holds m1 sz sz nt nt _, h1, ?_⟩, ?_⟩
  · intro r hr c hc
    exact h2 c (by omega) r hc hr
  · intro U hU i hi j hj r hr c hc hlt
    rw [← hU i hi j hj r hr c hc hlt]
    have hnot : ¬ (tileStart sz j + c ≤ tileStart sz i + r) := by omega
    rw [tile_le_iff sz hr hc] at hnot
    rcases Nat.lt_trichotomy i j with h' | h' | h'
    · rw [inv.upper i j h']
    · subst h'
      exact inv.udiag i hi r hr c hc (by omega)
    · exact absurd (Or.inl h') hnot

/-- C29, lower, completeness: if the matrix has a Cholesky factor (that is, it is positive definite) the call does
not fail and the result is that factor. -/
theorem C29_cholesky_lower_succeeds {lp : Lapack K} {pos : K → Prop} (hl : LapackSpec lp pos) (hp : Positive pos)
    {sz : Nat → Nat} {nt : Nat} {m : Tiles K} (hs : Shaped m sz sz nt nt) {A L : Nat → Nat → K}
    (hA : HoldsOn m sz sz nt nt A fun r c => c ≤ r) (hL : IsChol pos .Lower (tileStart sz nt) A L) :
    ∃ m1, cholesky_factorization lp .Lower nt m = some m1 ∧ HoldsOn m1 sz sz nt nt L (fun r c => c ≤ r) := by
  obtain ⟨Lp, Lf⟩ := hL
  have hmain : ∃ m1, cholL lp nt m = some m1 ∧ InvL pos sz nt m nt m1 := by
    refine forM'_inv (I := fun k s => InvL pos sz nt m k s) ?_ (InvL.init hs)
    intro k hk s inv
    have hkn := tileStart_mono sz (show k ≤ nt by omega)
    obtain ⟨f1, f2⟩ := inv.factor (by omega) hA
    have huniq := chol_unique (a := A) hp hkn f1 (fun c hc => Lp c (by omega)) f2
      (fun c hc r hcr hr => Lf r hr c hcr)
    have hd := inv.shape k hk k hk
    have hFs : (lp.potrf .Lower (s (k, k))).isSome := by
      refine hl.potrf_total .Lower (s (k, k)) (fun r c => L (tileStart sz k + r) (tileStart sz k + c))
        (by rw [hd.1, hd.2]) ⟨?_, ?_⟩
      · intro i hi
        rw [hd.1] at hi
        exact Lp _ (tile_lt sz hk hi)
      · intro r hr c hc
        rw [hd.1] at hr
        have ht := inv.trail k (le_refl _) k (le_refl _) hk r hr c (by omega) (fun _ => hc)
        have hLr := Lf (tileStart sz k + r) (tile_lt sz hk hr) (tileStart sz k + c) (by omega)
        rw [show tileStart sz k + c + 1 = tileStart sz k + (c + 1) by ring, Finset.sum_range_add, sum_tiles] at hLr
        have hm0 := hA k hk k hk r hr c (by omega) (by omega)
        have hsum : ∑ p ∈ Finset.range k, ∑ l ∈ Finset.range (sz p), (s (k, p)).e r l * star ((s (k, p)).e c l) =
            ∑ p ∈ Finset.range k, ∑ l ∈ Finset.range (sz p),
              L (tileStart sz k + r) (tileStart sz p + l) * star (L (tileStart sz k + c) (tileStart sz p + l)) := by
          refine Finset.sum_congr rfl ?_
          intro p hpp
          rw [Finset.mem_range] at hpp
          refine Finset.sum_congr rfl ?_
          intro l hl'
          rw [Finset.mem_range] at hl'
          have hlt := tile_lt sz hpp hl'
          rw [← huniq _ hlt (tileStart sz k + r) (by omega) (tile_lt sz hk hr),
            ← huniq _ hlt (tileStart sz k + c) (by omega) (tile_lt sz hk (by omega)),
            elemOf_eq s sz sz hk (by omega) hr hl', elemOf_eq s sz sz hk (by omega) (by omega) hl']
        rw [hsum, hm0] at ht
        show ∑ l ∈ Finset.range (c + 1), L (tileStart sz k + r) (tileStart sz k + l) *
          star (L (tileStart sz k + c) (tileStart sz k + l)) = (s (k, k)).e r c
        rw [ht, ← hLr]
        ring
    obtain ⟨F, hF⟩ := Option.isSome_iff_exists.1 hFs
    obtain ⟨s', h1, h2⟩ := cholStepL_spec inv.shape hk hF
    exact ⟨s', h1, inv.step hl hp hk hF h2⟩
  obtain ⟨m1, h1, inv⟩ := hmain
  refine ⟨m1, h1, ?_⟩
  obtain ⟨f1, f2⟩ := inv.factor (le_refl _) hA
  have huniq := chol_unique (a := A) hp (le_refl _) f1 (fun c hc => Lp c hc) f2
      (fun c hc r hcr hr => Lf r hr c hcr)
  intro i hi j hj r hr c hc hle
  rw [← huniq _ (tile_lt sz hj hc) _ hle (tile_lt sz hi hr), elemOf_eq m1 sz sz hi hj hr hc]

theorem Shaped.adj {m : Tiles K} {rs cs : Nat → Nat} {nr nc : Nat} (h : Shaped m rs cs nr nc) :
    Shaped (adjT m) cs rs nc nr := fun i hi j hj => ⟨(h j hj i hi).2, (h j hj i hi).1⟩

theorem HoldsOn.adj {m : Tiles K} {rs cs : Nat → Nat} {nr nc : Nat} {A : Nat → Nat → K} {sel sel' : Nat → Nat → Prop}
    (h : HoldsOn m rs cs nr nc A sel) (hsel : ∀ r c, sel' r c → sel c r) :
    HoldsOn (adjT m) cs rs nc nr (adjE A) sel' := by
  intro i hi j hj r hr c hc hs
  show star ((m (j, i)).e c r) = star _
  rw [h j hj i hi c hc r hr (hsel _ _ hs)]

/-- C29, upper, soundness: if the call returns, the upper triangle holds the factor `U` with `Uᴴ U = A`; the rest is
unchanged. -/
theorem C29_cholesky_upper {lp : Lapack K} {pos : K → Prop} (hl : LapackSpec lp pos) (hp : Positive pos)
    {sz : Nat → Nat} {nt : Nat} {m m1 : Tiles K} (hs : Shaped m sz sz nt nt) {A : Nat → Nat → K}
    (hA : HoldsOn m sz sz nt nt A fun r c => r ≤ c) (h : cholesky_factorization lp .Upper nt m = some m1) :
    Shaped m1 sz sz nt nt ∧
    (∃ U, HoldsOn m1 sz sz nt nt U (fun r c => r ≤ c) ∧ IsChol pos .Upper (tileStart sz nt) A U) ∧
    ∀ L, HoldsOn m sz sz nt nt L (fun r c => c < r) → HoldsOn m1 sz sz nt nt L (fun r c => c < r) := by
  have hsim := cholU_adj lp nt m
  rw [show cholU lp nt m = some m1 from h, Option.map_some] at hsim
  obtain ⟨h1, ⟨L, h2, h3⟩, h4⟩ := C29_cholesky_lower (hl.adj hp) hp hs.adj
    (hA.adj (sel' := fun r c => c ≤ r) (fun _ _ h => h)) hsim.symm
  refine ⟨by simpa using h1.adj, ⟨adjE L, ?_, ?_⟩, ?_⟩
  · simpa using h2.adj (sel' := fun r c => r ≤ c) (fun _ _ h => h)
  · simpa [Uplo.flip] using h3.adj hp
  · intro L hL
    have := h4 (adjE L) (hL.adj (fun _ _ h => h))
    simpa using this.adj (sel' := fun r c => c < r) (fun _ _ h => h)

/-- C29, upper, completeness. -/
theorem C29_cholesky_upper_succeeds {lp : Lapack K} {pos : K → Prop} (hl : LapackSpec lp pos) (hp : Positive pos)
    {sz : Nat → Nat} {nt : Nat} {m : Tiles K} (hs : Shaped m sz sz nt nt) {A U : Nat → Nat → K}
    (hA : HoldsOn m sz sz nt nt A fun r c => r ≤ c) (hU : IsChol pos .Upper (tileStart sz nt) A U) :
    ∃ m1, cholesky_factorization lp .Upper nt m = some m1 ∧ HoldsOn m1 sz sz nt nt U (fun r c => r ≤ c) := by
  obtain ⟨m1, h1, h2⟩ := C29_cholesky_lower_succeeds (hl.adj hp) hp hs.adj
    (hA.adj (sel' := fun r c => c ≤ r) (fun _ _ h => h)) (hU.adj hp)
  have hsim := cholU_adj lp nt m
  rw [show cholL lp.adj nt (adjT m) = some m1 from h1, Option.map_eq_some_iff] at hsim
  obtain ⟨m2, h3, h4⟩ := hsim
  refine ⟨m2, h3, ?_⟩
  have := h2.adj (sel' := fun r c => r ≤ c) (fun _ _ h => h)
  rw [← h4] at this
  simpa using this

/-- The lower triangular matrix with the elements of `f`. -/
def lowerOf (n : Nat) (f : Nat → Nat → K) : Matrix (Fin n) (Fin n) K := fun r c => if c ≤ r then f r c else 0

/-- The upper triangular matrix with the elements of `f`. -/
def upperOf (n : Nat) (f : Nat → Nat → K) : Matrix (Fin n) (Fin n) K := fun r c => if r ≤ c then f r c else 0

/-- `IsChol` is the usual equation: with zeros in the other triangle, `L Lᴴ = A`. -/
theorem C29_lower_is_matrix_equation {pos : K → Prop} {n : Nat} {a f : Nat → Nat → K} (h : IsChol pos .Lower n a f)
    (A : Matrix (Fin n) (Fin n) K) (hA : A.IsHermitian) (ha : ∀ r c : Fin n, c ≤ r → a r c = A r c) :
    lowerOf n f * (lowerOf n f).conjTranspose = A := by
  obtain ⟨L, hL⟩ : ∃ L, L = lowerOf n f := ⟨_, rfl⟩
  have hLa : ∀ r c, L r c = if c ≤ r then f r c else 0 := by intro r c; rw [hL]; rfl
  rw [← hL]
  have key : ∀ r c : Fin n, c ≤ r → (L * L.conjTranspose) r c = A r c := by
    intro r c hcr
    rw [Matrix.mul_apply, ← ha r c hcr, ← h.2 r r.2 c hcr]
    have hsub : Finset.range (c + 1) ⊆ Finset.range n := by
      intro x hx; rw [Finset.mem_range] at *; omega
    rw [Finset.sum_fin_eq_sum_range]
    symm
    rw [← Finset.sum_subset hsub]
    · refine Finset.sum_congr rfl ?_
      intro l hl
      rw [Finset.mem_range] at hl
      have hln : l < n := by omega
      simp only [hln, dif_pos, hLa, Matrix.conjTranspose_apply]
      rw [if_pos (by rw [Fin.le_def]; simp; omega), if_pos (by rw [Fin.le_def]; simp; omega)]
    · intro l hl hl'
      rw [Finset.mem_range] at hl hl'
      simp only [hl, dif_pos, hLa, Matrix.conjTranspose_apply]
      rw [if_neg (show ¬ (⟨l, hl⟩ : Fin n) ≤ c by rw [Fin.le_def]; simp; omega), star_zero, mul_zero]
  ext r c
  rcases le_total c r with hcr | hcr
  · exact key r c hcr
  · have h1 := key c r hcr
    have h2 : (L * L.conjTranspose).conjTranspose = L * L.conjTranspose := by
      rw [Matrix.conjTranspose_mul, Matrix.conjTranspose_conjTranspose]
    calc (L * L.conjTranspose) r c = (L * L.conjTranspose).conjTranspose r c := by rw [h2]
      _ = star ((L * L.conjTranspose) c r) := rfl
      _ = star (A c r) := by rw [h1]
      _ = A r c := by rw [← Matrix.conjTranspose_apply, hA.eq]

/-- `IsChol` is the usual equation: with zeros in the other triangle, `Uᴴ U = A`. -/
theorem C29_upper_is_matrix_equation {pos : K → Prop} (hp : Positive pos) {n : Nat} {a f : Nat → Nat → K}
    (h : IsChol pos .Upper n a f)
    (A : Matrix (Fin n) (Fin n) K) (hA : A.IsHermitian) (ha : ∀ r c : Fin n, r ≤ c → a r c = A r c) :
    (upperOf n f).conjTranspose * upperOf n f = A := by
  have h1 := C29_lower_is_matrix_equation (h.adj hp) A hA (by
    intro r c hrc
    show star (a c r) = _
    rw [ha c r hrc]
    have := congrFun (congrFun hA.eq r) c
    rwa [Matrix.conjTranspose_apply] at this)
  have h2 : lowerOf n (adjE f) = (upperOf n f).conjTranspose := by
    ext r c
    rw [Matrix.conjTranspose_apply]
    simp only [lowerOf, upperOf, adjE]
    split <;> simp
  rw [h2, Matrix.conjTranspose_conjTranspose] at h1
  exact h1

/-- The factor with positive diagonal is unique, so the result does not depend on the tile sizes. -/
theorem C29_factor_unique {pos : K → Prop} (hp : Positive pos) {n : Nat} {A f g : Nat → Nat → K}
    (hf : IsChol pos .Lower n A f) (hg : IsChol pos .Lower n A g) : ∀ r < n, ∀ c ≤ r, f r c = g r c := by
  intro r hr c hc
  exact chol_unique (a := A) hp (le_refl n) hf.1 hg.1 (fun c _ r h1 h2 => hf.2 r h2 c h1)
    (fun c _ r h1 h2 => hg.2 r h2 c h1) c (by omega) r hc hr

/- Non-vacuity.  Kernels with the contracts exist over every field (`lapack_spec`).  Over `ℚ`, with tiles of sizes
2 and 1, the matrix `L Lᵀ` for `L = [[1,0,0],[2,3,0],[4,5,6]]`. -/
section example_
/-- Positive rationals. -/
def posQ (x : ℚ) : Prop := 0 < x

theorem positiveQ : Positive posQ := by
  refine ⟨fun x h => ne_of_gt h, fun x _ => rfl, ?_⟩
  intro x y hx hy h
  unfold posQ at hx hy
  nlinarith [mul_self_inj (le_of_lt hx) (le_of_lt hy) |>.1 h]

private def exSz : Nat → Nat := fun i => if i = 0 then 2 else 1
private def exL : Nat → Nat → ℚ
  | 0, 0 => 1
  | 1, 0 => 2
  | 1, 1 => 3
  | 2, 0 => 4
  | 2, 1 => 5
  | 2, 2 => 6
  | _, _ => 0
private def exA (r c : Nat) : ℚ := ∑ l ∈ Finset.range 3, exL r l * exL c l
private def exM : Tiles ℚ := fun z => ⟨exSz z.1, exSz z.2, fun r c => exA (tileStart exSz z.1 + r) (tileStart exSz z.2 + c)⟩

private theorem exChol : IsChol posQ .Lower (tileStart exSz 2) exA exL := by
  rw [show tileStart exSz 2 = 3 from rfl]
  refine ⟨?_, ?_⟩
  · intro i hi
    interval_cases i <;> (unfold posQ; simp [exL])
  · intro r hr c hc
    interval_cases r <;> interval_cases c <;> simp [exA, exL, Finset.sum_range_succ]

/-- The hypotheses of both lower theorems are met, and the call returns. -/
example : ∃ m1, cholesky_factorization (lapackOf posQ) .Lower 2 exM = some m1 ∧
    HoldsOn m1 exSz exSz 2 2 exL (fun r c => c ≤ r) ∧ Shaped m1 exSz exSz 2 2 := by
  have hs : Shaped exM exSz exSz 2 2 := fun _ _ _ _ => ⟨rfl, rfl⟩
  have hA : HoldsOn exM exSz exSz 2 2 exA (fun r c => c ≤ r) := fun _ _ _ _ _ _ _ _ _ => rfl
  obtain ⟨m1, h1, h2⟩ := C29_cholesky_lower_succeeds (lapack_spec posQ) positiveQ hs hA exChol
  exact ⟨m1, h1, h2, (C29_cholesky_lower (lapack_spec posQ) positiveQ hs hA h1).1⟩

/-- The same for the upper theorems. -/
example : ∃ m1, cholesky_factorization (lapackOf posQ) .Upper 2 (adjT exM) = some m1 ∧
    HoldsOn m1 exSz exSz 2 2 (adjE exL) (fun r c => r ≤ c) ∧ Shaped m1 exSz exSz 2 2 := by
  have hs : Shaped (adjT exM) exSz exSz 2 2 := fun _ _ _ _ => ⟨rfl, rfl⟩
  have hA : HoldsOn (adjT exM) exSz exSz 2 2 (adjE exA) (fun r c => r ≤ c) := fun _ _ _ _ _ _ _ _ _ => rfl
  obtain ⟨m1, h1, h2⟩ := C29_cholesky_upper_succeeds (lapack_spec posQ) positiveQ hs hA (exChol.adj positiveQ)
  exact ⟨m1, h1, h2, (C29_cholesky_upper (lapack_spec posQ) positiveQ hs hA h1).1⟩

/-- The element types of the library: positive numbers of `ℝ` and `ℂ`. -/
example : Positive (fun x : ℝ => 0 < x) := by
  refine ⟨fun x h => ne_of_gt h, fun x _ => by simp, ?_⟩
  intro x y hx hy h
  exact mul_self_inj (le_of_lt hx) (le_of_lt hy) |>.1 h

example : Positive (fun x : ℂ => ∃ r : ℝ, 0 < r ∧ x = r) := by
  refine ⟨?_, ?_, ?_⟩
  · rintro x ⟨r, hr, rfl⟩ h
    have : r = 0 := by exact_mod_cast h
    exact ne_of_gt hr this
  · rintro x ⟨r, hr, rfl⟩
    simp
  · rintro x y ⟨r, hr, rfl⟩ ⟨q, hq, rfl⟩ h
    have h' : r * r = q * q := by exact_mod_cast h
    have := mul_self_inj (le_of_lt hr) (le_of_lt hq) |>.1 h'
    rw [this]

end example_

end DLAF
