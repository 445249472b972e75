import Verif.Lemmas.Inverse
import Verif.Lemmas.AdjointVariants
import Verif.Props.Multiplication
/- C33: triangular inverse, inverse from the Cholesky factor. -/
namespace DLAF
variable {K : Type*} [Field K] [StarRing K]

theorem triE_adj (u : Uplo) (d : Diag) (A : Nat → Nat → K) (x y : Nat) :
    triE u.flip d (adjE A) x y = star (triE u d A y x) := opE_adj u .NoTrans d A x y

theorem hermE_adj (u : Uplo) (A : Nat → Nat → K) (x y : Nat) :
    hermE u.flip (adjE A) x y = star (hermE u A y x) := by
  cases u <;> simp only [Uplo.flip, hermE, adjE, star_star] <;> split <;> simp_all

/-- C33, triangular inverse: for both triangles, `Unit` or not, every tiling and every nonsingular triangular matrix, the
call returns, the triangle holds the inverse of the triangular matrix, and every other position is unchanged. -/
theorem C33_triangular_inverse {lp : Lapack K} {pos : K → Prop} (hl : LapackSpec lp pos) (hp : Positive pos)
    (u : Uplo) (d : Diag) {sz : Nat → Nat} {nt : Nat} {m : Tiles K} (hs : Shaped m sz sz nt nt) {A : Nat → Nat → K}
    (hA : HoldsOn m sz sz nt nt A fun _ _ => True) (hn : NonsingE d (tileStart sz nt) A) :
    ∃ m' W, triangular_inverse lp u d nt m = some m' ∧ Shaped m' sz sz nt nt ∧
      HoldsOn m' sz sz nt nt W (fun _ _ => True) ∧
      (∀ x < tileStart sz nt, ∀ y < tileStart sz nt, ∑ l ∈ Finset.range (tileStart sz nt),
        triE u d A x l * triE u d W l y = if x = y then 1 else 0) ∧
      ∀ x y, ¬ inTri u d x y → W x y = A x y := by
  cases u with
  | Lower =>
    obtain ⟨m', W, h1, h2, h3, h4⟩ := trinvL_spec hl hn (Has.of hs hA)
    exact ⟨m', W, h1, h2.shaped, h2.holds _, h3, h4⟩
  | Upper =>
    obtain ⟨m1, W, h1, h2, h3, h4⟩ := trinvL_spec (hl.adj hp) hn.adj
      (Has.of hs.adj (hA.adj (sel' := fun _ _ => True) fun _ _ _ => trivial))
    have hsim := trinvU_adj lp d nt m
    rw [h1, Option.map_eq_some_iff] at hsim
    obtain ⟨m', h5, rfl⟩ := hsim
    have h6 := h2.adj
    rw [adjT_adjT] at h6
    refine ⟨m', adjE W, h5, h6.shaped, h6.holds _, ?_, ?_⟩
    · -- a left inverse of a square matrix is a right inverse
      obtain ⟨N, hN⟩ : ∃ N, N = tileStart sz nt := ⟨_, rfl⟩
      rw [← hN] at h3 ⊢
      have e1 : toM N N (triE .Upper d (adjE W)) * toM N N (triE .Upper d A) = 1 := by
        ext i j
        rw [← sum_mul_eq, Matrix.one_apply]
        have := congrArg star (h3 j j.2 i i.2)
        rw [star_sum] at this
        have hst : star (if (j : Nat) = i then (1 : K) else 0) = if i = j then 1 else 0 := by
          by_cases h : (j : Nat) = i
          · rw [if_pos h, if_pos (Fin.ext h.symm), star_one]
          · rw [if_neg h, if_neg (fun e => h (by rw [e])), star_zero]
        rw [hst] at this
        rw [← this]
        refine Finset.sum_congr rfl fun l _ => ?_
        have a1 := triE_adj .Lower d W i l
        have a2 := triE_adj .Upper d A j l
        simp only [Uplo.flip] at a1 a2
        rw [star_mul', a1, a2, star_star, mul_comm]
      have e2 := mul_eq_one_comm.1 e1
      intro x hx y hy
      have := congrFun (congrFun e2 ⟨x, hx⟩) ⟨y, hy⟩
      rw [← sum_mul_eq, Matrix.one_apply] at this
      simp only [Fin.mk.injEq] at this
      exact this
    · intro x y ht
      have := h4 y x ht
      unfold adjE at this ⊢
      rw [this, star_star]

/-- A matrix with the Cholesky factor `F`. -/
theorem herm_of_chol {pos : K → Prop} {N : Nat} {A F : Nat → Nat → K} (h : IsChol pos .Lower N A F) :
    ∀ x < N, ∀ y < N, hermE .Lower A x y =
      ∑ l ∈ Finset.range N, triE .Lower .NonUnit F x l * star (triE .Lower .NonUnit F y l) := by
  have tri : ∀ x y, triE .Lower .NonUnit F x y = if y ≤ x then F x y else 0 := by
    intro x y
    unfold triE
    by_cases hxy : x = y
    · rw [if_pos hxy, if_neg (by simp), if_pos (by omega)]
    · rw [if_neg hxy]
      simp only
      by_cases h : y < x
      · rw [if_pos h, if_pos (by omega)]
      · rw [if_neg h, if_neg (by omega)]
  have key : ∀ x < N, ∀ y ≤ x, A x y =
      ∑ l ∈ Finset.range N, triE .Lower .NonUnit F x l * star (triE .Lower .NonUnit F y l) := by
    intro x hx y hy
    rw [← h.2 x hx y hy]
    have hsub : Finset.range (y + 1) ⊆ Finset.range N := by
      intro z hz; rw [Finset.mem_range] at *; omega
    rw [← Finset.sum_subset hsub]
    · refine Finset.sum_congr rfl fun l hl => ?_
      rw [Finset.mem_range] at hl
      rw [tri, tri, if_pos (by omega), if_pos (by omega)]
    · intro l _ hl
      rw [Finset.mem_range] at hl
      rw [tri y l, if_neg (by omega), star_zero, mul_zero]
  intro x hx y hy
  simp only [hermE]
  by_cases hxy : y ≤ x
  · rw [if_pos hxy]
    exact key x hx y hxy
  · rw [if_neg hxy, key y hy x (by omega), star_sum]
    refine Finset.sum_congr rfl fun l _ => ?_
    rw [star_mul', star_star, mul_comm]

theorem inverse_lower {lp : Lapack K} {pos : K → Prop} (hl : LapackSpec lp pos) (hp : Positive pos)
    {sz : Nat → Nat} {nt : Nat} {m : Tiles K} {A F : Nat → Nat → K}
    (hF : Has m sz sz nt nt F) (hA : IsChol pos .Lower (tileStart sz nt) A F) :
    ∃ m' X, inverse_from_cholesky_factor lp .Lower nt m = some m' ∧ Has m' sz sz nt nt X ∧
      (∀ x < tileStart sz nt, ∀ y < tileStart sz nt,
        ∑ l ∈ Finset.range (tileStart sz nt), hermE .Lower A x l * hermE .Lower X l y = if x = y then 1 else 0) ∧
      (∀ x < tileStart sz nt, ∀ y < tileStart sz nt,
        ∑ l ∈ Finset.range (tileStart sz nt), hermE .Lower X x l * hermE .Lower A l y = if x = y then 1 else 0) ∧
      ∀ x y, x < y → X x y = F x y := by
  have hn : NonsingE .NonUnit (tileStart sz nt) F := Or.inr fun i hi => hp.ne_zero _ (hA.1 i hi)
  obtain ⟨m1, W, h1, h2, h3, h4⟩ := trinvL_spec hl hn hF
  obtain ⟨m2, h5, h6⟩ := assembleL_spec hl h2
  have hAF := herm_of_chol hA
  obtain ⟨N, hN⟩ : ∃ N, N = tileStart sz nt := ⟨_, rfl⟩
  rw [← hN] at h3 h6 hAF ⊢
  obtain ⟨T, hT⟩ : ∃ T, T = toM N N (triE .Lower .NonUnit W) := ⟨_, rfl⟩
  obtain ⟨L, hL⟩ : ∃ L, L = toM N N (triE .Lower .NonUnit F) := ⟨_, rfl⟩
  have e1 : L * T = 1 := by
    ext i j
    rw [hL, hT, ← sum_mul_eq, h3 i i.2 j j.2, Matrix.one_apply]
    simp only [Fin.ext_iff]
  have e2 := mul_eq_one_comm.1 e1
  have eA : toM N N (hermE .Lower A) = L * L.conjTranspose := by
    ext i j
    rw [Matrix.mul_apply, hL]
    show hermE .Lower A i j = _
    rw [hAF i i.2 j j.2, ← Fin.sum_univ_eq_sum_range (fun l => triE .Lower .NonUnit F i l * star (triE .Lower .NonUnit F j l))]
    rfl
  obtain ⟨X, hX⟩ : ∃ X, X = asmMem W N := ⟨_, rfl⟩
  rw [← hX] at h6
  have eX : toM N N (hermE .Lower X) = T.conjTranspose * T := by
    have key : ∀ x < N, ∀ y ≤ x, X x y =
        ∑ l ∈ Finset.range N, star (triE .Lower .NonUnit W l x) * triE .Lower .NonUnit W l y := by
      intro x hx y hy
      rw [hX]
      unfold asmMem
      rw [if_pos ⟨hy, hx⟩]
    ext i j
    rw [Matrix.mul_apply, hT]
    show hermE .Lower X i j = _
    simp only [hermE]
    by_cases hij : (j : Nat) ≤ i
    · rw [if_pos hij, key i i.2 j hij,
        ← Fin.sum_univ_eq_sum_range (fun l => star (triE .Lower .NonUnit W l i) * triE .Lower .NonUnit W l j)]
      rfl
    · rw [if_neg hij, key j j.2 i (by omega), star_sum,
        ← Fin.sum_univ_eq_sum_range (fun l => star (star (triE .Lower .NonUnit W l j) * triE .Lower .NonUnit W l i))]
      refine Finset.sum_congr rfl fun l _ => ?_
      rw [star_mul', star_star, mul_comm]
      rfl
  have p1 : toM N N (hermE .Lower A) * toM N N (hermE .Lower X) = 1 := by
    rw [eA, eX]
    calc L * L.conjTranspose * (T.conjTranspose * T) = L * (T * L).conjTranspose * T := by
          rw [Matrix.conjTranspose_mul]; simp only [Matrix.mul_assoc]
      _ = 1 := by rw [e2, Matrix.conjTranspose_one, Matrix.mul_one, e1]
  have p2 := mul_eq_one_comm.1 p1
  refine ⟨m2, X, ?_, h6, ?_, ?_, ?_⟩
  · show (trinvL lp .NonUnit nt m).bind _ = _
    rw [h1, Option.bind_some, h5]
  · intro x hx y hy
    have := congrFun (congrFun p1 ⟨x, hx⟩) ⟨y, hy⟩
    rw [← sum_mul_eq, Matrix.one_apply] at this
    simp only [Fin.mk.injEq] at this
    exact this
  · intro x hx y hy
    have := congrFun (congrFun p2 ⟨x, hx⟩) ⟨y, hy⟩
    rw [← sum_mul_eq, Matrix.one_apply] at this
    simp only [Fin.mk.injEq] at this
    exact this
  · intro x y hxy
    rw [hX]
    unfold asmMem
    rw [if_neg (by omega)]
    exact h4 x y (by simp only [inTri, and_true]; omega)

/-- C33, inverse from the Cholesky factor: let the `u` triangle of the memory hold the `u` Cholesky factor of `A`.  Then
the call returns, the `u` triangle holds the `u` triangle of the inverse of `A`, and the other triangle is unchanged. -/
theorem C33_inverse_from_cholesky {lp : Lapack K} {pos : K → Prop} (hl : LapackSpec lp pos) (hp : Positive pos)
    (u : Uplo) {sz : Nat → Nat} {nt : Nat} {m : Tiles K} (hs : Shaped m sz sz nt nt) {A F : Nat → Nat → K}
    (hF : HoldsOn m sz sz nt nt F fun _ _ => True) (hA : IsChol pos u (tileStart sz nt) A F) :
    ∃ m' X, inverse_from_cholesky_factor lp u nt m = some m' ∧ Shaped m' sz sz nt nt ∧
      HoldsOn m' sz sz nt nt X (fun _ _ => True) ∧
      (∀ x < tileStart sz nt, ∀ y < tileStart sz nt,
        ∑ l ∈ Finset.range (tileStart sz nt), hermE u A x l * hermE u X l y = if x = y then 1 else 0) ∧
      ∀ x y, ¬ inTri u .NonUnit x y → X x y = F x y := by
  cases u with
  | Lower =>
    obtain ⟨m', X, h1, h2, h3, _, h5⟩ := inverse_lower hl hp (Has.of hs hF) hA
    refine ⟨m', X, h1, h2.shaped, h2.holds _, h3, ?_⟩
    intro x y ht
    exact h5 x y (by simp only [inTri, and_true] at ht; omega)
  | Upper =>
    obtain ⟨m1, X, h1, h2, _, h4, h5⟩ := inverse_lower (hl.adj hp) hp
      (Has.of hs.adj (hF.adj (sel' := fun _ _ => True) fun _ _ _ => trivial)) (hA.adj hp)
    have hsim : (inverse_from_cholesky_factor lp .Upper nt m).map adjT =
        inverse_from_cholesky_factor lp.adj .Lower nt (adjT m) := by
      refine bind_sim adjT (trinvU_adj lp .NonUnit nt m) ?_
      intro s
      exact assembleU_adj lp nt s
    rw [h1, Option.map_eq_some_iff] at hsim
    obtain ⟨m', h6, rfl⟩ := hsim
    have h7 := h2.adj
    rw [adjT_adjT] at h7
    refine ⟨m', adjE X, h6, h7.shaped, h7.holds _, ?_, ?_⟩
    · intro x hx y hy
      have := congrArg star (h4 y hy x hx)
      rw [star_sum] at this
      have hst : star (if y = x then (1 : K) else 0) = if x = y then 1 else 0 := by
        by_cases h : y = x
        · rw [if_pos h, if_pos h.symm, star_one]
        · rw [if_neg h, if_neg (fun e => h e.symm), star_zero]
      rw [hst] at this
      rw [← this]
      refine Finset.sum_congr rfl fun l _ => ?_
      have a1 := hermE_adj .Upper A l x
      have a2 := hermE_adj .Lower X l y
      simp only [Uplo.flip] at a1 a2
      rw [star_mul', a1, a2, star_star, mul_comm]
    · intro x y ht
      have := h5 y x (by simp only [inTri, and_true] at ht; omega)
      unfold adjE at this ⊢
      rw [this, star_star]

/-- C33, end to end: `cholesky_factorization` followed by `inverse_from_cholesky_factor`.  If both return, the triangle
holds the inverse of the Hermitian matrix that was given. -/
theorem C33_factorize_and_invert {lp : Lapack K} {pos : K → Prop} (hl : LapackSpec lp pos) (hp : Positive pos)
    (u : Uplo) {sz : Nat → Nat} {nt : Nat} {m m1 : Tiles K} (hs : Shaped m sz sz nt nt) {A : Nat → Nat → K}
    (hA : HoldsOn m sz sz nt nt A fun _ _ => True) (h1 : cholesky_factorization lp u nt m = some m1) :
    ∃ m' X, inverse_from_cholesky_factor lp u nt m1 = some m' ∧ HoldsOn m' sz sz nt nt X (fun _ _ => True) ∧
      ∀ x < tileStart sz nt, ∀ y < tileStart sz nt,
        ∑ l ∈ Finset.range (tileStart sz nt), hermE u A x l * hermE u X l y = if x = y then 1 else 0 := by
  have hw : ∀ sel, HoldsOn m sz sz nt nt A sel := fun sel i hi j hj r hr c hc _ => hA i hi j hj r hr c hc trivial
  have : Shaped m1 sz sz nt nt ∧ ∃ F, HoldsOn m1 sz sz nt nt F (inTri u .NonUnit) ∧ IsChol pos u (tileStart sz nt) A F := by
    cases u with
    | Lower =>
      obtain ⟨a, ⟨L, b, c⟩, _⟩ := C29_cholesky_lower hl hp hs (hw _) h1
      exact ⟨a, L, fun i hi j hj r hr c hc ht => b i hi j hj r hr c hc (by simp only [inTri, and_true] at ht; omega), c⟩
    | Upper =>
      obtain ⟨a, ⟨L, b, c⟩, _⟩ := C29_cholesky_upper hl hp hs (hw _) h1
      exact ⟨a, L, fun i hi j hj r hr c hc ht => b i hi j hj r hr c hc (by simp only [inTri, and_true] at ht; omega), c⟩
  obtain ⟨s1, F, hF, hC⟩ := this
  obtain ⟨G, hG⟩ : ∃ G, G = elemOf m1 sz sz nt nt := ⟨_, rfl⟩
  have hGh : HoldsOn m1 sz sz nt nt G fun _ _ => True := by rw [hG]; exact elemOf_holds m1 sz sz nt nt _
  have hGF : ∀ x < tileStart sz nt, ∀ y < tileStart sz nt, inTri u .NonUnit x y → G x y = F x y := by
    intro x hx y hy ht
    obtain ⟨i, hi, r, hr, rfl⟩ := exists_tile sz hx
    obtain ⟨j, hj, c, hc, rfl⟩ := exists_tile sz hy
    rw [← hGh i hi j hj r hr c hc trivial, hF i hi j hj r hr c hc ht]
  have hCG : IsChol pos u (tileStart sz nt) A G := by
    refine ⟨?_, ?_⟩
    · intro i hi
      rw [hGF i hi i hi (by cases u <;> simp [inTri])]
      exact hC.1 i hi
    · have h2 := hC.2
      cases u with
      | Lower =>
        intro r hr c hc
        rw [← h2 r hr c hc]
        refine Finset.sum_congr rfl fun l hl' => ?_
        rw [Finset.mem_range] at hl'
        rw [hGF r hr l (by omega) (by simp only [inTri, and_true]; omega), hGF c (by omega) l (by omega) (by simp only [inTri, and_true]; omega)]
      | Upper =>
        intro c hc r hr
        rw [← h2 c hc r hr]
        refine Finset.sum_congr rfl fun l hl' => ?_
        rw [Finset.mem_range] at hl'
        rw [hGF l (by omega) r (by omega) (by simp only [inTri, and_true]; omega), hGF l (by omega) c hc (by simp only [inTri, and_true]; omega)]
  obtain ⟨m', X, g1, _, g3, g4, _⟩ := C33_inverse_from_cholesky hl hp u s1 hGh hCG
  exact ⟨m', X, g1, g3, g4⟩

section example_
private def exSz : Nat → Nat := fun i => if i = 0 then 2 else 1
private def exL : Nat → Nat → ℚ
  | 0, 0 => 1
  | 1, 0 => 2
  | 1, 1 => 3
  | 2, 0 => 4
  | 2, 1 => 5
  | 2, 2 => 6
  | 0, 2 => 9
  | _, _ => 0
private def exA (r c : Nat) : ℚ := ∑ l ∈ Finset.range (min r c + 1), exL r l * exL c l
private def exM : Tiles ℚ := fun z => ⟨exSz z.1, exSz z.2, fun r c => exL (tileStart exSz z.1 + r) (tileStart exSz z.2 + c)⟩
private def exMA : Tiles ℚ := fun z => ⟨exSz z.1, exSz z.2, fun r c => exA (tileStart exSz z.1 + r) (tileStart exSz z.2 + c)⟩

private theorem exChol : IsChol posQ .Lower (tileStart exSz 2) exA exL := by
  rw [show tileStart exSz 2 = 3 from rfl]
  refine ⟨?_, ?_⟩
  · intro i hi
    unfold posQ
    interval_cases i <;> norm_num [exL]
  · intro r _ c hc
    unfold exA
    rw [Nat.min_eq_right hc]
    rfl

private theorem exS {m : Tiles ℚ} (h : m = exM ∨ m = exMA) : Shaped m exSz exSz 2 2 := by
  rcases h with rfl | rfl <;> exact fun _ _ _ _ => ⟨rfl, rfl⟩
private theorem exH : HoldsOn exM exSz exSz 2 2 exL (fun _ _ => True) := fun _ _ _ _ _ _ _ _ _ => rfl
private theorem exN (d : Diag) : NonsingE d (tileStart exSz 2) exL := by
  refine Or.inr ?_
  rw [show tileStart exSz 2 = 3 from rfl]
  intro i hi
  interval_cases i <;> norm_num [exL]

/-- Two tiles of different sizes, both triangles, both kinds of diagonal. -/
example (u : Uplo) (d : Diag) : ∃ m' W, triangular_inverse (lapackOf posQ) u d 2 exM = some m' ∧
    HoldsOn m' exSz exSz 2 2 W (fun _ _ => True) ∧
    ∀ x < 3, ∀ y < 3, ∑ l ∈ Finset.range 3, triE u d exL x l * triE u d W l y = if x = y then 1 else 0 := by
  obtain ⟨m', W, h1, _, h3, h4, _⟩ := C33_triangular_inverse (lapack_spec posQ) positiveQ u d (exS (Or.inl rfl)) exH (exN d)
  exact ⟨m', W, h1, h3, h4⟩

example : ∃ m' X, inverse_from_cholesky_factor (lapackOf posQ) .Lower 2 exM = some m' ∧
    HoldsOn m' exSz exSz 2 2 X (fun _ _ => True) ∧
    (∀ x < 3, ∀ y < 3, ∑ l ∈ Finset.range 3, hermE .Lower exA x l * hermE .Lower X l y = if x = y then 1 else 0) ∧
    X 0 2 = 9 := by
  obtain ⟨m', X, h1, _, h3, h4, h5⟩ :=
    C33_inverse_from_cholesky (lapack_spec posQ) positiveQ .Lower (exS (Or.inl rfl)) exH exChol
  exact ⟨m', X, h1, h3, h4, by rw [h5 0 2 (by simp [inTri])]; rfl⟩

example : ∃ m' X, inverse_from_cholesky_factor (lapackOf posQ) .Upper 2 (adjT exM) = some m' ∧
    HoldsOn m' exSz exSz 2 2 X (fun _ _ => True) ∧
    ∀ x < 3, ∀ y < 3, ∑ l ∈ Finset.range 3, hermE .Upper (adjE exA) x l * hermE .Upper X l y = if x = y then 1 else 0 := by
  obtain ⟨m', X, h1, _, h3, h4, _⟩ :=
    C33_inverse_from_cholesky (lapack_spec posQ) positiveQ .Upper (exS (Or.inl rfl)).adj
      (exH.adj (sel' := fun _ _ => True) fun _ _ _ => trivial) (exChol.adj positiveQ)
  exact ⟨m', X, h1, h3, h4⟩

example : ∃ m1 m' X, cholesky_factorization (lapackOf posQ) .Lower 2 exMA = some m1 ∧
    inverse_from_cholesky_factor (lapackOf posQ) .Lower 2 m1 = some m' ∧
    HoldsOn m' exSz exSz 2 2 X (fun _ _ => True) ∧
    ∀ x < 3, ∀ y < 3, ∑ l ∈ Finset.range 3, hermE .Lower exA x l * hermE .Lower X l y = if x = y then 1 else 0 := by
  have hA : ∀ sel, HoldsOn exMA exSz exSz 2 2 exA sel := fun _ _ _ _ _ _ _ _ _ _ => rfl
  obtain ⟨m1, h1, _⟩ := C29_cholesky_lower_succeeds (lapack_spec posQ) positiveQ (exS (Or.inr rfl)) (hA _) exChol
  obtain ⟨m', X, h2, h3, h4⟩ := C33_factorize_and_invert (lapack_spec posQ) positiveQ .Lower (exS (Or.inr rfl)) (hA _) h1
  exact ⟨m1, m', X, h1, h2, h3, h4⟩
end example_

end DLAF
