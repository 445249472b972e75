import Verif.Lemmas.DcLeaf
import Verif.Lemmas.Weyl
import Verif.Lemmas.DcSmall
import Verif.Props.Eigensolver
import Verif.Props.Rank1
/- C53: the divide and conquer eigensolver for symmetric tridiagonal matrices (local memory), and the eigensolver with it. -/
namespace DLAF
open scoped Classical
open scoped Matrix.Norms.L2Operator
open Matrix

/-- C53: for every symmetric tridiagonal matrix `T` (entries bounded by `A`, `E`), tile size and content of the memory the solver returns
ascending eigenvalues, an orthogonal matrix `Z` of eigenvectors, with `‖T Z - Z diag(lambda)‖` (operator norm) bounded by the tolerances of
the merges, of which there are at most `⌈log2⌉` of the number of tiles one inside the other; and the eigenvalues differ by at most as
much from those of `T`. -/
theorem C53_solves {P : DcPar} (he : 0 ≤ P.eps) (h4 : Laed4Spec P.laed4) (hst : StedcSpec P.stedc) (hav : 0 < P.avail) (w : DcSt) {m nb : Nat}
    (hm : 0 < m) (hnb : 0 < nb) {d e : Nat → ℝ} {A E : ℝ} (hA : ∀ i < m, |d i| ≤ A) (hE : ∀ i, i + 1 < m → |e i| ≤ E) :
    ∃ lam Z, dcSolve P w m nb d e = some (lam, Z) ∧ (∀ i j, i ≤ j → j < m → lam i ≤ lam j) ∧ (toM m m Z).transpose * toM m m Z = 1 ∧
      ‖(triM m d e : Matrix (Fin m) (Fin m) ℝ) * toM m m Z - toM m m Z * diagonal (fun i : Fin m => lam i)‖ ≤
        max 1 (A + 4 * E) * ((1 + 32 * m * P.eps) ^ Nat.clog 2 (ceilDivN m nb) - 1) ∧
      ∀ (V : Matrix (Fin m) (Fin m) ℝ) (mu : Fin m → ℝ), V.transpose * V = 1 → triM m d e * V = V * diagonal mu → (∀ i j, i ≤ j → mu i ≤ mu j) →
        ∀ i : Fin m, |lam i - mu i| ≤ max 1 (A + 4 * E) * ((1 + 32 * m * P.eps) ^ Nat.clog 2 (ceilDivN m nb) - 1) := by
  obtain ⟨lam, Z, h1, h2, h3, h5⟩ := dc_ok he h4 hst hav w hm hnb hA hE
  refine ⟨lam, Z, h1, h2, h3, h5, fun V mu hV hT hmu i => ?_⟩
  rw [← star_eq_transpose] at hV h3
  exact weyl (K := ℝ) (lam := fun i : Fin m => lam i) hV h3 hT h5 hmu (fun i j hij => h2 i j hij j.2) i

/-- C53: with an exact arithmetic (`eps = 0`) the solver satisfies the contract that the Hermitian eigensolver (C49, C50) relies on. -/
theorem C53_exact {P : DcPar} (he : P.eps = 0) (h4 : Laed4Spec P.laed4) (hst : StedcSpec P.stedc) (hav : 0 < P.avail) (w : DcSt) :
    TridiagSpec (dcSolve P w) := by
  intro n nb d e hn hnb
  have hb : ∀ (f : Nat → ℝ) (k : Nat), ∀ i < k, |f i| ≤ ∑ j ∈ Finset.range k, |f j| := fun f k i hi =>
    Finset.single_le_sum (f := fun j => |f j|) (fun j _ => abs_nonneg (f j)) (Finset.mem_range.2 hi)
  obtain ⟨lam, Z, h1, h2, h3, h5⟩ := dc_ok (le_of_eq he.symm) h4 hst hav w hn hnb (hb d n) (fun i hi => hb e n i (by omega))
  refine ⟨lam, Z, h1, h2, h3, ?_⟩
  rw [he] at h5
  simp only [mul_zero, add_zero, one_pow, sub_self] at h5
  rw [diagM_real]
  exact sub_eq_zero.1 (norm_eq_zero.1 (le_antisymm h5 (norm_nonneg _)))

/-- Columns of a real matrix over `K`. -/
theorem cols_mul {K : Type*} [RCLike K] {n k : Nat} (hk : k ≤ n) (Z : Nat → Nat → ℝ) :
    ∃ C : Matrix (Fin n) (Fin k) K, C.conjTranspose * C = 1 ∧
      toM n k (fun x y => ((Z x y : ℝ) : K)) = (toM n n Z).map ((↑) : ℝ → K) * C ∧
      ∀ lam : Nat → ℝ, (diagM n lam : Matrix (Fin n) (Fin n) K) * C = C * diagM k lam := by
  refine ⟨(1 : Matrix (Fin n) (Fin n) K).submatrix id (Fin.castLE hk), ?_, ?_, ?_⟩
  · ext x y
    rw [Matrix.mul_apply, Matrix.one_apply]
    simp only [Matrix.conjTranspose_apply, Matrix.submatrix_apply, id_eq, Matrix.one_apply]
    rw [Finset.sum_eq_single (Fin.castLE hk x)]
    · simp
    · intro b _ hb
      simp [hb]
    · simp
  · ext x y
    rw [Matrix.mul_apply]
    simp only [Matrix.submatrix_apply, id_eq, Matrix.one_apply, mul_ite, mul_one, mul_zero, Finset.sum_ite_eq', Finset.mem_univ, if_true,
      Matrix.map_apply, toM]
    rfl
  · intro lam
    ext x y
    simp only [diagM, Matrix.diagonal_mul, Matrix.mul_diagonal, Matrix.submatrix_apply, id_eq, Matrix.one_apply]
    split
    · next h => rw [h]; simp
    · simp

/-- C53: the Hermitian eigensolver with this tridiagonal eigensolver: for every Hermitian matrix (given by its lower triangle), number
of requested eigenvectors and schedule, the eigenvectors returned are orthonormal, the residual is bounded by the tolerances of the merges
relative to the norm of the matrix (or to 1, if that is larger), and the eigenvalues are ascending and differ by at most as much from the
eigenvalues of the matrix. -/
theorem C53_eigensolver {K : Type*} [RCLike K] {E : EigEnv K} {mat evals evecs : MShape} {ibegin iend : Int} {P : DcPar} {w : DcSt}
    (hE : E.Good) (hpre : eigPre mat evals evecs ibegin iend) (hc : evals.cols = 1)
    (hnb : 2 ≤ mat.brows) (hn : 0 < mat.rows) (he : 0 ≤ P.eps) (h4 : Laed4Spec P.laed4) (hst : StedcSpec P.stedc) (hav : 0 < P.avail)
    (htri : E.tri = dcSolve P w) (s : EigSt K) (hA : ∀ x < mat.rows, star (s.a x x) = s.a x x) {o : Option (EigSt K)}
    (ho : hermEig E .Lower mat evals evecs ibegin iend s o) :
    ∃ s', o = some s' ∧
      let V : Matrix (Fin mat.rows) (Fin iend.toNat) K := toM mat.rows iend.toNat s'.evecs
      let δ := max 1 (5 * ‖hermM mat.rows s.a‖) * ((1 + 32 * mat.rows * P.eps) ^ Nat.clog 2 (ceilDivN mat.rows mat.brows) - 1)
      V.conjTranspose * V = 1 ∧ ‖hermM mat.rows s.a * V - V * diagM iend.toNat s'.evals‖ ≤ δ ∧
      (∀ i j, i ≤ j → j < mat.rows → s'.evals i ≤ s'.evals j) ∧
      ∀ (U : Matrix (Fin mat.rows) (Fin mat.rows) K) (mu : Fin mat.rows → ℝ), U.conjTranspose * U = 1 →
        hermM mat.rows s.a * U = U * diagonal (fun i => (mu i : K)) → (∀ i j, i ≤ j → mu i ≤ mu j) →
        ∀ i : Fin mat.rows, |s'.evals i - mu i| ≤ δ := by
  have hb : ∀ (f : Nat → ℝ) (k : Nat), ∀ i < k, |f i| ≤ ∑ j ∈ Finset.range k, |f j| := fun f k i hi =>
    Finset.single_le_sum (f := fun j => |f j|) (fun j _ => abs_nonneg (f j)) (Finset.mem_range.2 hi)
  obtain ⟨s', d, e, lam, Z, Q, h1, h2, h3, h5, h6, h7, -⟩ := C49_stages hE hpre hc hnb hn (fun d e => by
    obtain ⟨lam, Z, h, -⟩ := dc_ok he h4 hst hav w hn (show 0 < mat.brows by omega) (hb d mat.rows) (fun i hi => hb e mat.rows i (by omega))
    rw [htri]
    exact ⟨_, h⟩) s hA ho
  -- entries of the tridiagonal matrix
  have hQ' : Q * Q.conjTranspose = 1 := mul_eq_one_comm.1 h3
  have hQt : Q.conjTranspose.conjTranspose * Q.conjTranspose = 1 := by rw [Matrix.conjTranspose_conjTranspose]; exact hQ'
  have hTn : ‖(triM mat.rows d e : Matrix (Fin mat.rows) (Fin mat.rows) K)‖ ≤ ‖hermM mat.rows s.a‖ := by
    rw [h5]
    exact (knorm_mul_unit _ h3).trans (knorm_unit_mul _ hQt)
  have hd : ∀ i < mat.rows, |d i| ≤ ‖hermM mat.rows s.a‖ := by
    intro i hi
    have := (kentry_le (triM mat.rows d e : Matrix (Fin mat.rows) (Fin mat.rows) K) ⟨i, hi⟩ ⟨i, hi⟩).trans hTn
    simp only [triM, if_true, RCLike.norm_ofReal] at this
    exact this
  have he' : ∀ i, i + 1 < mat.rows → |e i| ≤ ‖hermM mat.rows s.a‖ := by
    intro i hi
    have := (kentry_le (triM mat.rows d e : Matrix (Fin mat.rows) (Fin mat.rows) K) ⟨i + 1, hi⟩ ⟨i, by omega⟩).trans hTn
    simp only [triM] at this
    rw [if_neg (by omega), if_pos trivial, RCLike.norm_ofReal] at this
    exact this
  obtain ⟨lam', Z', g1, g2, g3, g4⟩ := dc_ok he h4 hst hav w hn (show 0 < mat.brows by omega) hd he'
  rw [htri] at h2
  obtain ⟨rfl, rfl⟩ : lam' = lam ∧ Z' = Z := by
    rw [h2] at g1
    simpa [eq_comm] using g1
  rw [show ‖hermM mat.rows s.a‖ + 4 * ‖hermM mat.rows s.a‖ = 5 * ‖hermM mat.rows s.a‖ by ring] at g4
  refine ⟨s', h1, ?_⟩
  dsimp only
  obtain ⟨δ, hδ⟩ : ∃ δ, δ = max 1 (5 * ‖hermM mat.rows s.a‖) * ((1 + 32 * mat.rows * P.eps) ^ Nat.clog 2 (ceilDivN mat.rows mat.brows) - 1) := ⟨_, rfl⟩
  rw [← hδ] at g4 ⊢
  have hk : iend.toNat ≤ mat.rows := by
    have := hpre.2.2.2.2.2.2.2.2.2.2.2.2.2.2.2.2
    omega
  have hdiag : ∀ k, k ≤ mat.rows → (diagM k s'.evals : Matrix _ _ K) = diagM k lam' := by
    intro k hk
    unfold diagM
    congr 1
    funext i
    rw [h7 i (by omega)]
  -- the square problem over `K`
  have m1 : ((toM mat.rows mat.rows Z').map ((↑) : ℝ → K)).conjTranspose * (toM mat.rows mat.rows Z').map ((↑) : ℝ → K) = 1 := by
    have h : ((toM mat.rows mat.rows Z').map ((↑) : ℝ → K)).conjTranspose = ((toM mat.rows mat.rows Z').transpose).map ((↑) : ℝ → K) := by
      ext x y
      simp
    have hm : ∀ X Y : Matrix (Fin mat.rows) (Fin mat.rows) ℝ, X.map ((↑) : ℝ → K) * Y.map ((↑) : ℝ → K) = (X * Y).map ((↑) : ℝ → K) :=
      fun X Y => (Matrix.map_mul (f := algebraMap ℝ K)).symm
    rw [h, hm, g3]
    exact Matrix.map_one _ RCLike.ofReal_zero RCLike.ofReal_one
  have m2 : ‖(triM mat.rows d e : Matrix (Fin mat.rows) (Fin mat.rows) K) * (toM mat.rows mat.rows Z').map ((↑) : ℝ → K) -
      (toM mat.rows mat.rows Z').map ((↑) : ℝ → K) * diagM mat.rows lam'‖ ≤ δ := by
    have := knorm_ofReal (K := K) g4
    have hm : ∀ X Y : Matrix (Fin mat.rows) (Fin mat.rows) ℝ, (X * Y).map ((↑) : ℝ → K) = X.map ((↑) : ℝ → K) * Y.map ((↑) : ℝ → K) :=
      fun X Y => (Matrix.map_mul (f := algebraMap ℝ K))
    have ht : (triM mat.rows d e : Matrix (Fin mat.rows) (Fin mat.rows) ℝ).map ((↑) : ℝ → K) = triM mat.rows d e := by
      ext x y
      simp only [Matrix.map_apply, triM]
      split
      · simp
      · split
        · simp
        · split <;> simp
    have hdg : (diagonal (fun i : Fin mat.rows => lam' i) : Matrix _ _ ℝ).map ((↑) : ℝ → K) = diagM mat.rows lam' := by
      unfold diagM
      rw [Matrix.diagonal_map RCLike.ofReal_zero]
    rw [Matrix.map_sub _ (fun a b => RCLike.ofReal_sub a b), hm, hm, ht, hdg] at this
    exact this
  obtain ⟨C, c1, c2, c3⟩ := cols_mul (K := K) hk Z'
  obtain ⟨Y, hY⟩ : ∃ Y, Y = (toM mat.rows mat.rows Z').map ((↑) : ℝ → K) := ⟨_, rfl⟩
  rw [← hY] at m1 m2 c2
  rw [c2] at h6
  have hres : hermM mat.rows s.a * (Q * Y) - Q * Y * diagM mat.rows lam' = Q * (triM mat.rows d e * Y - Y * diagM mat.rows lam') := by
    rw [Matrix.mul_sub, h5]
    simp only [← Matrix.mul_assoc]
    rw [hQ', Matrix.one_mul]
  have hr1 : ‖hermM mat.rows s.a * (Q * Y) - Q * Y * diagM mat.rows lam'‖ ≤ δ := by
    rw [hres]
    exact (knorm_unit_mul _ h3).trans m2
  have hQY : (Q * Y).conjTranspose * (Q * Y) = 1 := by
    rw [Matrix.conjTranspose_mul, Matrix.mul_assoc, ← Matrix.mul_assoc Q.conjTranspose, h3, Matrix.one_mul, m1]
  refine ⟨?_, ?_, ?_, ?_⟩
  · rw [h6, ← Matrix.mul_assoc Q Y C, Matrix.conjTranspose_mul (Q * Y) C, Matrix.mul_assoc C.conjTranspose,
      ← Matrix.mul_assoc (Q * Y).conjTranspose, hQY, Matrix.one_mul, c1]
  · rw [hdiag _ hk, h6]
    have : hermM mat.rows s.a * (Q * (Y * C)) - Q * (Y * C) * diagM iend.toNat lam' =
        (hermM mat.rows s.a * (Q * Y) - Q * Y * diagM mat.rows lam') * C := by
      rw [Matrix.sub_mul, Matrix.mul_assoc (Q * Y), c3]
      simp only [Matrix.mul_assoc]
    rw [this]
    exact (knorm_mul_unit _ c1).trans hr1
  · intro i j hij hj
    rw [h7 i (by omega), h7 j hj]
    exact g2 i j hij hj
  · intro U mu hU hT hmu i
    rw [h7 i i.2]
    exact weyl (lam := fun i : Fin mat.rows => lam' i) hU hQY hT hr1 hmu (fun i j hij => g2 i j hij j.2) i

/-- LAPACK's contract for `stedc` can be met. -/
noncomputable def stedcStd (n : Nat) (d e : Nat → ℝ) : (Nat → ℝ) × (Nat → Nat → ℝ) := ((triStd n 1 d e).getD (fun _ => 0, fun _ _ => 0))

/-- C53: the contracts of the LAPACK functions can be met (`laed4`: C51_laed4). -/
theorem C53_stedc : StedcSpec stedcStd := by
  intro n d e hn
  obtain ⟨lam, Z, h1, h2⟩ := triStd_spec n 1 d e hn (by omega)
  have : stedcStd n d e = (lam, Z) := by unfold stedcStd; rw [h1]; rfl
  rw [this]
  exact h2

/- Non-vacuity: order 7, tiles of 2, three merges (the first with a tile of order 1), and everything unspecified filled with values. -/
/-- Part of the example. -/
noncomputable def dcExample (eps : ℝ) : DcPar := ⟨laed4Std, stedcStd, eps, 3, fun _ _ => 7⟩
/-- Part of the example. -/
noncomputable def dcExampleWs : DcSt :=
  ⟨fun _ => 1, fun _ => 2, fun _ => 3, fun _ => 4, fun _ => .Dense, fun _ => 5, fun _ => 6, fun _ => 7, fun _ => 8, fun _ => 9, fun _ _ => 1,
    fun _ _ => 2, fun _ _ => 3⟩

/-- C53 (finding F26): the tolerance is not relative to the matrix, which is not scaled: for the matrix `[[0, a], [a, 0]]`, tile size 1 and every
`0 < a ≤ 4 eps` the solver returns the eigenvalues `-a` and `0`, whereas they are `-a` and `a`: an error of `‖T‖`, however
small `eps` is.  (So the factor `max 1 (...)` in C53_solves cannot be replaced by the norm of the matrix.) -/
theorem C53_small_matrix_wrong {P : DcPar} (h4 : Laed4Spec P.laed4) (hst : StedcSpec P.stedc) (hav : 0 < P.avail) (w : DcSt)
    {a : ℝ} (ha : 0 < a) (hle : a ≤ 4 * P.eps) :
    (∃ lam Z, dcSolve P w 2 1 (fun _ => 0) (fun _ => a) = some (lam, Z) ∧ lam 0 = -a ∧ lam 1 = 0) ∧
    ∃ V : Matrix (Fin 2) (Fin 2) ℝ, V.transpose * V = 1 ∧ triM 2 (fun _ => 0) (fun _ => a) * V = V * diagonal ![-a, a] := by
  constructor
  · obtain ⟨lam, Z, h, -⟩ := dc_ok (P := P) (by linarith) h4 hst hav w (m := 2) (nb := 1) (by omega) (by omega) (d := fun _ => 0) (e := fun _ => a)
      (A := 0) (E := a) (fun _ _ => by simp) (fun _ _ => (abs_of_pos ha).le)
    exact ⟨lam, Z, h, small_run h4 hst hav w ha hle h⟩
  · refine ⟨!![1 / Real.sqrt 2, 1 / Real.sqrt 2; -(1 / Real.sqrt 2), 1 / Real.sqrt 2], ?_, ?_⟩
    · have h2 : (1 / Real.sqrt 2) * (1 / Real.sqrt 2) = 1 / 2 := by
        rw [div_mul_div_comm, Real.mul_self_sqrt (by norm_num)]
        norm_num
      ext x y
      fin_cases x <;> fin_cases y <;> simp [Matrix.mul_apply, Fin.sum_univ_two] <;> simp only [one_div] at h2 <;> linarith
    · ext x y
      fin_cases x <;> fin_cases y <;> simp [Matrix.mul_apply, Fin.sum_univ_two, triM, Matrix.mul_diagonal] <;> ring

example : ∃ lam Z, dcSolve (dcExample (1 / 1000)) dcExampleWs 2 1 (fun _ => 0) (fun _ => 1 / 1000) = some (lam, Z) ∧ lam 0 = -(1 / 1000) ∧ lam 1 = 0 :=
  (C53_small_matrix_wrong (P := dcExample (1 / 1000)) laed4Std_spec C53_stedc (by simp [dcExample]) dcExampleWs (a := 1 / 1000) (by norm_num)
    (by simp only [dcExample]; norm_num)).1

example : ∃ lam Z, dcSolve (dcExample (1 / 1000)) dcExampleWs 7 2 (fun i => i) (fun i => 1 - (i : ℝ)) = some (lam, Z) ∧
    (∀ i j, i ≤ j → j < 7 → lam i ≤ lam j) ∧ (toM 7 7 Z).transpose * toM 7 7 Z = 1 ∧
    ‖(triM 7 (fun i => i) (fun i => 1 - (i : ℝ)) : Matrix (Fin 7) (Fin 7) ℝ) * toM 7 7 Z - toM 7 7 Z * diagonal (fun i : Fin 7 => lam i)‖ ≤ 22 := by
  obtain ⟨lam, Z, h1, h2, h3, h5, -⟩ := C53_solves (P := dcExample (1 / 1000)) (by simp [dcExample]) laed4Std_spec C53_stedc (by simp [dcExample])
    dcExampleWs (m := 7) (nb := 2) (by omega) (by omega) (d := fun i => i) (e := fun i => 1 - (i : ℝ)) (A := 6) (E := 4)
    (fun i hi => by
      have : (i : ℝ) ≤ 6 := by exact_mod_cast (show i ≤ 6 by omega)
      rw [abs_of_nonneg (by positivity)]
      exact this)
    (fun i hi => by
      have : (i : ℝ) ≤ 5 := by exact_mod_cast (show i ≤ 5 by omega)
      have : (0 : ℝ) ≤ i := by positivity
      rw [abs_le]
      constructor <;> linarith)
  refine ⟨lam, Z, h1, h2, h3, h5.trans ?_⟩
  have : Nat.clog 2 (ceilDivN 7 2) = 2 := by
    rw [show ceilDivN 7 2 = 4 by decide, Nat.clog_of_two_le (by omega) (by omega), show (4 + 2 - 1) / 2 = 2 by decide,
      Nat.clog_of_two_le (by omega) (by omega)]
    rfl
  rw [this]
  have : (max 1 (6 + 4 * 4) : ℝ) = 22 := by norm_num
  rw [this]
  simp only [dcExample]
  norm_num

example : ∃ s', hermEig { eigExample with tri := dcSolve (dcExample 0) dcExampleWs } .Lower eigExampleMat eigExampleVals eigExampleMat 0 3
    eigExampleIn (some s') ∧
    (toM 7 3 s'.evecs : Matrix (Fin 7) (Fin 3) ℂ).conjTranspose * toM 7 3 s'.evecs = 1 := by
  have hg : ({ eigExample with tri := dcSolve (dcExample 0) dcExampleWs } : EigEnv ℂ).Good := ⟨eigExample_good.bmin, eigExample_good.availT,
    eigExample_good.availP, eigExample_good.sign, eigExample_good.larfg, eigExample_good.threads, eigExample_good.larft, eigExample_good.group,
    eigExample_good.availBt, eigExample_good.real⟩
  obtain ⟨o, ho⟩ := C49_outcome_exists (mat := eigExampleMat) (evals := eigExampleVals) (evecs := eigExampleMat) (ibegin := 0) (iend := 3) hg eigExampleIn .Lower
  have hpre : eigPre eigExampleMat eigExampleVals eigExampleMat 0 3 := by
    refine ⟨rfl, rfl, rfl, rfl, ⟨rfl, rfl⟩, rfl, rfl, ⟨rfl, rfl⟩, rfl, ⟨rfl, rfl⟩, rfl, ⟨rfl, rfl⟩, rfl, ⟨rfl, rfl⟩, rfl, by decide, by decide⟩
  obtain ⟨s', h1, h2, -⟩ := C53_eigensolver (P := dcExample 0) (w := dcExampleWs) hg hpre rfl (by decide) (by decide) (le_refl _) laed4Std_spec
    C53_stedc (by simp [dcExample]) rfl eigExampleIn (fun x _ => by simp [eigExampleIn]) ho
  subst h1
  exact ⟨s', ho, h2⟩

end DLAF
