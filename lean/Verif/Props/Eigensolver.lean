import Verif.Spec.Eigensolver
import Verif.Props.RedBand
import Verif.Props.BtRedBand
import Verif.Props.BandTridiag
import Verif.Props.BtBandTridiag
import Verif.Props.BandSize
import Verif.Lemmas.SpectralExists
/- C49: the Hermitian eigensolver (local memory). -/
namespace DLAF
open Sem
open scoped Classical
variable {K : Type*} [RCLike K] {E : EigEnv K} {mat evals evecs : MShape} {ibegin iend : Int}

/-- The band width chosen is at least 2 and divides the tile size, if the tile size is at least 2. -/
theorem band_choice {bmin : Int} {nb : Nat} (hb : 2 ≤ bmin) (hn : 2 ≤ nb) :
    ∃ b : Int, getBandSize bmin nb = some b ∧ 2 ≤ b.toNat ∧ nb % b.toNat = 0 := by
  obtain ⟨b, hb'⟩ := Option.isSome_iff_exists.1 ((C37.C37_band_size_accepts bmin nb).2 ⟨by omega, hb⟩)
  obtain ⟨h1, h2, h3, h4, h5⟩ := C37.C37_band_size hb'
  refine ⟨b, hb', ?_, ?_⟩
  · by_cases h : (nb : Int) < bmin
    · have := h4 h; omega
    · have := (h5 (by omega)).1; omega
  · obtain ⟨c, rfl⟩ : ∃ c : Nat, b = c := ⟨b.toNat, by omega⟩
    rw [Int.toNat_natCast]
    exact Nat.mod_eq_zero_of_dvd (Int.natCast_dvd_natCast.1 h1)

/-- C49: for every matrix, all schedules and all previous contents of the work spaces: no stage fails and no schedule gets stuck; the
tridiagonal matrix given to the tridiagonal eigensolver is unitarily similar to `A`, by the same unitary `Q` that is then applied to
its eigenvectors; nothing outside of the lower triangle of `A`, the eigenvalues and the eigenvectors changes. -/
theorem C49_stages (hE : E.Good) (hpre : eigPre mat evals evecs ibegin iend) (hc : evals.cols = 1) (hnb : 2 ≤ mat.brows)
    (hn : 0 < mat.rows) (htri : ∀ d e, ∃ r, E.tri mat.rows mat.brows d e = some r) (s : EigSt K)
    (hA : ∀ x < mat.rows, star (s.a x x) = s.a x x) {o : Option (EigSt K)} (ho : hermEig E .Lower mat evals evecs ibegin iend s o) :
    ∃ s' d e lam Z, ∃ Q : Matrix (Fin mat.rows) (Fin mat.rows) K, o = some s' ∧ E.tri mat.rows mat.brows d e = some (lam, Z) ∧
      Q.conjTranspose * Q = 1 ∧ triM mat.rows d e = Q.conjTranspose * hermM mat.rows s.a * Q ∧
      toM mat.rows iend.toNat s'.evecs = Q * toM mat.rows iend.toNat (fun x y => ((Z x y : ℝ) : K)) ∧
      (∀ i < mat.rows, s'.evals i = lam i) ∧ (∀ i, mat.rows ≤ i → s'.evals i = s.evals i) ∧
      (∀ x y, ¬ (x < mat.rows ∧ y < mat.rows) → s'.evecs x y = s.evecs x y) ∧
      ∀ x y, ¬ (y ≤ x ∧ x < mat.rows) → s'.a x y = s.a x y := by
  obtain ⟨b, hb, hb2, hbd⟩ := band_choice hE.bmin hnb
  unfold hermEig at ho
  rw [if_neg (fun h => h hpre), hb] at ho
  dsimp only at ho
  rw [if_neg (fun h => h rfl)] at ho
  obtain ⟨A', taus, e1, e2, e3, e4, -⟩ := C46_reduction_to_band hE.availT hE.availP hE.sign hb2 (by omega) hbd s.a E.taus0 hA
  rw [e1] at ho
  dsimp only at ho
  obtain ⟨o1, h1, h2⟩ := ho
  have ok : bandOK (⟨E.larfg, mat.rows, mat.brows, b.toNat, E.cplx, E.threads, A'⟩ : BtEnv K) := ⟨hbd, hb2⟩
  unfold bandOutcome at h1
  dsimp only at h1
  rw [if_neg (fun h => h ok), if_neg (show ¬ mat.rows = 0 by omega)] at h1
  obtain ⟨k, l, hs, hk⟩ := h1
  have hA' : ∀ x < mat.rows, star (A' x x) = A' x x := by
    intro x hx
    have h3 := conj_conj (P := reflectorProd mat.rows (storedRefl b.toNat A') taus (mat.rows - b.toNat - 1)) (hermM_conj hA)
    rw [← e3] at h3
    have h4 := congrFun (congrFun h3 ⟨x, hx⟩) ⟨x, hx⟩
    rw [Matrix.conjTranspose_apply] at h4
    simp only [hermM, lowE, bandLow_diag, Nat.le_refl, if_true] at h4
    exact h4
  rcases hk with ⟨hd, rfl⟩ | ⟨⟨hd, hst⟩, -⟩
  swap
  · obtain ⟨s', -, h3, -⟩ := C47_every_schedule ok (show 0 < mat.brows by omega) hn hE.threads E.mem0
    exact absurd (h3 k l hs) (fun h => h.elim hd hst)
  dsimp only at h2
  obtain ⟨t1, t2⟩ := C47_tridiagonal ok (show 0 < mat.brows by omega) hn hE.threads hE.larfg hA' hE.real E.mem0 hs hd
  dsimp only at t1 t2
  obtain ⟨⟨lam, Z⟩, hr⟩ := htri k.s.d k.s.e
  unfold triStage at h2
  rw [if_neg (fun h => h hc), if_neg (show ¬ mat.rows = 0 by omega), hr] at h2
  simp only [Option.map_some, Option.bind_some, btStages] at h2
  have hm : iend.toNat ≤ mat.rows := by
    have := hpre.2.2.2.2.2.2.2.2.2.2.2.2.2.2.2.2
    omega
  obtain ⟨c1, f1, f2, f3⟩ := C48_back_transformation (E := { E.t2b with cplx := E.cplx }) (n := mat.rows) (m := iend.toNat)
    (nb := mat.brows) (nbe := mat.brows) (b := b.toNat) hE.larft hE.group (by omega) hb2 hbd k.s.refl
    (fun x y => if x < mat.rows ∧ y < mat.rows then ((Z x y : ℝ) : K) else s.evecs x y)
  obtain ⟨c2, g1, g2, g3⟩ := C45_bt_reduction_to_band (avail := E.availBt) (n := mat.rows) (ncols := iend.toNat) (mb := mat.brows)
    (nbc := mat.brows) (b := b.toNat) hE.availBt (by omega) (by omega) E.junkBt A' taus c1
  rw [f1] at h2
  simp only [Option.bind_eq_bind, Option.bind_some] at h2
  rw [g1] at h2
  simp only [Option.bind_some] at h2
  refine ⟨_, k.s.d, k.s.e, lam, Z, reflectorProd mat.rows (storedRefl b.toNat A') taus (mat.rows - b.toNat - 1) *
    hhQ E.cplx mat.rows b.toNat k.s.refl, h2, hr, ?_, ?_, ?_, ?_, ?_, ?_, ?_⟩
  · rw [Matrix.conjTranspose_mul, Matrix.mul_assoc,
      ← Matrix.mul_assoc (reflectorProd mat.rows (storedRefl b.toNat A') taus (mat.rows - b.toNat - 1)).conjTranspose, e2,
      Matrix.one_mul, t2]
  · rw [t1, e3, Matrix.conjTranspose_mul]
    simp only [Matrix.mul_assoc]
  · show toM mat.rows iend.toNat c2 = _
    rw [g2, f2, ← Matrix.mul_assoc]
    congr 1
    ext x y
    show (if (x : Nat) < mat.rows ∧ (y : Nat) < mat.rows then ((Z x y : ℝ) : K) else s.evecs x y) = ((Z x y : ℝ) : K)
    rw [if_pos ⟨x.2, by omega⟩]
  · intro i hi
    show (if i < mat.rows then lam i else s.evals i) = _
    rw [if_pos hi]
  · intro i hi
    show (if i < mat.rows then lam i else s.evals i) = _
    rw [if_neg (by omega)]
  · intro x y h
    show c2 x y = _
    rw [g3 x y (by omega), f3 x y (by omega), if_neg h]
  · exact e4

/-- C49: accuracy.  Whatever accuracy the tridiagonal eigensolver has, the call keeps it: the Gram matrix of the residuals
`A v - lambda v`, and hence the norm of each of them and every unitarily invariant norm, is that of the tridiagonal problem, and so are
the scalar products of the eigenvectors. -/
theorem C49_residual (hE : E.Good) (hpre : eigPre mat evals evecs ibegin iend) (hc : evals.cols = 1) (hnb : 2 ≤ mat.brows)
    (hn : 0 < mat.rows) (htri : ∀ d e, ∃ r, E.tri mat.rows mat.brows d e = some r) (s : EigSt K)
    (hA : ∀ x < mat.rows, star (s.a x x) = s.a x x) {o : Option (EigSt K)} (ho : hermEig E .Lower mat evals evecs ibegin iend s o) :
    ∃ s' d e lam Z, o = some s' ∧ E.tri mat.rows mat.brows d e = some (lam, Z) ∧
      let V : Matrix (Fin mat.rows) (Fin iend.toNat) K := toM mat.rows iend.toNat s'.evecs
      let Y : Matrix (Fin mat.rows) (Fin iend.toNat) K := toM mat.rows iend.toNat (fun x y => ((Z x y : ℝ) : K))
      let R := hermM mat.rows s.a * V - V * diagM iend.toNat s'.evals
      let S : Matrix (Fin mat.rows) (Fin iend.toNat) K := triM mat.rows d e * Y - Y * diagM iend.toNat lam
      R.conjTranspose * R = S.conjTranspose * S ∧ V.conjTranspose * V = Y.conjTranspose * Y := by
  obtain ⟨s', d, e, lam, Z, Q, h1, h2, h3, h4, h5, h6, -⟩ := C49_stages hE hpre hc hnb hn htri s hA ho
  refine ⟨s', d, e, lam, Z, h1, h2, ?_⟩
  dsimp only
  have hm : iend.toNat ≤ mat.rows := by
    have := hpre.2.2.2.2.2.2.2.2.2.2.2.2.2.2.2.2
    omega
  have hdiag : (diagM iend.toNat s'.evals : Matrix _ _ K) = diagM iend.toNat lam := by
    unfold diagM
    congr 1
    funext i
    rw [h6 i (by omega)]
  rw [hdiag, h5]
  generalize (toM mat.rows iend.toNat fun x y => ((Z x y : ℝ) : K)) = Y
  have h7 := mul_eq_one_comm.1 h3
  have hR : hermM mat.rows s.a * (Q * Y) - Q * Y * diagM iend.toNat lam =
      Q * (triM mat.rows d e * Y - Y * diagM iend.toNat lam) := by
    rw [Matrix.mul_sub, h4]
    simp only [← Matrix.mul_assoc]
    rw [h7, Matrix.one_mul]
  constructor
  · rw [hR, Matrix.conjTranspose_mul, Matrix.mul_assoc, ← Matrix.mul_assoc Q.conjTranspose, h3, Matrix.one_mul]
  · rw [Matrix.conjTranspose_mul, Matrix.mul_assoc, ← Matrix.mul_assoc Q.conjTranspose, h3, Matrix.one_mul]

/-- C49: if the tridiagonal eigensolver is exact, so is the call: for every Hermitian `A` (given by its lower triangle), every number of
requested eigenvectors and every schedule, `A = U diag(lambda) Uᴴ` with `U` unitary and `lambda` (all of them) ascending as returned,
and the returned eigenvectors are the first columns of `U`; nothing outside of the documented outputs changes. -/
theorem C49_eigensolver (hE : E.Good) (hpre : eigPre mat evals evecs ibegin iend) (hc : evals.cols = 1) (hnb : 2 ≤ mat.brows)
    (htri : TridiagSpec E.tri) (s : EigSt K)
    (hA : ∀ x < mat.rows, star (s.a x x) = s.a x x) {o : Option (EigSt K)} (ho : hermEig E .Lower mat evals evecs ibegin iend s o) :
    ∃ s' U, o = some s' ∧ U.conjTranspose * U = 1 ∧
      hermM mat.rows s.a = U * diagM mat.rows s'.evals * U.conjTranspose ∧
      (∀ i j, i ≤ j → j < mat.rows → s'.evals i ≤ s'.evals j) ∧
      (∀ (x y : Fin mat.rows), (y : Int) < iend → s'.evecs x y = U x y) ∧
      (∀ i, mat.rows ≤ i → s'.evals i = s.evals i) ∧
      (∀ x y, ¬ (x < mat.rows ∧ y < mat.rows) → s'.evecs x y = s.evecs x y) ∧
      ∀ x y, ¬ (y ≤ x ∧ x < mat.rows) → s'.a x y = s.a x y := by
  by_cases hn : mat.rows = 0
  · -- nothing to do
    obtain ⟨b, hb, hb2, hbd⟩ := band_choice hE.bmin hnb
    unfold hermEig at ho
    rw [if_neg (fun h => h hpre), hb] at ho
    dsimp only at ho
    rw [if_neg (fun h => h rfl)] at ho
    have hi : iend.toNat = 0 := by
      have := hpre.2.2.2.2.2.2.2.2.2.2.2.2.2.2.2.2
      omega
    unfold reductionToBand at ho
    rw [if_neg (fun h => h ⟨hb2, hbd⟩), if_pos (by omega)] at ho
    obtain ⟨o1, h1, h2⟩ := ho
    have ok : bandOK (⟨E.larfg, mat.rows, mat.brows, b.toNat, E.cplx, E.threads, s.a⟩ : BtEnv K) := ⟨hbd, hb2⟩
    unfold bandOutcome at h1
    dsimp only at h1
    rw [if_neg (fun h => h ok), if_pos hn] at h1
    subst h1
    dsimp only at h2
    unfold triStage at h2
    rw [if_neg (fun h => h hc), if_pos hn] at h2
    simp only [Option.bind_some, btStages] at h2
    unfold btBandToTridiag btReductionToBand at h2
    rw [if_neg (fun h => h ⟨hb2, hbd⟩), if_pos (Or.inl hn)] at h2
    simp only [Option.bind_eq_bind, Option.bind_some, if_pos (Or.inl hn)] at h2
    refine ⟨s, 1, h2, by simp, ?_, fun i j _ h => by omega, fun x => absurd x.2 (by omega), fun _ _ => rfl, fun _ _ _ => rfl,
      fun _ _ _ => rfl⟩
    ext x
    exact absurd x.2 (by omega)
  have hn : 0 < mat.rows := by omega
  obtain ⟨s', d, e, lam, Z, Q, h1, h2, h3, h4, h5, h6, h7, h8, h9⟩ := C49_stages hE hpre hc hnb hn (fun d e => by
    obtain ⟨lam, Z, h, -⟩ := htri mat.rows mat.brows d e hn (by omega)
    exact ⟨_, h⟩) s hA ho
  obtain ⟨lam', Z', g1, g2, g3, g4⟩ := htri mat.rows mat.brows d e hn (by omega)
  obtain ⟨rfl, rfl⟩ : lam = lam' ∧ Z = Z' := by
    rw [h2] at g1
    simpa using g1
  have hdiag : (diagM mat.rows s'.evals : Matrix _ _ K) = diagM mat.rows lam := by
    unfold diagM
    congr 1
    funext i
    rw [h6 i i.2]
  -- the real matrices over `K`
  have m1 : (toM mat.rows mat.rows fun x y => ((Z x y : ℝ) : K)).conjTranspose * toM mat.rows mat.rows (fun x y => ((Z x y : ℝ) : K)) = 1 := by
    ext x y
    have := congrFun (congrFun g3 x) y
    rw [Matrix.mul_apply] at this ⊢
    simp only [Matrix.transpose_apply, Matrix.conjTranspose_apply, toM, RCLike.star_def, RCLike.conj_ofReal] at this ⊢
    have h := congrArg (fun r : ℝ => (r : K)) this
    push_cast at h
    rw [h]
    simp only [Matrix.one_apply]
    split <;> simp
  have m2 : triM mat.rows d e * toM mat.rows mat.rows (fun x y => ((Z x y : ℝ) : K)) =
      toM mat.rows mat.rows (fun x y => ((Z x y : ℝ) : K)) * diagM mat.rows lam := by
    ext x y
    have := congrFun (congrFun g4 x) y
    have htm : ∀ z, (triM mat.rows d e : Matrix _ _ K) x z = ((triM mat.rows d e x z : ℝ) : K) := by
      intro z
      simp only [triM]
      split
      · simp
      · split
        · simp
        · split <;> simp
    rw [Matrix.mul_apply] at this ⊢
    simp only [diagM, Matrix.mul_diagonal, toM, htm] at this ⊢
    have h := congrArg (fun r : ℝ => (r : K)) this
    push_cast at h
    simp only [← RCLike.ofReal_mul, ← RCLike.ofReal_sum] at h ⊢
    exact h
  generalize hY : (toM mat.rows mat.rows fun x y => ((Z x y : ℝ) : K)) = Y at m1 m2
  have k1 := mul_eq_one_comm.1 h3
  have k2 := mul_eq_one_comm.1 m1
  refine ⟨s', Q * Y, h1, ?_, ?_, ?_, ?_, h7, h8, h9⟩
  · rw [Matrix.conjTranspose_mul, Matrix.mul_assoc, ← Matrix.mul_assoc Q.conjTranspose, h3, Matrix.one_mul, m1]
  · rw [hdiag, Matrix.mul_assoc Q, ← m2, h4, Matrix.conjTranspose_mul]
    calc hermM mat.rows s.a = (Q * Q.conjTranspose) * hermM mat.rows s.a * (Q * (Y * Y.conjTranspose) * Q.conjTranspose) := by
          rw [k2, Matrix.mul_one, k1, Matrix.one_mul, Matrix.mul_one]
      _ = _ := by simp only [Matrix.mul_assoc]
  · intro i j hij hj
    rw [h6 i (by omega), h6 j hj]
    exact g2 i j hij hj
  · intro x y hy
    have h := congrFun (congrFun h5 x) ⟨y, by omega⟩
    have e : toM mat.rows iend.toNat s'.evecs x ⟨y, by omega⟩ = s'.evecs x y := rfl
    rw [e] at h
    rw [h, ← hY]
    rw [Matrix.mul_apply, Matrix.mul_apply]
    rfl

/-- C49: there is an outcome (executions of the concurrent stage are finite by C47). -/
theorem C49_outcome_exists (hE : E.Good) (s : EigSt K) (uplo : Uplo) : ∃ o, hermEig E uplo mat evals evecs ibegin iend s o := by
  unfold hermEig
  split
  · exact ⟨none, rfl⟩
  split
  · exact ⟨none, rfl⟩
  rename_i b hb
  split
  · exact ⟨none, rfl⟩
  split
  · exact ⟨none, rfl⟩
  rename_i a' taus _
  suffices H : ∃ o1, bandOutcome E mat.rows mat.brows b.toNat a' o1 by
    obtain ⟨o1, h1⟩ := H
    cases o1 with
    | none => exact ⟨none, none, h1, rfl⟩
    | some t => exact ⟨_, some t, h1, rfl⟩
  unfold bandOutcome
  dsimp only
  split
  · exact ⟨none, rfl⟩
  rename_i ok
  split
  · exact ⟨_, rfl⟩
  rename_i hn
  have hnb : 0 < mat.brows := by
    have := ((C37.C37_band_size_accepts E.bmin mat.brows).1 (by rw [hb]; rfl)).1
    omega
  obtain ⟨s', ⟨m, hm⟩, h2, _⟩ := C47_every_schedule (not_not.1 ok) hnb (Nat.pos_of_ne_zero hn) hE.threads E.mem0
  by_contra hc
  have : ∀ n, ∃ k, Steps (bandProg ⟨E.larfg, mat.rows, mat.brows, b.toNat, E.cplx, E.threads, a'⟩) (start E.mem0) k n := by
    intro n
    induction n with
    | zero => exact ⟨_, .refl⟩
    | succ n ih =>
      obtain ⟨k, hk⟩ := ih
      rcases h2 k n hk with h | ⟨k', hk'⟩
      · exact absurd ⟨some k.s, k, n, hk, Or.inl ⟨h, rfl⟩⟩ hc
      · exact ⟨k', .tail hk hk'⟩
  obtain ⟨k, hk⟩ := this (m + 1)
  have := hm k _ hk
  omega

/-- C49: calls that violate a documented precondition, and calls for the upper triangle, abort. -/
theorem C49_refused (s : EigSt K) {uplo : Uplo} (h : uplo = .Upper ∨ ¬ eigPre mat evals evecs ibegin iend) {o : Option (EigSt K)}
    (ho : hermEig E uplo mat evals evecs ibegin iend s o) : o = none := by
  unfold hermEig at ho
  split at ho
  · exact ho
  rename_i hp
  split at ho
  · exact ho
  rcases h with rfl | h
  · rw [if_pos (by decide)] at ho
    exact ho
  · exact absurd h hp

/-- C49 (finding F25): with tile size 1, which no documented precondition excludes, every call aborts, even for an empty matrix:
the band width would be 1, and the reduction to band form asks for at least 2. -/
theorem C49_tile_size_one_aborts (hb : mat.brows = 1) (s : EigSt K) (uplo : Uplo) {o : Option (EigSt K)}
    (ho : hermEig E uplo mat evals evecs ibegin iend s o) : o = none := by
  unfold hermEig at ho
  split at ho
  · exact ho
  split at ho
  · exact ho
  rename_i b hb'
  split at ho
  · exact ho
  have h1 := C37.C37_band_size hb'
  rw [hb] at h1
  have : b.toNat = 1 := by have := h1.2.1; have := h1.2.2.1; omega
  rw [this, C46_bad_band_refused (Or.inl (by omega))] at ho
  exact ho

/- Non-vacuity: a complex matrix of order 7, tile size 4, the first 3 eigenvectors; all the contracts are met. -/
/-- Part of the example. -/
noncomputable def eigExample : EigEnv ℂ where
  bmin := 2
  red := ⟨2, 3, fun x => decide (x.re < 0), fun _ _ _ => 7⟩
  taus0 := fun _ => 5
  larfg := larfgStd
  cplx := true
  threads := 2
  mem0 := ⟨fun _ => 1, fun _ => 2, fun _ _ => 3, fun _ _ => 4, fun _ => 5, fun _ => 6⟩
  tri := triStd
  t2b := t2bExample
  availBt := 2
  junkBt := fun _ _ _ => 9

/-- Part of the example. -/
def eigExampleMat : MShape := ⟨7, 7, 4, 4, 4, 4, true⟩
/-- Part of the example. -/
def eigExampleVals : MShape := ⟨7, 1, 4, 1, 4, 1, true⟩

theorem eigExample_good : eigExample.Good where
  bmin := le_refl _
  availT := by decide
  availP := by decide
  sign := by
    intro x
    simp only [eigExample, decide_eq_false_iff_not, decide_eq_true_eq]
    exact ⟨fun h => not_lt.2 (le_of_lt h), fun h => h⟩
  larfg := larfgStd_spec
  threads := by decide
  larft := larftStd_spec
  group := by decide
  availBt := by decide
  real := fun h => absurd h (by simp [eigExample])

/-- Part of the example. -/
noncomputable def eigExampleIn : EigSt ℂ := ⟨fun x y => if x = y then 1 else ⟨x, y⟩, fun _ => 0, fun _ _ => 0⟩

example : ∃ s' U, hermEig eigExample .Lower eigExampleMat eigExampleVals eigExampleMat 0 3 eigExampleIn (some s') ∧ U.conjTranspose * U = 1 ∧
    hermM 7 eigExampleIn.a = U * diagM 7 s'.evals * U.conjTranspose ∧ ∀ (x y : Fin 7), (y : Int) < 3 → s'.evecs x y = U x y := by
  obtain ⟨o, ho⟩ := C49_outcome_exists (mat := eigExampleMat) (evals := eigExampleVals) (evecs := eigExampleMat) (ibegin := 0) (iend := 3) eigExample_good eigExampleIn .Lower
  have hpre : eigPre eigExampleMat eigExampleVals eigExampleMat 0 3 := by
    refine ⟨rfl, rfl, rfl, rfl, ⟨rfl, rfl⟩, rfl, rfl, ⟨rfl, rfl⟩, rfl, ⟨rfl, rfl⟩, rfl, ⟨rfl, rfl⟩, rfl, ⟨rfl, rfl⟩, rfl, by decide, by decide⟩
  obtain ⟨s', U, h1, h2, h3, -, h4, -⟩ := C49_eigensolver eigExample_good hpre rfl (by decide) triStd_spec eigExampleIn (fun x _ => by simp [eigExampleIn]) ho
  subst h1
  exact ⟨s', U, ho, h2, h3, h4⟩

end DLAF
