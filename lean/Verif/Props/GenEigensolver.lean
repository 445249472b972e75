import Verif.Spec.GenEigensolver
import Verif.Lemmas.CutTiles
import Verif.Lemmas.CholExists
import Verif.Props.Eigensolver
import Verif.Props.GenToStd
import Verif.Props.Cholesky
import Verif.Props.Triangular
/- C50: the generalized Hermitian eigensolver (local memory). -/
namespace DLAF
open Sem
open scoped Classical ComplexOrder
variable {K : Type*} [RCLike K] {E : EigEnv K} {lp : Lapack K} {a b evals evecs : MShape} {ibegin iend : Int}

theorem posReal_positive : Positive (posReal : K → Prop) where
  ne_zero := by
    rintro x ⟨r, hr, rfl⟩ h
    exact (ne_of_gt hr) (RCLike.ofReal_eq_zero.1 h)
  real := by
    rintro x ⟨r, hr, rfl⟩
    simp
  sq_inj := by
    rintro x y ⟨r, hr, rfl⟩ ⟨q, hq, rfl⟩ h
    rw [← RCLike.ofReal_mul, ← RCLike.ofReal_mul, RCLike.ofReal_inj] at h
    have : r = q := by nlinarith [mul_self_eq_mul_self_iff.1 h |>.elim id (fun h => by linarith)]
    rw [this]

/-- `IsChol` as matrices. -/
theorem chol_matrix {n : Nat} {bm L : Elems K} (hL : IsChol posReal .Lower n bm L) :
    lowM n L * (lowM n L).conjTranspose = hermM n bm := by
  have hbm : ∀ x < n, star (bm x x) = bm x x := by
    intro x hx
    rw [← hL.2 x hx x (Nat.le_refl _), star_sum]
    refine Finset.sum_congr rfl fun l _ => ?_
    rw [star_mul', star_star, mul_comm]
  have := C29_lower_is_matrix_equation hL (hermM n bm) (hermM_conj hbm) (by
    intro r c hrc
    simp only [hermM, lowE]
    rw [if_pos (show (c : Nat) ≤ r from hrc)])
  rw [← this]
  have e : lowM n L = lowerOf n L := by
    ext x y
    simp only [lowM, lowerOf, Fin.le_def]
  rw [e]

/-- A Hermitian matrix is positive definite if and only if it has a Cholesky factor. -/
theorem posDef_iff_chol {n : Nat} {bm : Elems K} (hr : ∀ x < n, star (bm x x) = bm x x) :
    PosDefE n bm ↔ ∃ L, IsChol posReal .Lower n bm L := by
  have hsum : ∀ v : Fin n → K, ∑ x, ∑ y, star (v x) * hermM n bm x y * v y = star v ⬝ᵥ (hermM n bm).mulVec v := by
    intro v
    simp only [dotProduct, Matrix.mulVec, Pi.star_apply, Finset.mul_sum]
    refine Finset.sum_congr rfl fun x _ => Finset.sum_congr rfl fun y _ => ?_
    ring
  constructor
  · rintro ⟨-, h⟩
    have hP : (hermM n bm).PosDef := by
      refine Matrix.PosDef.of_dotProduct_mulVec_pos (hermM_conj hr) fun v hv => ?_
      rw [← hsum]
      refine RCLike.pos_iff.2 ⟨h v hv, ?_⟩
      have hc : star (∑ x, ∑ y, star (v x) * hermM n bm x y * v y) = ∑ x, ∑ y, star (v x) * hermM n bm x y * v y := by
        simp only [star_sum, star_mul', star_star]
        rw [Finset.sum_comm]
        refine Finset.sum_congr rfl fun x _ => Finset.sum_congr rfl fun y _ => ?_
        have := congrFun (congrFun (hermM_conj hr) x) y
        rw [Matrix.conjTranspose_apply] at this
        rw [this]
        ring
      have key : ∀ z : K, star z = z → RCLike.im z = 0 := by
        intro z hz
        have := congrArg RCLike.im hz
        rw [RCLike.star_def, RCLike.conj_im] at this
        linarith
      exact key _ hc
    obtain ⟨L, h1, h2, h3⟩ := chol_of_posDef hP
    refine ⟨fun x y => if h : x < n ∧ y < n then L ⟨x, h.1⟩ ⟨y, h.2⟩ else 0, fun i hi => ?_, fun r hr c hc => ?_⟩
    · show posReal (if h : i < n ∧ i < n then L ⟨i, h.1⟩ ⟨i, h.2⟩ else 0)
      rw [dif_pos (⟨hi, hi⟩ : i < n ∧ i < n)]
      exact h2 _
    · have h4 := congrFun (congrFun h3 ⟨r, hr⟩) ⟨c, by omega⟩
      simp only [hermM, lowE] at h4
      rw [if_pos hc] at h4
      rw [← h4, Matrix.mul_apply]
      have hsub : ∑ l ∈ Finset.range n, (if h : r < n ∧ l < n then L ⟨r, h.1⟩ ⟨l, h.2⟩ else 0) *
          star (if h : c < n ∧ l < n then L ⟨c, h.1⟩ ⟨l, h.2⟩ else 0) =
          ∑ l ∈ Finset.range (c + 1), (if h : r < n ∧ l < n then L ⟨r, h.1⟩ ⟨l, h.2⟩ else 0) *
          star (if h : c < n ∧ l < n then L ⟨c, h.1⟩ ⟨l, h.2⟩ else 0) := by
        symm
        refine Finset.sum_subset (fun x hx => ?_) fun l hl hl' => ?_
        · rw [Finset.mem_range] at *
          omega
        · rw [Finset.mem_range] at hl hl'
          rw [dif_pos (⟨by omega, hl⟩ : c < n ∧ l < n), h1 _ _ (show (⟨c, by omega⟩ : Fin n) < ⟨l, hl⟩ from by
            rw [Fin.lt_def]; show c < l; omega), star_zero, mul_zero]
      rw [← hsub, Finset.sum_range]
      refine Finset.sum_congr rfl fun l _ => ?_
      rw [dif_pos ⟨hr, l.2⟩, dif_pos (⟨by omega, l.2⟩ : c < n ∧ (l : Nat) < n), Matrix.conjTranspose_apply]
  · rintro ⟨L, hL⟩
    refine ⟨hr, fun v hv => ?_⟩
    have hLt : ∀ i : Fin n, lowM n L i i ≠ 0 := by
      intro i
      simp only [lowM, Nat.le_refl, if_true]
      exact posReal_positive.ne_zero _ (hL.1 i i.2)
    -- `vᴴ B v = |Lᴴ v|²`
    have e1 : ∑ x, ∑ y, star (v x) * hermM n bm x y * v y = ∑ l, star ((lowM n L).conjTranspose.mulVec v l) *
        (lowM n L).conjTranspose.mulVec v l := by
      rw [hsum, ← chol_matrix hL, ← Matrix.mulVec_mulVec, Matrix.dotProduct_mulVec]
      simp only [dotProduct]
      refine Finset.sum_congr rfl fun l _ => ?_
      congr 1
      simp only [Matrix.vecMul, Matrix.mulVec, dotProduct, Matrix.conjTranspose_apply, star_sum, star_mul', star_star, Pi.star_apply]
      refine Finset.sum_congr rfl fun x _ => ?_
      ring
    rw [e1]
    have e2 : ∀ z : K, RCLike.re (star z * z) = ‖z‖ ^ 2 := by
      intro z
      rw [RCLike.star_def, RCLike.conj_mul]
      norm_cast
    rw [map_sum]
    simp only [e2]
    by_contra hneg
    have h0 : ∀ l, (lowM n L).conjTranspose.mulVec v l = 0 := by
      have := (Finset.sum_eq_zero_iff_of_nonneg (fun l _ => sq_nonneg ‖(lowM n L).conjTranspose.mulVec v l‖)).1
        (le_antisymm (not_lt.1 hneg) (Finset.sum_nonneg fun l _ => sq_nonneg _))
      intro l
      have h := this l (Finset.mem_univ _)
      rwa [sq_eq_zero_iff, norm_eq_zero] at h
    apply hv
    -- back substitution
    have key : ∀ k, ∀ x : Fin n, n - 1 - (x : Nat) = k → v x = 0 := by
      intro k
      induction k using Nat.strong_induction_on with
      | _ k ih =>
        intro x hx
        have h1 := h0 x
        rw [Matrix.mulVec, dotProduct, Finset.sum_eq_single x] at h1
        · rw [Matrix.conjTranspose_apply] at h1
          exact (mul_eq_zero.1 h1).resolve_left (fun h => hLt x (star_eq_zero.1 h))
        · intro l _ hl
          by_cases hlt : (l : Nat) < x
          · rw [Matrix.conjTranspose_apply]
            simp only [lowM]
            rw [if_neg (by omega), star_zero, zero_mul]
          · have hne : (l : Nat) ≠ x := fun h => hl (Fin.ext h)
            rw [ih (n - 1 - (l : Nat)) (by omega) l rfl, mul_zero]
        · intro h; exact absurd (Finset.mem_univ _) h
    funext x
    exact key _ x rfl

/-- C29: the factorization succeeds if and only if the matrix is positive definite (lower triangle; `hr`: it is Hermitian). -/
theorem C29_succeeds_iff_positive_definite (hl : LapackSpec lp posReal) {sz : Nat → Nat} {nt : Nat} {m : Tiles K}
    (hs : Shaped m sz sz nt nt) {A : Elems K} (hA : HoldsOn m sz sz nt nt A fun r c => c ≤ r)
    (hr : ∀ x < tileStart sz nt, star (A x x) = A x x) :
    (∃ m1, cholesky_factorization lp .Lower nt m = some m1) ↔ PosDefE (tileStart sz nt) A := by
  rw [posDef_iff_chol hr]
  constructor
  · rintro ⟨m1, h⟩
    obtain ⟨-, ⟨L, -, h2⟩, -⟩ := C29_cholesky_lower hl posReal_positive hs hA h
    exact ⟨L, h2⟩
  · rintro ⟨L, hL⟩
    obtain ⟨m1, h, -⟩ := C29_cholesky_lower_succeeds hl posReal_positive hs hA hL
    exact ⟨m1, h⟩

theorem triE_lowM (n : Nat) (B : Elems K) (x y : Fin n) : triE .Lower .NonUnit B x y = lowM n B x y := by
  unfold triE lowM
  by_cases h : (x : Nat) = y
  · rw [if_pos h, if_neg (by decide), if_pos (by omega)]
  · rw [if_neg h]
    dsimp only
    by_cases h2 : (y : Nat) < x
    · rw [if_pos h2, if_pos (by omega)]
    · rw [if_neg h2, if_neg (by omega)]

/-- The triangular solve as matrices: `Lᴴ X = C`. -/
theorem solve_mat (hl : LapackSpec lp posReal) {nb n m : Nat} (hnb : 0 < nb) {B : Elems K} (hB : ∀ i < n, B i i ≠ 0) (C : Elems K) :
    ∃ t, Solver.triangular_solver lp .Left .Lower .ConjTrans .NonUnit 1 (-1) (ceilDivN n nb) (ceilDivN m nb) (cutTiles nb n n B)
      (cutTiles nb n m C) = some t ∧ (lowM n B).conjTranspose * toM n m (glueTiles nb n m C t) = toM n m C := by
  obtain ⟨t, h1, h2, X, h3, h4⟩ := C31_solve_left hl .Lower .ConjTrans .NonUnit (alpha := 1) (beta := -1)
    (fun _ => by simp) (cut_shaped nb n n _ _ B) (cut_shaped nb n m (ceilDivN n nb) (ceilDivN m nb) C) (cut_holds B _) (cut_holds C _)
    (Or.inr (by rw [tileStart_cut_all n hnb]; exact hB))
  rw [tileStart_cut_all n hnb, tileStart_cut_all m hnb] at h4
  refine ⟨t, h1, ?_⟩
  ext x y
  have h5 := h4 x x.2 y y.2
  rw [one_mul] at h5
  rw [Matrix.mul_apply]
  show _ = C x y
  rw [← h5, Finset.sum_range]
  refine Finset.sum_congr rfl fun l _ => ?_
  rw [Matrix.conjTranspose_apply]
  show star (lowM n B l x) * glueTiles nb n m C t l y = _
  rw [glue_holds hnb h3 l.2 y.2 trivial, ← triE_lowM]
  rfl

/-- The core of C50, for a factor `b'` with a positive diagonal. -/
theorem gen_core (hE : E.Good) (hl : LapackSpec lp posReal) (hpre : genPre a b evals evecs ibegin iend) (hc : evals.cols = 1)
    (hnb : 2 ≤ a.brows) (htri : TridiagSpec E.tri) (s : EigSt K) (hA : ∀ x < a.rows, star (s.a x x) = s.a x x) {b' : Elems K}
    (hB : ∀ x < a.rows, b' x x ≠ 0) {o : Option (EigSt K × Elems K)}
    (ho : match (generalized_to_standard lp .Lower (ceilDivN a.rows a.brows) (cutTiles a.brows a.rows a.rows b')
        (cutTiles a.brows a.rows a.rows s.a)).map (glueTiles a.brows a.rows a.rows s.a) with
      | none => o = none
      | some a' => ∃ o1, hermEig E .Lower a evals evecs ibegin iend { s with a := a' } o1 ∧
        match o1 with
        | none => o = none
        | some s1 => o = (Solver.triangular_solver lp .Left .Lower .ConjTrans .NonUnit 1 (-1) (ceilDivN a.rows a.brows)
            (ceilDivN iend.toNat a.brows) (cutTiles a.brows a.rows a.rows b') (cutTiles a.brows a.rows iend.toNat s1.evecs)).map
              fun t => ({ s1 with evecs := glueTiles a.brows a.rows iend.toNat s1.evecs t }, b')) :
    ∃ s' W, o = some (s', b') ∧
      W.conjTranspose * (lowM a.rows b' * (lowM a.rows b').conjTranspose) * W = 1 ∧
      hermM a.rows s.a * W = lowM a.rows b' * (lowM a.rows b').conjTranspose * W * diagM a.rows s'.evals ∧
      (∀ i j, i ≤ j → j < a.rows → s'.evals i ≤ s'.evals j) ∧
      (∀ (x y : Fin a.rows), (y : Int) < iend → s'.evecs x y = W x y) ∧
      (∀ i, a.rows ≤ i → s'.evals i = s.evals i) ∧
      (∀ x y, ¬ (x < a.rows ∧ y < a.rows) → s'.evecs x y = s.evecs x y) ∧
      ∀ x y, ¬ (y ≤ x ∧ x < a.rows) → s'.a x y = s.a x y := by
  have hnb0 : 0 < a.brows := by omega
  have hts := tileStart_cut_all a.rows hnb0
  obtain ⟨ta, X, h1, h2, h3, h4, h5, h6⟩ := C42_gen_to_std_lower hl two_ne_zero
    (cut_shaped a.brows a.rows a.rows (ceilDivN a.rows a.brows) (ceilDivN a.rows a.brows) s.a) (cut_shaped a.brows a.rows a.rows _ _ b')
    (cut_holds s.a _) (cut_holds b' _) (Or.inr (by rw [hts]; exact hB)) (by rw [hts]; exact hA)
  rw [hts] at h4
  rw [h1] at ho
  simp only [Option.map_some] at ho
  obtain ⟨o1, ho1, ho2⟩ := ho
  have hX : ∀ x < a.rows, ∀ y < a.rows, glueTiles a.brows a.rows a.rows s.a ta x y = X x y :=
    fun x hx y hy => glue_holds hnb0 h3 hx hy trivial
  obtain ⟨s1, U, g1, g2, g3, g4, g5, g6, g7, g8⟩ := C49_eigensolver hE hpre.1 hc hnb htri
    { s with a := glueTiles a.brows a.rows a.rows s.a ta } (by
      intro x hx
      show star (glueTiles a.brows a.rows a.rows s.a ta x x) = glueTiles a.brows a.rows a.rows s.a ta x x
      rw [hX x hx x hx, h5]) ho1
  subst g1
  dsimp only at g3 g6 g7 g8 ho2
  -- `A = L C Lᴴ`
  have hAM : hermM a.rows s.a = lowM a.rows b' * hermM a.rows (glueTiles a.brows a.rows a.rows s.a ta) * (lowM a.rows b').conjTranspose := by
    ext x y
    have e1 := h4 x x.2 y y.2
    have e2 : ∀ (D : Elems K) (x y : Nat), hermE .Lower D x y = lowE D x y := fun D x y => rfl
    show lowE s.a x y = _
    rw [← e2, e1, Matrix.mul_apply, Finset.sum_comm, Finset.sum_range]
    refine Finset.sum_congr rfl fun q _ => ?_
    rw [Matrix.mul_apply, Finset.sum_mul, Finset.sum_range]
    refine Finset.sum_congr rfl fun p _ => ?_
    rw [Matrix.conjTranspose_apply, ← triE_lowM, ← triE_lowM, e2]
    congr 2
    simp only [hermM, lowE]
    rw [hX p p.2 q q.2, hX q q.2 p p.2]
  -- all the columns
  obtain ⟨t1, -, w1⟩ := solve_mat (m := a.rows) hl hnb0 hB (fun x y => if h : x < a.rows ∧ y < a.rows then U ⟨x, h.1⟩ ⟨y, h.2⟩ else 0)
  obtain ⟨t2, -, w2⟩ := solve_mat (m := a.rows) hl hnb0 hB (fun x y => if x = y then 1 else 0)
  obtain ⟨t3, k3, w3⟩ := solve_mat (m := iend.toNat) hl hnb0 hB s1.evecs
  generalize glueTiles a.brows a.rows a.rows (fun x y => if h : x < a.rows ∧ y < a.rows then U ⟨x, h.1⟩ ⟨y, h.2⟩ else 0) t1 = W at w1
  have hU : toM a.rows a.rows (fun x y => if h : x < a.rows ∧ y < a.rows then U ⟨x, h.1⟩ ⟨y, h.2⟩ else 0) = U := by
    ext x y
    simp only [toM, Fin.is_lt, and_self, dif_pos, Fin.eta]
  rw [hU] at w1
  have hone : toM a.rows a.rows (fun x y => if x = y then (1 : K) else 0) = 1 := by
    ext x y
    simp only [toM, Matrix.one_apply, Fin.ext_iff]
  rw [hone] at w2
  have hinv := mul_eq_one_comm.1 w2
  rw [k3, Option.map_some] at ho2
  have hLW : (lowM a.rows b').conjTranspose * toM a.rows a.rows W = U := w1
  have hWL : (toM a.rows a.rows W).conjTranspose * lowM a.rows b' = U.conjTranspose := by
    rw [← hLW, Matrix.conjTranspose_mul, Matrix.conjTranspose_conjTranspose]
  have hUU := mul_eq_one_comm.1 g2
  refine ⟨_, toM a.rows a.rows W, ho2, ?_, ?_, g4, ?_, g6, ?_, ?_⟩
  · calc _ = ((toM a.rows a.rows W).conjTranspose * lowM a.rows b') * ((lowM a.rows b').conjTranspose * toM a.rows a.rows W) := by
          simp only [Matrix.mul_assoc]
      _ = 1 := by rw [hWL, hLW, g2]
  · show _ = _ * diagM a.rows s1.evals
    rw [hAM, g3]
    calc _ = lowM a.rows b' * U * diagM a.rows s1.evals * (U.conjTranspose * ((lowM a.rows b').conjTranspose * toM a.rows a.rows W)) := by
          simp only [Matrix.mul_assoc]
      _ = lowM a.rows b' * ((lowM a.rows b').conjTranspose * toM a.rows a.rows W) * diagM a.rows s1.evals := by
          rw [hLW, g2, Matrix.mul_one]
      _ = _ := by simp only [Matrix.mul_assoc]
  · intro x y hy
    have hm : iend.toNat ≤ a.rows := by
      have := hpre.1.2.2.2.2.2.2.2.2.2.2.2.2.2.2.2.2
      omega
    show glueTiles a.brows a.rows iend.toNat s1.evecs t3 x y = toM a.rows a.rows W x y
    have e1 : toM a.rows iend.toNat (glueTiles a.brows a.rows iend.toNat s1.evecs t3) =
        toM a.rows a.rows (glueTiles a.brows a.rows a.rows (fun x y => if x = y then (1 : K) else 0) t2) *
          toM a.rows iend.toNat s1.evecs := by
      rw [← w3, ← Matrix.mul_assoc, hinv, Matrix.one_mul]
    have e2 : toM a.rows a.rows W =
        toM a.rows a.rows (glueTiles a.brows a.rows a.rows (fun x y => if x = y then (1 : K) else 0) t2) * U := by
      rw [← hLW, ← Matrix.mul_assoc, hinv, Matrix.one_mul]
    have e3 := congrFun (congrFun e1 x) ⟨y, by omega⟩
    have e4 : toM a.rows iend.toNat (glueTiles a.brows a.rows iend.toNat s1.evecs t3) x ⟨y, by omega⟩ =
        glueTiles a.brows a.rows iend.toNat s1.evecs t3 x y := rfl
    rw [← e4, e3, e2, Matrix.mul_apply, Matrix.mul_apply]
    refine Finset.sum_congr rfl fun l _ => ?_
    congr 1
    exact g5 l y hy
  · intro x y h
    have hm : iend.toNat ≤ a.rows := by
      have := hpre.1.2.2.2.2.2.2.2.2.2.2.2.2.2.2.2.2
      omega
    show glueTiles a.brows a.rows iend.toNat s1.evecs t3 x y = _
    rw [glue_out (by omega)]
    exact g7 x y h
  · intro x y h
    show s1.a x y = _
    rw [g8 x y h]
    by_cases hxy : x < a.rows ∧ y < a.rows
    · rw [hX x hxy.1 y hxy.2, h6 x y (by omega)]
    · rw [glue_out hxy]

/-- C50 with a given Cholesky factor.  For every Hermitian `A`, number of requested
eigenvectors, schedule and previous contents of work spaces, the call returns, with all the eigenvalues ascending; there is a basis `W`
of generalized eigenvectors, `A W = B W diag(lambda)`, orthonormal with respect to `B`, `Wᴴ B W = 1`, whose first columns are the
returned eigenvectors; `mat_b` holds `L` in its lower triangle; nothing else changes. -/
theorem gen_chol (hE : E.Good) (hl : LapackSpec lp posReal) (hpre : genPre a b evals evecs ibegin iend)
    (hc : evals.cols = 1) (hnb : 2 ≤ a.brows) (htri : TridiagSpec E.tri) (s : EigSt K)
    (hA : ∀ x < a.rows, star (s.a x x) = s.a x x) (bm : Elems K) {L : Elems K} (hL : IsChol posReal .Lower a.rows bm L)
    {o : Option (EigSt K × Elems K)} (ho : genEig E lp .Lower true a b evals evecs ibegin iend s bm o) :
    ∃ s' b' W, o = some (s', b') ∧ W.conjTranspose * hermM a.rows bm * W = 1 ∧
      hermM a.rows s.a * W = hermM a.rows bm * W * diagM a.rows s'.evals ∧
      (∀ i j, i ≤ j → j < a.rows → s'.evals i ≤ s'.evals j) ∧
      (∀ (x y : Fin a.rows), (y : Int) < iend → s'.evecs x y = W x y) ∧
      (∀ x y, y ≤ x → x < a.rows → b' x y = L x y) ∧
      (∀ x y, ¬ (y ≤ x ∧ x < a.rows) → b' x y = bm x y) ∧
      (∀ i, a.rows ≤ i → s'.evals i = s.evals i) ∧
      (∀ x y, ¬ (x < a.rows ∧ y < a.rows) → s'.evecs x y = s.evecs x y) ∧
      ∀ x y, ¬ (y ≤ x ∧ x < a.rows) → s'.a x y = s.a x y := by
  have hnb0 : 0 < a.brows := by omega
  have hts := tileStart_cut_all a.rows hnb0
  unfold genEig at ho
  dsimp only at ho
  rw [if_neg (fun h => h hpre), if_pos rfl] at ho
  have hsh := cut_shaped a.brows a.rows a.rows (ceilDivN a.rows a.brows) (ceilDivN a.rows a.brows) bm
  obtain ⟨tb, c1, c2⟩ := C29_cholesky_lower_succeeds hl posReal_positive hsh (cut_holds bm _) (by rw [hts]; exact hL)
  obtain ⟨-, -, c3⟩ := C29_cholesky_lower hl posReal_positive hsh (cut_holds bm _) c1
  rw [c1] at ho
  simp only [Option.map_some] at ho
  have hb1 : ∀ x y, y ≤ x → x < a.rows → glueTiles a.brows a.rows a.rows bm tb x y = L x y :=
    fun x y hy hx => glue_holds hnb0 c2 hx (by omega) hy
  have hb2 : ∀ x y, ¬ (y ≤ x ∧ x < a.rows) → glueTiles a.brows a.rows a.rows bm tb x y = bm x y := by
    intro x y h
    by_cases hxy : x < a.rows ∧ y < a.rows
    · exact glue_holds hnb0 (c3 bm (cut_holds bm _)) hxy.1 hxy.2 (by omega)
    · exact glue_out hxy
  generalize glueTiles a.brows a.rows a.rows bm tb = b' at ho hb1 hb2
  obtain ⟨s', W, h1, h2, h3, h4, h5, h6, h7, h8⟩ := gen_core hE hl hpre hc hnb htri s hA (b' := b') (by
    intro x hx
    rw [hb1 x x (Nat.le_refl _) hx]
    exact posReal_positive.ne_zero _ (hL.1 x hx)) ho
  have hbm : ∀ x < a.rows, star (bm x x) = bm x x := by
    intro x hx
    rw [← hL.2 x hx x (Nat.le_refl _), star_sum]
    refine Finset.sum_congr rfl fun l _ => ?_
    rw [star_mul', star_star, mul_comm]
  have hBM : lowM a.rows b' * (lowM a.rows b').conjTranspose = hermM a.rows bm := by
    have := C29_lower_is_matrix_equation hL (hermM a.rows bm) (hermM_conj hbm) (by
      intro r c hrc
      simp only [hermM, lowE]
      rw [if_pos (show (c : Nat) ≤ r from hrc)])
    rw [← this]
    have e : lowM a.rows b' = lowerOf a.rows L := by
      ext x y
      simp only [lowM, lowerOf, Fin.le_def]
      by_cases h : (y : Nat) ≤ x
      · rw [if_pos h, if_pos h, hb1 x y h x.2]
      · rw [if_neg h, if_neg h]
    rw [e]
  rw [hBM] at h2 h3
  exact ⟨s', b', W, h1, h2, h3, h4, h5, hb1, hb2, h6, h7, h8⟩

/-- C50: `mat_b` holds a positive definite matrix `B`.  For every Hermitian `A`, number of requested
eigenvectors, schedule and previous contents of work spaces, the call returns, with all the eigenvalues ascending; there is a basis `W`
of generalized eigenvectors, `A W = B W diag(lambda)`, orthonormal with respect to `B`, `Wᴴ B W = 1`, whose first columns are the
returned eigenvectors; the lower triangle of `mat_b` holds the Cholesky factor; nothing else changes. -/
theorem C50_generalized_eigensolver (hE : E.Good) (hl : LapackSpec lp posReal) (hpre : genPre a b evals evecs ibegin iend)
    (hc : evals.cols = 1) (hnb : 2 ≤ a.brows) (htri : TridiagSpec E.tri) (s : EigSt K)
    (hA : ∀ x < a.rows, star (s.a x x) = s.a x x) (bm : Elems K) (hB : PosDefE a.rows bm)
    {o : Option (EigSt K × Elems K)} (ho : genEig E lp .Lower true a b evals evecs ibegin iend s bm o) :
    ∃ s' b' W, o = some (s', b') ∧ W.conjTranspose * hermM a.rows bm * W = 1 ∧
      hermM a.rows s.a * W = hermM a.rows bm * W * diagM a.rows s'.evals ∧
      (∀ i j, i ≤ j → j < a.rows → s'.evals i ≤ s'.evals j) ∧
      (∀ (x y : Fin a.rows), (y : Int) < iend → s'.evecs x y = W x y) ∧
      ((∀ i < a.rows, posReal (b' i i)) ∧ lowM a.rows b' * (lowM a.rows b').conjTranspose = hermM a.rows bm) ∧
      (∀ x y, ¬ (y ≤ x ∧ x < a.rows) → b' x y = bm x y) ∧
      (∀ i, a.rows ≤ i → s'.evals i = s.evals i) ∧
      (∀ x y, ¬ (x < a.rows ∧ y < a.rows) → s'.evecs x y = s.evecs x y) ∧
      ∀ x y, ¬ (y ≤ x ∧ x < a.rows) → s'.a x y = s.a x y := by
  obtain ⟨L, hL⟩ := (posDef_iff_chol hB.1).1 hB
  obtain ⟨s', b', W, h1, h2, h3, h4, h5, h6, h7⟩ := gen_chol hE hl hpre hc hnb htri s hA bm hL ho
  refine ⟨s', b', W, h1, h2, h3, h4, h5, ⟨fun i hi => by rw [h6 i i (Nat.le_refl _) hi]; exact hL.1 i hi, ?_⟩, h7⟩
  rw [← chol_matrix hL]
  have e : lowM a.rows b' = lowM a.rows L := by
    ext x y
    simp only [lowM]
    by_cases h : (y : Nat) ≤ x
    · rw [if_pos h, if_pos h, h6 x y h x.2]
    · rw [if_neg h, if_neg h]
  rw [e]

/-- C50, `Factorization::already_factorized`: `mat_b` holds a factor `L` (in its lower triangle, with a diagonal without zeros) of
`B = L Lᴴ`.  The same, and `mat_b` does not change. -/
theorem C50_already_factorized (hE : E.Good) (hl : LapackSpec lp posReal) (hpre : genPre a b evals evecs ibegin iend)
    (hc : evals.cols = 1) (hnb : 2 ≤ a.brows) (htri : TridiagSpec E.tri) (s : EigSt K)
    (hA : ∀ x < a.rows, star (s.a x x) = s.a x x) (bm : Elems K) (hL : ∀ x < a.rows, bm x x ≠ 0)
    {o : Option (EigSt K × Elems K)} (ho : genEig E lp .Lower false a b evals evecs ibegin iend s bm o) :
    ∃ s' W, o = some (s', bm) ∧ W.conjTranspose * (lowM a.rows bm * (lowM a.rows bm).conjTranspose) * W = 1 ∧
      hermM a.rows s.a * W = lowM a.rows bm * (lowM a.rows bm).conjTranspose * W * diagM a.rows s'.evals ∧
      (∀ i j, i ≤ j → j < a.rows → s'.evals i ≤ s'.evals j) ∧
      (∀ (x y : Fin a.rows), (y : Int) < iend → s'.evecs x y = W x y) ∧
      (∀ i, a.rows ≤ i → s'.evals i = s.evals i) ∧
      (∀ x y, ¬ (x < a.rows ∧ y < a.rows) → s'.evecs x y = s.evecs x y) ∧
      ∀ x y, ¬ (y ≤ x ∧ x < a.rows) → s'.a x y = s.a x y := by
  unfold genEig at ho
  dsimp only at ho
  rw [if_neg (fun h => h hpre), if_neg (by decide)] at ho
  exact gen_core hE hl hpre hc hnb htri s hA hL ho

/-- C50: if the Hermitian matrix `B` is not positive definite the call fails, it does not return wrong eigenvectors. -/
theorem C50_not_positive_definite (hl : LapackSpec lp posReal) (s : EigSt K) (bm : Elems K)
    (hr : ∀ x < a.rows, star (bm x x) = bm x x)
    (hB : ¬ PosDefE a.rows bm) {o : Option (EigSt K × Elems K)}
    (hnb : 0 < a.brows) (ho : genEig E lp .Lower true a b evals evecs ibegin iend s bm o) : o = none := by
  unfold genEig at ho
  dsimp only at ho
  split at ho
  · exact ho
  rw [if_pos rfl] at ho
  cases hch : cholesky_factorization lp .Lower (ceilDivN a.rows a.brows) (cutTiles a.brows a.rows a.rows bm) with
  | none => rw [hch] at ho; exact ho
  | some t =>
    exfalso
    obtain ⟨-, ⟨L, -, h2⟩, -⟩ := C29_cholesky_lower hl posReal_positive (cut_shaped a.brows a.rows a.rows _ _ bm) (cut_holds bm _) hch
    rw [tileStart_cut_all a.rows hnb] at h2
    exact hB ((posDef_iff_chol hr).2 ⟨L, h2⟩)

/-- C50: calls that violate a documented precondition, those for the upper triangle and those with tile size 1 (finding F25), abort. -/
theorem C50_refused (s : EigSt K) (bm : Elems K) {uplo : Uplo} {f : Bool} (h : ¬ genPre a b evals evecs ibegin iend ∨ uplo = .Upper ∨ a.brows = 1)
    {o : Option (EigSt K × Elems K)} (ho : genEig E lp uplo f a b evals evecs ibegin iend s bm o) : o = none := by
  unfold genEig at ho
  dsimp only at ho
  split at ho
  · exact ho
  rename_i hp
  split at ho
  · exact ho
  split at ho
  · exact ho
  obtain ⟨o1, h1, h2⟩ := ho
  rcases h.resolve_left hp with h | h
  · have := C49_refused _ (Or.inl h) h1
    subst this
    exact h2
  · have := C49_tile_size_one_aborts h _ uplo h1
    subst this
    exact h2

/-- C50: there is an outcome. -/
theorem C50_outcome_exists (hE : E.Good) (s : EigSt K) (bm : Elems K) (uplo : Uplo) (f : Bool) :
    ∃ o, genEig E lp uplo f a b evals evecs ibegin iend s bm o := by
  unfold genEig
  dsimp only
  split
  · exact ⟨none, rfl⟩
  split
  · exact ⟨none, rfl⟩
  split
  · exact ⟨none, rfl⟩
  rename_i a' _
  obtain ⟨o1, h1⟩ := C49_outcome_exists (mat := a) (evals := evals) (evecs := evecs) (ibegin := ibegin) (iend := iend) hE
    { s with a := a' } uplo
  cases o1 with
  | none => exact ⟨none, none, h1, rfl⟩
  | some s1 => exact ⟨_, some s1, h1, rfl⟩

/- Non-vacuity: order 7, tile size 4, complex; `B = L Lᴴ` with `L` lower bidiagonal, not diagonal. -/
/-- Part of the example. -/
noncomputable def genExampleL : Elems ℂ := fun x y => if x = y then 2 else if x = y + 1 then ⟨1, 3⟩ else 0
/-- Part of the example. -/
noncomputable def genExampleB : Elems ℂ := fun x y => ∑ l ∈ Finset.range (y + 1), genExampleL x l * star (genExampleL y l)

example : ∃ s' b' W, genEig eigExample (lapackOf posReal) .Lower true eigExampleMat eigExampleMat eigExampleVals eigExampleMat 0 3
      eigExampleIn genExampleB (some (s', b')) ∧ W.conjTranspose * hermM 7 genExampleB * W = 1 ∧
    hermM 7 eigExampleIn.a * W = hermM 7 genExampleB * W * diagM 7 s'.evals ∧
    lowM 7 b' * (lowM 7 b').conjTranspose = hermM 7 genExampleB := by
  have hpre : genPre eigExampleMat eigExampleMat eigExampleVals eigExampleMat 0 3 := by
    refine ⟨⟨rfl, rfl, rfl, rfl, ⟨rfl, rfl⟩, rfl, rfl, ⟨rfl, rfl⟩, rfl, ⟨rfl, rfl⟩, rfl, ⟨rfl, rfl⟩, rfl, ⟨rfl, rfl⟩, rfl, by decide, by decide⟩,
      rfl, rfl, ⟨rfl, rfl⟩, rfl, ⟨rfl, rfl⟩, ⟨rfl, rfl⟩⟩
  have hL : IsChol posReal .Lower 7 genExampleB genExampleL := by
    refine ⟨fun i _ => ⟨2, by norm_num, ?_⟩, fun r _ c _ => rfl⟩
    simp [genExampleL]
  obtain ⟨o, ho⟩ := C50_outcome_exists (lp := lapackOf posReal) (a := eigExampleMat) (b := eigExampleMat) (evals := eigExampleVals)
    (evecs := eigExampleMat) (ibegin := 0) (iend := 3) eigExample_good eigExampleIn genExampleB .Lower true
  obtain ⟨s', b', W, h1, h2, h3, -, -, h4, -⟩ := C50_generalized_eigensolver eigExample_good (lapack_spec posReal) hpre rfl (by decide)
    triStd_spec eigExampleIn (fun x _ => by simp [eigExampleIn]) genExampleB ((posDef_iff_chol (fun x hx => by
      rw [← hL.2 x hx x (Nat.le_refl _), star_sum]
      refine Finset.sum_congr rfl fun l _ => ?_
      rw [star_mul', star_star, mul_comm])).2 ⟨_, hL⟩) ho
  subst h1
  exact ⟨s', b', W, ho, h2, h3, h4.2⟩

end DLAF
