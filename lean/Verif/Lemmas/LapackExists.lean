import Verif.Spec.Kernels
import Mathlib.LinearAlgebra.Matrix.Block
import Mathlib.LinearAlgebra.Matrix.NonsingularInverse
import Mathlib.LinearAlgebra.Matrix.Hermitian
import Mathlib.Algebra.BigOperators.Fin
/- The contracts of Spec/Kernels.lean are consistent: there are kernels that satisfy them, over every field. -/
namespace DLAF
variable {K : Type*} [Field K] [StarRing K]

/-- Elements as a matrix. -/
def toM (n m : Nat) (f : Nat → Nat → K) : Matrix (Fin n) (Fin m) K := fun i j => f i j
/-- A matrix as elements. -/
def ofM {n m : Nat} (X : Matrix (Fin n) (Fin m) K) : Nat → Nat → K := fun r c =>
  if h : r < n ∧ c < m then X ⟨r, h.1⟩ ⟨c, h.2⟩ else 0

omit [StarRing K] in
theorem ofM_eq {n m : Nat} (X : Matrix (Fin n) (Fin m) K) (r : Fin n) (c : Fin m) : ofM X r c = X r c := by
  simp [ofM]

omit [StarRing K] in
theorem ofM_eq' {n m : Nat} (X : Matrix (Fin n) (Fin m) K) {r c : Nat} (hr : r < n) (hc : c < m) :
    ofM X r c = X ⟨r, hr⟩ ⟨c, hc⟩ := by
  simp [ofM, hr, hc]

omit [StarRing K] in
/-- Products of elements are matrix products. -/
theorem sum_mul_eq {n m p : Nat} (f g : Nat → Nat → K) (r : Fin n) (c : Fin p) :
    ∑ l ∈ Finset.range m, f r l * g l c = (toM n m f * toM m p g) r c := by
  rw [Finset.sum_range, Matrix.mul_apply]
  rfl

omit [StarRing K] in
theorem tri_upper_zero {u : Uplo} {d : Diag} {a : Blk K} {r c : Nat} (h1 : ¬ inTri u d r c) (h2 : r ≠ c) :
    (a.tri u d).e r c = 0 := by
  simp only [Blk.tri, if_neg h2]
  cases u <;> simp only [inTri] at h1 <;> simp only [decide_eq_true_eq] <;> rw [if_neg] <;>
  · intro h; exact h1 (Or.inl h)

omit [StarRing K] in
theorem tri_det {u : Uplo} {d : Diag} {a : Blk K} (h : Nonsing d a) : (toM a.rows a.rows (a.tri u d).e).det ≠ 0 := by
  have hdet : (toM a.rows a.rows (a.tri u d).e).det = ∏ i : Fin a.rows, (a.tri u d).e i i := by
    cases u
    · rw [Matrix.det_of_isLowerTriangular]
      · rfl
      · intro i j hij
        have hij' : i < j := hij
        refine tri_upper_zero ?_ (by rw [Fin.lt_def] at hij'; omega)
        simp only [inTri]
        rw [Fin.lt_def] at hij'
        rintro (h | h) <;> omega
    · rw [Matrix.det_of_isUpperTriangular]
      · rfl
      · intro i j hij
        have hij' : j < i := hij
        refine tri_upper_zero ?_ (by rw [Fin.lt_def] at hij'; omega)
        simp only [inTri]
        rw [Fin.lt_def] at hij'
        rintro (h | h) <;> omega
  rw [hdet, Finset.prod_ne_zero_iff]
  intro i _
  simp only [Blk.tri, if_true]
  rcases h.2 with h | h
  · simp [h]
  · by_cases hd : d = .Unit
    · simp [hd]
    · simp only [if_neg hd]; exact h i i.2

theorem tri_op_det {u : Uplo} {d : Diag} {o : BlasOp} {a : Blk K} (h : Nonsing d a) :
    (toM a.rows a.rows ((a.tri u d).op o).e).det ≠ 0 := by
  have h0 := tri_det (u := u) h
  cases o
  · exact h0
  · rw [show toM a.rows a.rows ((a.tri u d).op .Trans).e = (toM a.rows a.rows (a.tri u d).e).transpose from rfl,
      Matrix.det_transpose]
    exact h0
  · rw [show toM a.rows a.rows ((a.tri u d).op .ConjTrans).e = (toM a.rows a.rows (a.tri u d).e).conjTranspose from rfl,
      Matrix.det_conjTranspose]
    exact fun e => h0 (star_eq_zero.1 e)

open Classical in
/-- Kernels with the contracts of `LapackSpec`. -/
noncomputable def lapackOf (pos : K → Prop) : Lapack K where
  trsm s u o d alpha a b :=
    match s with
    | .Left => ofM (alpha • ((toM a.rows a.rows ((a.tri u d).op o).e)⁻¹ * toM a.rows b.cols b.e))
    | .Right => ofM (alpha • (toM b.rows a.rows b.e * (toM a.rows a.rows ((a.tri u d).op o).e)⁻¹))
  potrf u a := if h : ∃ f, IsChol pos u a.rows a.e f ∧
      (∀ r < a.rows, ∀ c < a.rows, ¬ inTri u .NonUnit r c → f r c = a.e r c) then some h.choose else none
  trtri u d a := some fun r c =>
    if inTri u d r c then ofM (toM a.rows a.rows (a.tri u d).e)⁻¹ r c else a.e r c
  lauum u a := some fun r c =>
    if inTri u .NonUnit r c then
      match u with
      | .Lower => ∑ l ∈ Finset.range a.rows, star ((a.tri u .NonUnit).e l r) * (a.tri u .NonUnit).e l c
      | .Upper => ∑ l ∈ Finset.range a.rows, (a.tri u .NonUnit).e r l * star ((a.tri u .NonUnit).e c l)
    else a.e r c
  hegst u a b := some fun r c =>
    if inTri u .NonUnit r c then
      match u with
      | .Lower => ofM ((toM a.rows a.rows (b.tri u .NonUnit).e)⁻¹ * toM a.rows a.rows (a.herm u).e *
          (toM a.rows a.rows (b.tri u .NonUnit).e)⁻¹.conjTranspose) r c
      | .Upper => ofM ((toM a.rows a.rows (b.tri u .NonUnit).e)⁻¹.conjTranspose * toM a.rows a.rows (a.herm u).e *
          (toM a.rows a.rows (b.tri u .NonUnit).e)⁻¹) r c
    else a.e r c

theorem herm_isHermitian {u : Uplo} {a : Blk K} {n : Nat} (h : ∀ i < n, star (a.e i i) = a.e i i) :
    (toM n n (a.herm u).e).IsHermitian := by
  ext r c
  rw [Matrix.conjTranspose_apply]
  simp only [toM, Blk.herm]
  by_cases hrc : (r : Nat) = c
  · have := h r r.2
    rw [← hrc]
    cases u <;> simp [this]
  · cases u <;> simp only [decide_eq_true_eq]
    · by_cases hle : (c : Nat) ≤ r
      · rw [if_pos hle, if_neg (by omega), star_star]
      · rw [if_neg hle, if_pos (by omega)]
    · by_cases hle : (r : Nat) ≤ c
      · rw [if_pos hle, if_neg (by omega), star_star]
      · rw [if_neg hle, if_pos (by omega)]

/-- A Hermitian matrix is what BLAS sees when one triangle of it is stored. -/
theorem herm_of_hermitian {u : Uplo} {n : Nat} {X : Matrix (Fin n) (Fin n) K} (hX : X.IsHermitian) {f : Nat → Nat → K}
    (hf : ∀ r < n, ∀ c < n, inTri u .NonUnit r c → f r c = ofM X r c) :
    toM n n ((⟨n, n, f⟩ : Blk K).herm u).e = X := by
  ext r c
  have hsym : star (X c r) = X r c := by
    have := congrFun (congrFun hX.eq r) c
    rwa [Matrix.conjTranspose_apply] at this
  cases u <;> simp only [toM, Blk.herm, decide_eq_true_eq]
  · by_cases hle : (c : Nat) ≤ r
    · rw [if_pos hle, hf r r.2 c c.2 (by simp only [inTri]; simp; omega), ofM_eq]
    · rw [if_neg hle, hf c c.2 r r.2 (by simp only [inTri]; simp; omega), ofM_eq, hsym]
  · by_cases hle : (r : Nat) ≤ c
    · rw [if_pos hle, hf r r.2 c c.2 (by simp only [inTri]; simp; omega), ofM_eq]
    · rw [if_neg hle, hf c c.2 r r.2 (by simp only [inTri]; simp; omega), ofM_eq, hsym]

omit [StarRing K] in
theorem sum3_eq {n : Nat} (f g h : Nat → Nat → K) (r c : Fin n) :
    ∑ p ∈ Finset.range n, ∑ q ∈ Finset.range n, f r p * g p q * h q c =
      (toM n n f * toM n n g * toM n n h) r c := by
  rw [Finset.sum_comm, Finset.sum_range, Matrix.mul_apply]
  refine Finset.sum_congr rfl fun q _ => ?_
  rw [← sum_mul_eq (m := n) f g r q, Finset.sum_mul]
  rfl

omit [StarRing K] in
/-- The inverse of a triangular matrix is triangular, with inverse diagonal. -/
theorem tri_inv {u : Uplo} {d : Diag} {a : Blk K} (h : Nonsing d a) {f : Nat → Nat → K}
    (hf : ∀ r < a.rows, ∀ c < a.rows, inTri u d r c → f r c = ofM (toM a.rows a.rows (a.tri u d).e)⁻¹ r c) :
    toM a.rows a.rows ((⟨a.rows, a.rows, f⟩ : Blk K).tri u d).e = (toM a.rows a.rows (a.tri u d).e)⁻¹ := by
  obtain ⟨T, hT⟩ : ∃ T, T = toM a.rows a.rows (a.tri u d).e := ⟨_, rfl⟩
  have hdet : T.det ≠ 0 := by rw [hT]; exact tri_det h
  have hTT : T * T⁻¹ = 1 := Matrix.mul_nonsing_inv _ (isUnit_iff_ne_zero.2 hdet)
  have hinv : Nonempty (Invertible T) := ⟨Matrix.invertibleOfIsUnitDet T (isUnit_iff_ne_zero.2 hdet)⟩
  obtain ⟨hinv⟩ := hinv
  have hTz : ∀ r c : Fin a.rows, ¬ inTri u .NonUnit r c → T r c = 0 := by
    intro r c hrc
    rw [hT]
    refine tri_upper_zero ?_ ?_
    · cases u <;> simp only [inTri] at hrc ⊢ <;> intro hh <;> apply hrc <;> rcases hh with hh | hh
      · exact Or.inl hh
      · exact Or.inr ⟨hh.1, trivial⟩
      · exact Or.inl hh
      · exact Or.inr ⟨hh.1, trivial⟩
    · intro e
      cases u <;> simp [inTri, e] at hrc
  have hz : ∀ r c : Fin a.rows, ¬ inTri u .NonUnit r c → T⁻¹ r c = 0 := by
    cases u
    · have hb : T.BlockTriangular (OrderDual.toDual : Fin a.rows → _) := by
        intro i j hij
        have hij' : i < j := hij
        rw [Fin.lt_def] at hij'
        exact hTz i j (by simp [inTri]; omega)
      have hb' := Matrix.blockTriangular_inv_of_blockTriangular hb
      intro r c hrc
      exact hb' (show r < c by rw [Fin.lt_def]; simp [inTri] at hrc; omega)
    · have hb : T.BlockTriangular (id : Fin a.rows → _) := by
        intro i j hij
        have hij' : j < i := hij
        rw [Fin.lt_def] at hij'
        exact hTz i j (by simp [inTri]; omega)
      have hb' := Matrix.blockTriangular_inv_of_blockTriangular hb
      intro r c hrc
      exact hb' (show c < r by rw [Fin.lt_def]; simp [inTri] at hrc; omega)
  have hdiag : ∀ r : Fin a.rows, T r r * T⁻¹ r r = 1 := by
    intro r
    have := congrFun (congrFun hTT r) r
    rw [Matrix.mul_apply, Matrix.one_apply_eq, Finset.sum_eq_single r] at this
    · exact this
    · intro l _ hl
      have hl' : (l : Nat) ≠ r := fun e => hl (Fin.ext e)
      by_cases h1 : inTri u .NonUnit r l
      · rw [hz l r (by cases u <;> simp [inTri] at h1 ⊢ <;> omega), mul_zero]
      · rw [hTz r l h1, zero_mul]
    · simp
  rw [← hT] at hf ⊢
  ext r c
  by_cases hrc : r = c
  · subst hrc
    simp only [toM, Blk.tri, if_true]
    cases d
    · rw [if_neg (by simp), hf r r.2 r r.2 (by cases u <;> simp [inTri]), ofM_eq]
    · have h1 := hdiag r
      have h2 : T r r = 1 := by rw [hT]; simp [toM, Blk.tri]
      rw [h2, one_mul] at h1
      rw [h1]; simp
  · have hne : (r : Nat) ≠ c := fun e => hrc (Fin.ext e)
    by_cases h1 : inTri u .NonUnit r c
    · have h2 : inTri u d r c := by cases u <;> simp only [inTri] at h1 ⊢ <;> left <;> omega
      rw [show T⁻¹ r c = f r c by rw [hf r r.2 c c.2 h2, ofM_eq]]
      simp only [toM, Blk.tri, if_neg hne]
      cases u <;> simp only [inTri] at h1 <;> simp only [decide_eq_true_eq] <;> rw [if_pos (by omega)]
    · rw [hz r c h1]
      exact tri_upper_zero (by cases u <;> simp only [inTri] at h1 ⊢ <;> omega) hne

/-- The contracts are consistent, for every field and every notion of positive number. -/
theorem lapack_spec (pos : K → Prop) : LapackSpec (lapackOf pos) pos := by
  classical
  refine ⟨?_, ?_, ?_, ?_, ?_, ?_, ?_, ?_⟩
  · intro u o d alpha a b h1 h2 r hr c hc
    have hdet := tri_op_det (u := u) (o := o) h1
    have hmul := Matrix.mul_nonsing_inv (toM a.rows a.rows ((a.tri u d).op o).e) (isUnit_iff_ne_zero.2 hdet)
    simp only [lapackOf]
    rw [← h2] at hr ⊢
    have := sum_mul_eq (n := a.rows) (m := a.rows) (p := b.cols) ((a.tri u d).op o).e
      (ofM (alpha • ((toM a.rows a.rows ((a.tri u d).op o).e)⁻¹ * toM a.rows b.cols b.e))) ⟨r, hr⟩ ⟨c, hc⟩
    rw [this]
    have e : toM a.rows b.cols (ofM (alpha • ((toM a.rows a.rows ((a.tri u d).op o).e)⁻¹ * toM a.rows b.cols b.e))) =
        alpha • ((toM a.rows a.rows ((a.tri u d).op o).e)⁻¹ * toM a.rows b.cols b.e) := by
      ext i j; exact ofM_eq _ i j
    rw [e, Matrix.mul_smul, ← Matrix.mul_assoc, hmul, Matrix.one_mul]
    rfl
  · intro u o d alpha a b h1 h2 r hr c hc
    have hdet := tri_op_det (u := u) (o := o) h1
    have hmul := Matrix.nonsing_inv_mul (toM a.rows a.rows ((a.tri u d).op o).e) (isUnit_iff_ne_zero.2 hdet)
    simp only [lapackOf]
    rw [← h2] at hc ⊢
    have := sum_mul_eq (n := b.rows) (m := a.rows) (p := a.rows)
      (ofM (alpha • (toM b.rows a.rows b.e * (toM a.rows a.rows ((a.tri u d).op o).e)⁻¹)))
      ((a.tri u d).op o).e ⟨r, hr⟩ ⟨c, hc⟩
    rw [this]
    have e : toM b.rows a.rows (ofM (alpha • (toM b.rows a.rows b.e * (toM a.rows a.rows ((a.tri u d).op o).e)⁻¹))) =
        alpha • (toM b.rows a.rows b.e * (toM a.rows a.rows ((a.tri u d).op o).e)⁻¹) := by
      ext i j; exact ofM_eq _ i j
    rw [e, Matrix.smul_mul, Matrix.mul_assoc, hmul, Matrix.mul_one]
    rfl
  · intro s u o d a b _ r hr c hc
    cases s <;> simp [lapackOf, ofM]
  · intro u a f h1 h2
    simp only [lapackOf] at h2
    split at h2
    · rename_i h
      cases h2
      exact h.choose_spec
    · cases h2
  · intro u a f h1 h2
    simp only [lapackOf]
    rw [dif_pos]
    · rfl
    · classical
      refine ⟨fun r c => if inTri u .NonUnit r c then f r c else a.e r c, ⟨?_, ?_⟩, ?_⟩
      · intro i hi
        have := h2.1 i hi
        cases u <;> simpa [inTri] using this
      · have h3 := h2.2
        cases u <;> simp only at h3 ⊢
        · intro r hr c hc
          rw [← h3 r hr c hc]
          refine Finset.sum_congr rfl fun l hl => ?_
          rw [Finset.mem_range] at hl
          rw [if_pos (by simp only [inTri]; simp; omega), if_pos (by simp only [inTri]; simp; omega)]
        · intro r hr c hc
          rw [← h3 r hr c hc]
          refine Finset.sum_congr rfl fun l hl => ?_
          rw [Finset.mem_range] at hl
          rw [if_pos (by simp only [inTri]; simp; omega), if_pos (by simp only [inTri]; simp; omega)]
      · intro r _ c _ h
        simp [h]
  · intro u d a h
    obtain ⟨F, hF⟩ : ∃ F, (lapackOf pos).trtri u d a = some F := ⟨_, rfl⟩
    have hFe : ∀ r c, F r c = if inTri u d r c then ofM (toM a.rows a.rows (a.tri u d).e)⁻¹ r c else a.e r c := by
      intro r c
      simp only [lapackOf, Option.some.injEq] at hF
      rw [← hF]
    refine ⟨F, hF, ?_, ?_⟩
    · intro r hr c hc
      have hdet := tri_det (u := u) h
      have hmul := Matrix.mul_nonsing_inv (toM a.rows a.rows (a.tri u d).e) (isUnit_iff_ne_zero.2 hdet)
      have := sum_mul_eq (n := a.rows) (m := a.rows) (p := a.rows) (a.tri u d).e
        ((⟨a.rows, a.rows, F⟩ : Blk K).tri u d).e ⟨r, hr⟩ ⟨c, hc⟩
      rw [this, tri_inv h, hmul, Matrix.one_apply]
      · simp
      · intro r _ c _ h; rw [hFe, if_pos h]
    · intro r _ c _ h; rw [hFe, if_neg h]
  · intro u a h
    refine ⟨_, rfl, ?_, ?_⟩
    · intro r _ c _ h; simp only [h, if_true]; cases u <;> rfl
    · intro r _ c _ h; simp only [h, if_false]
  · intro u a b h1 h2 h3 h4
    obtain ⟨n, hn⟩ : ∃ n, n = a.rows := ⟨_, rfl⟩
    obtain ⟨T, hT⟩ : ∃ T, T = toM a.rows a.rows (b.tri u .NonUnit).e := ⟨_, rfl⟩
    have hdet : T.det ≠ 0 := by
      rw [hT, h3]; exact tri_det h2
    have hTT : T * T⁻¹ = 1 := Matrix.mul_nonsing_inv _ (isUnit_iff_ne_zero.2 hdet)
    have hTT' : T⁻¹ * T = 1 := Matrix.nonsing_inv_mul _ (isUnit_iff_ne_zero.2 hdet)
    have hct : T⁻¹.conjTranspose * T.conjTranspose = 1 := by
      rw [← Matrix.conjTranspose_mul, hTT, Matrix.conjTranspose_one]
    have hct' : T.conjTranspose * T⁻¹.conjTranspose = 1 := by
      rw [← Matrix.conjTranspose_mul, hTT', Matrix.conjTranspose_one]
    have hH := herm_isHermitian (u := u) h4
    obtain ⟨H, hHd⟩ : ∃ H, H = toM a.rows a.rows (a.herm u).e := ⟨_, rfl⟩
    rw [← hHd] at hH
    obtain ⟨F, hF⟩ : ∃ F, (lapackOf pos).hegst u a b = some F := ⟨_, rfl⟩
    have hFe := hF
    simp only [lapackOf, Option.some.injEq] at hFe
    refine ⟨F, hF, ?_, ?_, ?_⟩
    · intro r hr c hc
      cases u
      · simp only
        have hX : (T⁻¹ * H * T⁻¹.conjTranspose).IsHermitian := by
          unfold Matrix.IsHermitian
          rw [Matrix.conjTranspose_mul, Matrix.conjTranspose_mul, Matrix.conjTranspose_conjTranspose, hH.eq,
            Matrix.mul_assoc]
        have e := sum3_eq (n := a.rows) (b.tri .Lower .NonUnit).e ((⟨a.rows, a.rows, F⟩ : Blk K).herm .Lower).e
          (fun q c => star ((b.tri .Lower .NonUnit).e c q)) ⟨r, hr⟩ ⟨c, hc⟩
        rw [e, herm_of_hermitian hX, ← hT, show toM a.rows a.rows (fun q c => star ((b.tri .Lower .NonUnit).e c q)) =
          T.conjTranspose by rw [hT]; rfl, Matrix.mul_assoc, Matrix.mul_assoc, hct, Matrix.mul_one, ← Matrix.mul_assoc,
          hTT, Matrix.one_mul, hHd]
        · rfl
        · intro r _ c _ h
          rw [← hFe]; simp only [h, if_true, ← hT, ← hHd]
      · simp only
        have hX : (T⁻¹.conjTranspose * H * T⁻¹).IsHermitian := by
          unfold Matrix.IsHermitian
          rw [Matrix.conjTranspose_mul, Matrix.conjTranspose_mul, Matrix.conjTranspose_conjTranspose, hH.eq,
            Matrix.mul_assoc]
        have e := sum3_eq (n := a.rows) (fun r p => star ((b.tri .Upper .NonUnit).e p r))
          ((⟨a.rows, a.rows, F⟩ : Blk K).herm .Upper).e (b.tri .Upper .NonUnit).e ⟨r, hr⟩ ⟨c, hc⟩
        rw [e, herm_of_hermitian hX, ← hT, show toM a.rows a.rows (fun r p => star ((b.tri .Upper .NonUnit).e p r)) =
          T.conjTranspose by rw [hT]; rfl, Matrix.mul_assoc, Matrix.mul_assoc, hTT', Matrix.mul_one, ← Matrix.mul_assoc,
          hct', Matrix.one_mul, hHd]
        · rfl
        · intro r _ c _ h
          rw [← hFe]; simp only [h, if_true, ← hT, ← hHd]
    · intro i hi
      have hin : inTri u .NonUnit i i := by cases u <;> simp [inTri]
      rw [← hFe]
      simp only [hin, if_true, ← hT, ← hHd]
      cases u <;> simp only
      · have hX : (T⁻¹ * H * T⁻¹.conjTranspose).IsHermitian := by
          unfold Matrix.IsHermitian
          rw [Matrix.conjTranspose_mul, Matrix.conjTranspose_mul, Matrix.conjTranspose_conjTranspose, hH.eq,
            Matrix.mul_assoc]
        rw [ofM_eq' _ hi hi]
        have := congrFun (congrFun hX.eq ⟨i, hi⟩) ⟨i, hi⟩
        rwa [Matrix.conjTranspose_apply] at this
      · have hX : (T⁻¹.conjTranspose * H * T⁻¹).IsHermitian := by
          unfold Matrix.IsHermitian
          rw [Matrix.conjTranspose_mul, Matrix.conjTranspose_mul, Matrix.conjTranspose_conjTranspose, hH.eq,
            Matrix.mul_assoc]
        rw [ofM_eq' _ hi hi]
        have := congrFun (congrFun hX.eq ⟨i, hi⟩) ⟨i, hi⟩
        rwa [Matrix.conjTranspose_apply] at this
    · intro r _ c _ h
      rw [← hFe]
      simp only [h, if_false]

end DLAF
