import Verif.Lemmas.Cholesky
import Verif.Lemmas.LapackExists
import Mathlib.Algebra.Star.BigOperators
import Mathlib.Tactic.Ring
/- The adjoint of a tiled matrix: every variant of an algorithm for upper triangles is the adjoint of a variant for
lower triangles. -/
namespace DLAF
variable {K : Type*} [Field K] [StarRing K]

def Blk.adj (a : Blk K) : Blk K := ⟨a.cols, a.rows, fun r c => star (a.e c r)⟩
def adjE (f : Nat → Nat → K) : Nat → Nat → K := fun r c => star (f c r)
def adjT (m : Tiles K) : Tiles K := fun z => (m (z.2, z.1)).adj

@[simp] theorem Blk.adj_adj (a : Blk K) : a.adj.adj = a := by
  cases a; simp [Blk.adj]
@[simp] theorem adjE_adjE (f : Nat → Nat → K) : adjE (adjE f) = f := by
  funext r c; simp [adjE]
@[simp] theorem adjT_adjT (m : Tiles K) : adjT (adjT m) = m := by
  funext z; simp [adjT]
@[simp] theorem Blk.adj_rows (a : Blk K) : a.adj.rows = a.cols := rfl
@[simp] theorem Blk.adj_cols (a : Blk K) : a.adj.cols = a.rows := rfl
theorem Blk.adj_e (a : Blk K) (r c : Nat) : a.adj.e r c = star (a.e c r) := rfl
theorem adjT_at (m : Tiles K) (i j : Nat) : adjT m (i, j) = (m (j, i)).adj := rfl

def Uplo.flip : Uplo → Uplo
  | .Lower => .Upper
  | .Upper => .Lower
@[simp] theorem Uplo.flip_flip (u : Uplo) : u.flip.flip = u := by cases u <;> rfl
def Side.flip : Side → Side
  | .Left => .Right
  | .Right => .Left
@[simp] theorem Side.flip_flip (u : Side) : u.flip.flip = u := by cases u <;> rfl

theorem Blk.adj_tri (u : Uplo) (d : Diag) (a : Blk K) : (a.adj).tri u d = (a.tri u.flip d).adj := by
  cases u <;>
  · simp only [Blk.tri, Blk.adj, Uplo.flip]
    congr 1
    funext r c
    by_cases h : r = c
    · subst h
      cases d <;> simp
    · have h' : c ≠ r := fun e => h e.symm
      simp only [if_neg h, if_neg h', decide_eq_true_eq]
      split <;> simp

theorem Blk.adj_op (o : BlasOp) (a : Blk K) : a.adj.op o = (a.op o).adj := by
  cases o <;> simp [Blk.op, Blk.adj]

/-- The adjoint implementation. -/
def Lapack.adj (k : Lapack K) : Lapack K where
  trsm s u o d alpha a b := adjE (k.trsm s.flip u.flip o d (star alpha) a.adj b.adj)
  potrf u a := (k.potrf u.flip a.adj).map adjE
  trtri u d a := (k.trtri u.flip d a.adj).map adjE
  lauum u a := (k.lauum u.flip a.adj).map adjE
  hegst u a b := (k.hegst u.flip a.adj b.adj).map adjE

theorem IsChol.adj {pos : K → Prop} (hp : Positive pos) {u : Uplo} {n : Nat} {a f : Nat → Nat → K}
    (h : IsChol pos u n a f) : IsChol pos u.flip n (adjE a) (adjE f) := by
  obtain ⟨h1, h2⟩ := h
  refine ⟨fun i hi => ?_, ?_⟩
  · show pos (star (f i i))
    rw [hp.real _ (h1 i hi)]
    exact h1 i hi
  · cases u
    · intro c hc r hr
      simp only [adjE, star_star]
      rw [← h2 c hc r hr, star_sum]
      refine Finset.sum_congr rfl fun l _ => ?_
      rw [star_mul', star_star, mul_comm]
    · intro r hr c hc
      simp only [adjE, star_star]
      rw [← h2 r hr c hc, star_sum]
      refine Finset.sum_congr rfl fun l _ => ?_
      rw [star_mul', star_star, mul_comm]

theorem inTri_flip (u : Uplo) (d : Diag) (r c : Nat) : inTri u.flip d r c ↔ inTri u d c r := by
  cases u <;> simp only [inTri, Uplo.flip]

theorem Nonsing.adj {d : Diag} {a : Blk K} (h : Nonsing d a) : Nonsing d a.adj := by
  refine ⟨h.1.symm, h.2.imp id fun h3 i hi => ?_⟩
  simp only [Blk.adj_rows] at hi
  rw [Blk.adj_e]
  intro e
  exact h3 i (by rw [h.1]; exact hi) (star_eq_zero.1 e)

theorem Blk.adj_herm (u : Uplo) (a : Blk K) (r c : Nat) :
    (a.adj.herm u).e r c = star ((a.herm u.flip).e c r) := by
  cases u <;> simp only [Blk.herm, Blk.adj, Uplo.flip, decide_eq_true_eq] <;> split <;> rfl

theorem LapackSpec.adj {k : Lapack K} {pos : K → Prop} (hp : Positive pos) (h : LapackSpec k pos) :
    LapackSpec k.adj pos := by
  refine ⟨?_, ?_, ?_, ?_, ?_, ?_, ?_, ?_⟩
  · intro u o d alpha a b h1 h2 r hr c hc
    have := h.trsm_right u.flip o d (star alpha) a.adj b.adj h1.adj (by simp [← h1.1, h2]) c hc r hr
    have e := congrArg star this
    rw [star_mul', star_star, Blk.adj_e, star_star, star_sum] at e
    rw [← e]
    refine Finset.sum_congr rfl fun l _ => ?_
    rw [star_mul', mul_comm]
    rw [Blk.adj_tri, Blk.adj_op, Blk.adj_e, star_star, Uplo.flip_flip]
    rfl
  · intro u o d alpha a b h1 h2 r hr c hc
    have := h.trsm_left u.flip o d (star alpha) a.adj b.adj h1.adj (by simp [← h1.1, h2]) c hc r hr
    have e := congrArg star this
    rw [star_mul', star_star, Blk.adj_e, star_star, star_sum] at e
    rw [← e]
    refine Finset.sum_congr rfl fun l _ => ?_
    rw [star_mul', mul_comm]
    rw [Blk.adj_tri, Blk.adj_op, Blk.adj_e, star_star, Uplo.flip_flip]
    rfl
  · intro s u o d a b h1 r hr c hc
    have h2 := h.trsm_zero s.flip u.flip o d a.adj b.adj (by
      simp only [triSizes, Blk.adj_rows, Blk.adj_cols, Bool.and_eq_true, decide_eq_true_eq] at h1 ⊢
      cases s <;> simp only [Side.flip] at h1 ⊢ <;> exact ⟨decide_eq_true h1.1.symm, decide_eq_true (h1.1.symm.trans h1.2)⟩) c hc r hr
    show star (k.trsm s.flip u.flip o d (star 0) a.adj b.adj c r) = 0
    rw [star_zero, h2, star_zero]
  · intro u a f h1 h2
    simp only [Lapack.adj, Option.map_eq_some_iff] at h2
    obtain ⟨g, h3, rfl⟩ := h2
    obtain ⟨h4, h5⟩ := h.potrf_some u.flip a.adj g (by simp [h1]) h3
    have h6 := h4.adj hp
    rw [Uplo.flip_flip, Blk.adj_rows, ← h1] at h6
    have e : adjE a.adj.e = a.e := adjE_adjE a.e
    rw [e] at h6
    refine ⟨h6, ?_⟩
    intro r hr c hc huc
    have := h5 c (by simp only [Blk.adj_rows]; omega) r (by simp only [Blk.adj_rows]; omega)
      (by rw [inTri_flip]; exact huc)
    show star (g c r) = _
    rw [this, Blk.adj_e, star_star]
  · intro u a f h1 h2
    have h3 := h.potrf_total u.flip a.adj (adjE f) (by simp [h1])
      (by rw [Blk.adj_rows, ← h1]; exact h2.adj hp)
    simp only [Lapack.adj, Option.isSome_map]
    exact h3
  · intro u d a h1
    have h0 := h1.1
    obtain ⟨g, h2, h3, h4⟩ := h.trtri u.flip d a.adj h1.adj
    simp only [Blk.adj_rows, ← h0] at h3 h4
    refine ⟨adjE g, by simp only [Lapack.adj, h2, Option.map_some], ?_, ?_⟩
    · -- a left inverse is a right inverse
      have key : ∀ r < a.rows, ∀ c < a.rows, ∑ l ∈ Finset.range a.rows,
          ((⟨a.rows, a.rows, adjE g⟩ : Blk K).tri u d).e r l * (a.tri u d).e l c = if r = c then 1 else 0 := by
        intro r hr c hc
        have e := congrArg star (h3 c hc r hr)
        rw [star_sum] at e
        rw [show (if r = c then (1 : K) else 0) = star (if c = r then 1 else 0) by
          by_cases hh : r = c
          · rw [if_pos hh, if_pos hh.symm, star_one]
          · rw [if_neg hh, if_neg (fun e => hh e.symm), star_zero], ← e]
        refine Finset.sum_congr rfl fun l _ => ?_
        rw [star_mul', mul_comm, Blk.adj_tri, Blk.adj_e, star_star, Uplo.flip_flip]
        congr 1
        have : (⟨a.rows, a.rows, adjE g⟩ : Blk K) = (⟨a.rows, a.rows, g⟩ : Blk K).adj := rfl
        rw [this, Blk.adj_tri]
        rfl
      intro r hr c hc
      have hm : toM a.rows a.rows ((⟨a.rows, a.rows, adjE g⟩ : Blk K).tri u d).e * toM a.rows a.rows (a.tri u d).e = 1 := by
        ext i j
        rw [← sum_mul_eq, key i i.2 j j.2, Matrix.one_apply]
        simp only [Fin.ext_iff]
      have hm' := mul_eq_one_comm.1 hm
      have := sum_mul_eq (n := a.rows) (m := a.rows) (p := a.rows) (a.tri u d).e
        ((⟨a.rows, a.rows, adjE g⟩ : Blk K).tri u d).e ⟨r, hr⟩ ⟨c, hc⟩
      rw [this, hm', Matrix.one_apply]
      simp only [Fin.ext_iff]
    · intro r hr c hc hn
      show star (g c r) = _
      rw [h4 c hc r hr (by rw [inTri_flip]; exact hn), Blk.adj_e, star_star]
  · intro u a h0
    obtain ⟨g, h2, h3, h4⟩ := h.lauum u.flip a.adj (by simp [h0])
    simp only [Blk.adj_rows, ← h0] at h3 h4
    refine ⟨adjE g, by simp only [Lapack.adj, h2, Option.map_some], ?_, ?_⟩
    · intro r hr c hc hin
      have e := h3 c hc r hr (by rw [inTri_flip]; exact hin)
      show star (g c r) = _
      rw [e]
      cases u <;> simp only [Uplo.flip] <;> rw [star_sum] <;> refine Finset.sum_congr rfl fun l _ => ?_ <;>
        rw [star_mul', mul_comm, Blk.adj_tri, Blk.adj_e, Blk.adj_e] <;> simp only [star_star, Uplo.flip]
    · intro r hr c hc hn
      show star (g c r) = _
      rw [h4 c hc r hr (by rw [inTri_flip]; exact hn), Blk.adj_e, star_star]
  · intro u a b h0 h1 h2 h3
    obtain ⟨g, h4, h5, h6, h7⟩ := h.hegst u.flip a.adj b.adj (by simp [h0]) h1.adj
      (by simp only [Blk.adj_rows]; rw [← h0, h2, h1.1])
      (by intro i hi; simp only [Blk.adj_rows] at hi; rw [Blk.adj_e, star_star]; exact (h3 i (by omega)).symm)
    simp only [Blk.adj_rows, ← h0] at h5 h6 h7
    refine ⟨adjE g, by simp only [Lapack.adj, h4, Option.map_some], ?_, ?_, ?_⟩
    · intro r hr c hc
      have e := congrArg star (h5 c hc r hr)
      rw [Blk.adj_herm, star_star, Uplo.flip_flip] at e
      rw [e]
      have hg : ∀ p q, star (((⟨a.rows, a.rows, g⟩ : Blk K).herm u.flip).e q p) =
          ((⟨a.rows, a.rows, adjE g⟩ : Blk K).herm u).e p q := by
        intro p q
        have : (⟨a.rows, a.rows, adjE g⟩ : Blk K) = (⟨a.rows, a.rows, g⟩ : Blk K).adj := rfl
        rw [this, Blk.adj_herm]
      have ht : ∀ p q, star ((b.adj.tri u.flip .NonUnit).e q p) = (b.tri u .NonUnit).e p q := by
        intro p q
        rw [Blk.adj_tri, Blk.adj_e, star_star, Uplo.flip_flip]
      have ht' : ∀ p q, (b.adj.tri u.flip .NonUnit).e q p = star ((b.tri u .NonUnit).e p q) := by
        intro p q
        rw [← ht, star_star]
      cases u <;> simp only [Uplo.flip] at hg ht ht' ⊢ <;> rw [star_sum, Finset.sum_comm] <;>
        refine Finset.sum_congr rfl fun p _ => ?_ <;> rw [star_sum] <;> refine Finset.sum_congr rfl fun q _ => ?_ <;>
        simp only [star_mul', star_star, ht', hg] <;> ring
    · intro i hi
      show star (star (g i i)) = star (g i i)
      rw [h6 i hi, h6 i hi]
    · intro r hr c hc hn
      show star (g c r) = _
      rw [h7 c hc r hr (by rw [inTri_flip]; exact hn), Blk.adj_e, star_star]

theorem Tiles.write_adj (m : Tiles K) (w : Nat × Nat) (t : Option (Blk K)) :
    (m.write w t).map adjT = (adjT m).write (w.2, w.1) (t.map Blk.adj) := by
  cases t with
  | none => rfl
  | some b =>
    simp only [Tiles.write, Option.map_some, Option.some.injEq]
    funext z
    obtain ⟨i, j⟩ := z
    obtain ⟨p, q⟩ := w
    simp only [adjT, Prod.mk.injEq]
    by_cases h : j = p ∧ i = q
    · rw [if_pos h, if_pos ⟨h.2, h.1⟩]
    · rw [if_neg h, if_neg (fun e => h ⟨e.2, e.1⟩)]

/-- Simulation of loops. -/
theorem forM'_sim {S T X : Type*} (g : S → T) {b : S → X → Option S} {b' : T → X → Option T} :
    ∀ (xs : List X) (s : S), (∀ s, ∀ x ∈ xs, (b s x).map g = b' (g s) x) →
    (forM' xs s b).map g = forM' xs (g s) b'
  | [], _, _ => rfl
  | x :: xs, s, h => by
    rw [forM'_cons, forM'_cons, ← h s x List.mem_cons_self]
    cases hb : b s x with
    | none => rfl
    | some s' =>
      simp only [Option.bind_some, Option.map_some]
      exact forM'_sim g xs s' fun s y hy => h s y (List.mem_cons_of_mem _ hy)

theorem bind_sim {S T : Type*} (g : S → T) {x : Option S} {f : S → Option S} {y : Option T} {f' : T → Option T}
    (h1 : x.map g = y) (h2 : ∀ s, (f s).map g = f' (g s)) : (x.bind f).map g = y.bind f' := by
  subst h1
  cases x with
  | none => rfl
  | some s => exact h2 s

theorem tilePotrf_adj (k : Lapack K) (u : Uplo) (a : Blk K) :
    (k.tilePotrf u a).map Blk.adj = k.adj.tilePotrf u.flip a.adj := by
  unfold Lapack.tilePotrf
  simp only [Blk.adj_rows, Blk.adj_cols, Lapack.adj, Uplo.flip_flip, Blk.adj_adj]
  by_cases h : a.rows = a.cols
  · rw [if_pos h, if_pos h.symm]
    cases k.potrf u a with
    | none => rfl
    | some f => simp [Blk.adj]; rfl
  · rw [if_neg h, if_neg (fun e => h e.symm)]; rfl

theorem tileTrsm_adj (k : Lapack K) (s : Side) (u : Uplo) (o : BlasOp) (d : Diag) (alpha : K) (a b : Blk K) :
    (k.tileTrsm s u o d alpha a b).map Blk.adj = k.adj.tileTrsm s.flip u.flip o d (star alpha) a.adj b.adj := by
  unfold Lapack.tileTrsm triSizes
  simp only [Blk.adj_rows, Blk.adj_cols, Lapack.adj, Uplo.flip_flip, Side.flip_flip, star_star, Blk.adj_adj,
    Bool.and_eq_true, decide_eq_true_eq]
  by_cases h : a.rows = a.cols
  · cases s <;> simp only [Side.flip, h, true_and]
    · by_cases h2 : a.cols = b.rows
      · simp [h2, Blk.adj]; rfl
      · simp [h2]
    · by_cases h2 : a.cols = b.cols
      · simp [h2, Blk.adj]; rfl
      · simp [h2]
  · have h' : ¬ a.cols = a.rows := fun e => h e.symm
    simp [h, h']

theorem herk_adj (u : Uplo) (alpha beta : K) (p a : Blk K) :
    (herk u .ConjTrans alpha p beta a).map Blk.adj = herk u.flip .NoTrans (star alpha) p.adj (star beta) a.adj := by
  unfold herk
  by_cases h : a.rows = a.cols ∧ a.rows = p.cols
  · rw [if_pos (show a.rows = a.cols ∧ a.rows = (p.op .ConjTrans).rows from h),
      if_pos (show a.adj.rows = a.adj.cols ∧ a.adj.rows = (p.adj.op .NoTrans).rows from ⟨h.1.symm, h.1.symm.trans h.2⟩)]
    simp only [Option.map_some, Blk.adj, Option.some.injEq, Blk.op]
    congr 1
    funext r c
    have hsum : star (∑ l ∈ Finset.range p.rows, star (p.e l c) * p.e l r) =
        ∑ l ∈ Finset.range p.rows, star (p.e l r) * p.e l c := by
      rw [star_sum]
      refine Finset.sum_congr rfl fun l _ => ?_
      rw [star_mul', star_star, mul_comm]
    cases u <;> simp only [Uplo.flip, Blk.mul, decide_eq_true_eq] <;> split <;>
      simp only [star_star, star_add, star_mul', hsum]
  · rw [if_neg (show ¬ (a.rows = a.cols ∧ a.rows = (p.op .ConjTrans).rows) from h),
      if_neg (show ¬ (a.adj.rows = a.adj.cols ∧ a.adj.rows = (p.adj.op .NoTrans).rows) by
        rintro ⟨h1, h2⟩; simp only [Blk.adj_rows, Blk.adj_cols, Blk.op] at h1 h2; exact h ⟨h1.symm, by rw [← h1, h2]⟩)]
    rfl

theorem gemm_adj (oa ob : BlasOp) (alpha beta : K) (a b c : Blk K) :
    (gemm oa ob alpha a b beta c).map Blk.adj = gemm ob oa (star alpha) b.adj a.adj (star beta) c.adj := by
  unfold gemm
  simp only [Blk.adj_op, Blk.adj_rows, Blk.adj_cols]
  by_cases h : (a.op oa).rows = c.rows ∧ (b.op ob).cols = c.cols ∧ (a.op oa).cols = (b.op ob).rows
  · rw [if_pos h, if_pos ⟨h.2.1, h.1, h.2.2.symm⟩]
    simp only [Option.map_some, Blk.adj, Option.some.injEq, Blk.mul]
    congr 1
    funext r q
    simp only [star_add, star_mul', star_sum]
    rw [h.2.2]
    congr 2
    refine Finset.sum_congr rfl fun l _ => ?_
    rw [mul_comm]
  · rw [if_neg h, if_neg]
    · rfl
    · rintro ⟨h1, h2, h3⟩; exact h ⟨h2, h1, h3.symm⟩

/-- The upper factorization is the adjoint of the lower one. -/
theorem cholU_adj (lp : Lapack K) (nt : Nat) (m : Tiles K) :
    (cholU lp nt m).map adjT = cholL lp.adj nt (adjT m) := by
  refine forM'_sim adjT _ _ ?_
  intro m k _
  unfold cholStepU cholStepL
  refine bind_sim adjT ?_ fun m => ?_
  · rw [Tiles.write_adj]
    unfold potrfU potrfL
    rw [tilePotrf_adj]
    rfl
  · refine bind_sim adjT ?_ fun m => ?_
    · refine forM'_sim adjT _ _ ?_
      intro m j _
      rw [Tiles.write_adj]
      unfold trsmU trsmL
      rw [tileTrsm_adj, star_one]
      rfl
    · refine forM'_sim adjT _ _ ?_
      intro m i _
      refine bind_sim adjT ?_ fun m => ?_
      · rw [Tiles.write_adj]
        unfold herkU herkL
        rw [herk_adj, star_neg, star_one]
        rfl
      · refine forM'_sim adjT _ _ ?_
        intro m j _
        rw [Tiles.write_adj]
        unfold gemmU gemmL
        rw [gemm_adj, star_neg, star_one]
        rfl
end DLAF
