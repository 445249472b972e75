import Verif.Lemmas.TriangularVariants
import Verif.Model.Inverse
import Verif.Model.GenToStd
/- The upper variants of the inverse and of the transformation to standard form are adjoints of the lower ones. -/
namespace DLAF
variable {K : Type*} [Field K] [StarRing K]

theorem map_adj_adj (x : Option (Blk K)) : (x.map Blk.adj).map Blk.adj = x := by
  cases x <;> simp

theorem tileTrtri_adj (k : Lapack K) (u : Uplo) (d : Diag) (a : Blk K) :
    (k.tileTrtri u d a).map Blk.adj = k.adj.tileTrtri u.flip d a.adj := by
  unfold Lapack.tileTrtri
  simp only [Blk.adj_rows, Blk.adj_cols, Lapack.adj, Uplo.flip_flip, Blk.adj_adj]
  by_cases h : a.rows = a.cols
  · rw [if_pos h, if_pos h.symm]
    cases k.trtri u d a with
    | none => rfl
    | some f => simp [Blk.adj]; rfl
  · rw [if_neg h, if_neg (fun e => h e.symm)]; rfl

theorem tileLauum_adj (k : Lapack K) (u : Uplo) (a : Blk K) :
    (k.tileLauum u a).map Blk.adj = k.adj.tileLauum u.flip a.adj := by
  unfold Lapack.tileLauum
  simp only [Blk.adj_rows, Blk.adj_cols, Lapack.adj, Uplo.flip_flip, Blk.adj_adj]
  by_cases h : a.rows = a.cols
  · rw [if_pos h, if_pos h.symm]
    cases k.lauum u a with
    | none => rfl
    | some f => simp [Blk.adj]; rfl
  · rw [if_neg h, if_neg (fun e => h e.symm)]; rfl

theorem tileHegst_adj (k : Lapack K) (u : Uplo) (a b : Blk K) :
    (k.tileHegst u a b).map Blk.adj = k.adj.tileHegst u.flip a.adj b.adj := by
  unfold Lapack.tileHegst
  simp only [Blk.adj_rows, Blk.adj_cols, Lapack.adj, Uplo.flip_flip, Blk.adj_adj]
  by_cases h : a.rows = a.cols ∧ b.rows = b.cols ∧ a.rows = b.rows
  · rw [if_pos h, if_pos ⟨h.1.symm, h.2.1.symm, by rw [← h.1, ← h.2.1, h.2.2]⟩]
    cases k.hegst u a b with
    | none => rfl
    | some f => simp [Blk.adj]; rfl
  · rw [if_neg h, if_neg (fun e => h ⟨e.1.symm, e.2.1.symm, by rw [← e.1, ← e.2.1, e.2.2]⟩)]; rfl

theorem herk_adj' (u : Uplo) (alpha beta : K) (p a : Blk K) :
    (herk u .NoTrans alpha p beta a).map Blk.adj = herk u.flip .ConjTrans (star alpha) p.adj (star beta) a.adj := by
  have h := herk_adj u.flip (star alpha) (star beta) p.adj a.adj
  rw [Uplo.flip_flip, star_star, star_star, Blk.adj_adj, Blk.adj_adj] at h
  rw [← h, map_adj_adj]

theorem hemm_adj (s : Side) (u : Uplo) (alpha beta : K) (a b c : Blk K) :
    (hemm s u alpha a b beta c).map Blk.adj = hemm s.flip u.flip (star alpha) a.adj b.adj (star beta) c.adj := by
  have hh : ∀ r q, star ((a.herm u).e r q) = (a.adj.herm u.flip).e q r := by
    intro r q
    rw [Blk.adj_herm, Uplo.flip_flip]
  unfold hemm
  cases s
  · simp only [Side.flip]
    by_cases h : c.rows = a.rows ∧ c.cols = b.cols ∧ a.cols = b.rows
    · rw [if_pos h, if_pos (show c.adj.rows = b.adj.rows ∧ c.adj.cols = a.adj.cols ∧ a.adj.rows = b.adj.cols from ⟨h.2.1, h.1, h.2.2⟩)]
      simp only [Option.map_some, Blk.adj, Option.some.injEq, Blk.mul]
      congr 1
      funext r q
      simp only [star_add, star_mul', star_sum, hh]
      have : (a.herm u).cols = b.rows := h.2.2
      rw [this]
      congr 2
      refine Finset.sum_congr rfl fun l _ => ?_
      rw [mul_comm]
      rfl
    · rw [if_neg h, if_neg (show ¬ (c.adj.rows = b.adj.rows ∧ c.adj.cols = a.adj.cols ∧ a.adj.rows = b.adj.cols) from fun e => h ⟨e.2.1, e.1, e.2.2⟩)]
      rfl
  · simp only [Side.flip]
    by_cases h : c.rows = b.rows ∧ c.cols = a.cols ∧ a.rows = b.cols
    · rw [if_pos h, if_pos (show c.adj.rows = a.adj.rows ∧ c.adj.cols = b.adj.cols ∧ a.adj.cols = b.adj.rows from ⟨h.2.1, h.1, h.2.2⟩)]
      simp only [Option.map_some, Blk.adj, Option.some.injEq, Blk.mul]
      congr 1
      funext r q
      simp only [star_add, star_mul', star_sum, hh]
      have : (a.adj.herm u.flip).cols = b.cols := h.2.2
      have h3 : ((⟨a.cols, a.rows, fun r c => star (a.e c r)⟩ : Blk K).herm u.flip).cols = b.cols := h.2.2
      rw [h3]
      congr 2
      refine Finset.sum_congr rfl fun l _ => ?_
      rw [mul_comm]
      rfl
    · rw [if_neg h, if_neg (show ¬ (c.adj.rows = a.adj.rows ∧ c.adj.cols = b.adj.cols ∧ a.adj.cols = b.adj.rows) from fun e => h ⟨e.2.1, e.1, e.2.2⟩)]
      rfl

theorem her2k_adj (u : Uplo) (alpha beta : K) (a b c : Blk K) :
    (her2k u .ConjTrans alpha a b beta c).map Blk.adj = her2k u.flip .NoTrans alpha a.adj b.adj (star beta) c.adj := by
  unfold her2k
  by_cases h : c.rows = c.cols ∧ a.rows = b.rows ∧ a.cols = b.cols ∧ c.rows = a.cols
  · rw [if_pos (show c.rows = c.cols ∧ a.rows = b.rows ∧ a.cols = b.cols ∧ c.rows = (a.op .ConjTrans).rows from h),
      if_pos (show c.adj.rows = c.adj.cols ∧ a.adj.rows = b.adj.rows ∧ a.adj.cols = b.adj.cols ∧
        c.adj.rows = (a.adj.op .NoTrans).rows from ⟨h.1.symm, h.2.2.1, h.2.1, h.1.symm.trans h.2.2.2⟩)]
    simp only [Option.map_some, Blk.adj, Option.some.injEq, Blk.op]
    congr 1
    funext r q
    have h1 : star (∑ l ∈ Finset.range a.rows, star (a.e l q) * b.e l r) =
        ∑ l ∈ Finset.range b.rows, star (b.e l r) * a.e l q := by
      rw [star_sum, h.2.1]
      refine Finset.sum_congr rfl fun l _ => ?_
      rw [star_mul', star_star, mul_comm]
    have h2 : star (∑ l ∈ Finset.range b.rows, star (b.e l q) * a.e l r) =
        ∑ l ∈ Finset.range a.rows, star (a.e l r) * b.e l q := by
      rw [star_sum, h.2.1]
      refine Finset.sum_congr rfl fun l _ => ?_
      rw [star_mul', star_star, mul_comm]
    cases u <;> simp only [Uplo.flip, Blk.mul, decide_eq_true_eq] <;> split <;>
      simp only [star_star, star_add, star_mul', h1, h2] <;> ring
  · rw [if_neg (show ¬ (c.rows = c.cols ∧ a.rows = b.rows ∧ a.cols = b.cols ∧ c.rows = (a.op .ConjTrans).rows) from h),
      if_neg (show ¬ (c.adj.rows = c.adj.cols ∧ a.adj.rows = b.adj.rows ∧ a.adj.cols = b.adj.cols ∧
        c.adj.rows = (a.adj.op .NoTrans).rows) from
        fun e => h ⟨e.1.symm, e.2.2.1, e.2.1, by have := e.2.2.2; have h1 := e.1; simp only [Blk.adj_rows, Blk.adj_cols, Blk.op] at this h1; omega⟩)]
    rfl

theorem trinvU_adj (lp : Lapack K) (d : Diag) (nt : Nat) (m : Tiles K) :
    (trinvU lp d nt m).map adjT = trinvL lp.adj d nt (adjT m) := by
  refine forM'_sim adjT _ _ ?_
  intro m k _
  unfold trinvStepU trinvStepL
  refine bind_sim adjT ?_ fun m => ?_
  · refine forM'_sim adjT _ _ ?_
    intro m j _
    refine bind_sim adjT ?_ fun m => ?_
    · rw [Tiles.write_adj, tileTrsm_adj, star_neg, star_one]
      rfl
    · refine forM'_sim adjT _ _ ?_
      intro m i _
      rw [Tiles.write_adj, gemm_adj, star_one]
      rfl
  · refine bind_sim adjT ?_ fun m => ?_
    · refine forM'_sim adjT _ _ ?_
      intro m i _
      rw [Tiles.write_adj, tileTrsm_adj, star_one]
      rfl
    · rw [Tiles.write_adj, tileTrtri_adj]
      rfl

theorem assembleU_adj (lp : Lapack K) (nt : Nat) (m : Tiles K) :
    (assembleU lp nt m).map adjT = assembleL lp.adj nt (adjT m) := by
  refine forM'_sim adjT _ _ ?_
  intro m k _
  unfold assembleStepU assembleStepL
  refine bind_sim adjT ?_ fun m => ?_
  · refine forM'_sim adjT _ _ ?_
    intro m j _
    refine bind_sim adjT ?_ fun m => ?_
    · refine forM'_sim adjT _ _ ?_
      intro m i _
      rw [Tiles.write_adj, gemm_adj, star_one]
      rfl
    · rw [Tiles.write_adj, herk_adj', star_one]
      rfl
  · refine bind_sim adjT ?_ fun m => ?_
    · refine forM'_sim adjT _ _ ?_
      intro m i _
      rw [Tiles.write_adj, trmm_adj, star_one]
      rfl
    · rw [Tiles.write_adj, tileLauum_adj]
      rfl

theorem minusHalf_star : star (minusHalf : K) = minusHalf := by
  unfold minusHalf
  rw [star_neg, star_div₀, star_one, star_ofNat]

omit [StarRing K] in
theorem write_write_sq {m : Tiles K} {w : Nat × Nat} {t : Option (Blk K)} {f : Tiles K → Option (Blk K)} {g : Blk K → Option (Blk K)}
    (h : ∀ b, f (fun z => if z = w then b else m z) = g b) :
    (m.write w t).bind (fun m => m.write w (f m)) = m.write w (t.bind g) := by
  cases t with
  | none => rfl
  | some b =>
    simp only [Tiles.write, Option.map_some, Option.bind_some, h]
    cases g b with
    | none => rfl
    | some c =>
      simp only [Option.map_some, Option.some.injEq]
      funext z
      split <;> simp_all

theorem gemm_comm (o1 o2 o3 o4 : BlasOp) (x y : K) (a b c d e : Blk K) :
    (gemm o1 o2 x a b 1 e).bind (fun e => gemm o3 o4 y c d 1 e) = (gemm o3 o4 y c d 1 e).bind (fun e => gemm o1 o2 x a b 1 e) := by
  unfold gemm
  by_cases h1 : (a.op o1).rows = e.rows ∧ (b.op o2).cols = e.cols ∧ (a.op o1).cols = (b.op o2).rows
  · by_cases h2 : (c.op o3).rows = e.rows ∧ (d.op o4).cols = e.cols ∧ (c.op o3).cols = (d.op o4).rows
    · simp only [if_pos h1, if_pos h2, Option.bind_some, Option.some.injEq]
      congr 1
      funext r q
      ring
    · simp only [if_pos h1, if_neg h2, Option.bind_some, Option.bind_none]
  · by_cases h2 : (c.op o3).rows = e.rows ∧ (d.op o4).cols = e.cols ∧ (c.op o3).cols = (d.op o4).rows
    · simp only [if_neg h1, if_pos h2, Option.bind_some, Option.bind_none]
    · simp only [if_neg h1, if_neg h2, Option.bind_none]

theorem genToStdU_adj (lp : Lapack K) (nt : Nat) (u a : Tiles K) :
    (genToStdU lp nt u a).map adjT = genToStdL lp.adj nt (adjT u) (adjT a) := by
  refine forM'_sim adjT _ _ ?_
  intro a k _
  unfold genToStdStepU genToStdStepL
  refine bind_sim adjT ?_ fun a => ?_
  · rw [Tiles.write_adj, tileHegst_adj]
    rfl
  · split
    · rfl
    · refine bind_sim adjT ?_ fun a => ?_
      · refine forM'_sim adjT _ _ ?_
        intro a i _
        refine bind_sim adjT ?_ fun a => ?_
        · rw [Tiles.write_adj, tileTrsm_adj, star_one]
          rfl
        · rw [Tiles.write_adj, hemm_adj, star_one, minusHalf_star]
          rfl
      · refine bind_sim adjT ?_ fun a => ?_
        · refine forM'_sim adjT _ _ ?_
          intro a i hi
          refine bind_sim adjT ?_ fun a => ?_
          · rw [Tiles.write_adj, her2k_adj, star_one]
            rfl
          · refine forM'_sim adjT _ _ ?_
            intro a j hj
            rw [mem_upto] at hi hj
            have n1 : ¬ ((k, i) = (i, j)) := fun e => by cases e; omega
            have n2 : ¬ ((k, j) = (i, j)) := fun e => by cases e; omega
            have n3 : ¬ ((i, k) = (j, i)) := fun e => by cases e; omega
            have n4 : ¬ ((j, k) = (j, i)) := fun e => by cases e; omega
            simp only [Option.bind_eq_bind]
            rw [write_write_sq (w := (i, j)) (g := fun e => gemm .ConjTrans .NoTrans (-1) (u (k, i)) (a (k, j)) 1 e)
                (by intro b; simp only [if_neg n2, if_true]),
              write_write_sq (w := (j, i)) (g := fun e => gemm .NoTrans .ConjTrans (-1) (adjT u (j, k)) (adjT a (i, k)) 1 e)
                (by intro b; simp only [if_neg n3, if_true]), Tiles.write_adj, gemm_comm]
            congr 1
            refine bind_sim Blk.adj ?_ fun e => ?_
            · rw [gemm_adj, star_neg, star_one]
              rfl
            · rw [gemm_adj, star_neg, star_one]
              rfl
        · refine bind_sim adjT ?_ fun a => ?_
          · refine forM'_sim adjT _ _ ?_
            intro a i _
            rw [Tiles.write_adj, hemm_adj, star_one, minusHalf_star]
            rfl
          · refine forM'_sim adjT _ _ ?_
            intro a i _
            refine bind_sim adjT ?_ fun a => ?_
            · rw [Tiles.write_adj, tileTrsm_adj, star_one]
              rfl
            · refine forM'_sim adjT _ _ ?_
              intro a j _
              rw [Tiles.write_adj, gemm_adj, star_neg, star_one]
              rfl

end DLAF
