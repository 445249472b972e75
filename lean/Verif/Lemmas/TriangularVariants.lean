import Verif.Lemmas.Triangular
/- The eight variants of the triangular solver and of the triangular multiplication as instances of one loop. -/
namespace DLAF
variable {K : Type*} [Field K] [StarRing K]

/-- The tile of `a` that holds block `(i, k)` of `op(a)`. -/
def srcTile (o : BlasOp) (i k : Nat) : Nat × Nat := if o = .NoTrans then (i, k) else (k, i)

/-- The direction of the solver: is `op(A)` lower triangular? -/
def lowerOp (u : Uplo) (o : BlasOp) : Bool :=
  match u, o with
  | .Lower, .NoTrans => true
  | .Lower, _ => false
  | .Upper, .NoTrans => false
  | .Upper, _ => true

theorem solver_left (lp : Lapack K) (u : Uplo) (o : BlasOp) (d : Diag) (alpha beta : K) (m n : Nat) (a b : Tiles K) :
    Solver.triangular_solver lp .Left u o d alpha beta m n a b =
      genSolve (if lowerOp u o then upto 0 m else downto m 0) (if lowerOp u o then upto 0 n else downto n 0)
        (fun k => if lowerOp u o then upto (k + 1) m else downto k 0)
        (fun k x => lp.tileTrsm .Left u o d alpha (a (k, k)) x)
        (fun i k x y => gemm o .NoTrans beta (a (srcTile o i k)) x 1 y) b := by
  cases u <;> cases o <;> rfl

theorem mult_left (u : Uplo) (o : BlasOp) (d : Diag) (alpha : K) (m n : Nat) (a b : Tiles K) :
    Mult.triangular_multiplication .Left u o d alpha m n a b =
      genMult (if lowerOp u o then downto m 0 else upto 0 m)
        (if u = .Upper ∧ o ≠ .NoTrans then downto n 0 else upto 0 n)
        (fun k => if lowerOp u o then upto (k + 1) m else if o = .NoTrans then upto 0 k else downto k 0)
        (fun k x => trmm .Left u o d alpha (a (k, k)) x)
        (fun i k x y => gemm o .NoTrans alpha (a (srcTile o i k)) x 1 y) b := by
  cases u <;> cases o <;> rfl

theorem solver_right (lp : Lapack K) (u : Uplo) (o : BlasOp) (d : Diag) (alpha beta : K) (m n : Nat) (a b : Tiles K) :
    (Solver.triangular_solver lp .Right u o d alpha beta m n a b).map adjT =
      Solver.triangular_solver lp.adj .Left u.flip o d (star alpha) (star beta) n m (adjT a) (adjT b) := by
  cases u <;> cases o <;>
  · refine forM'_sim adjT _ _ ?_
    intro b k _
    refine forM'_sim adjT _ _ ?_
    intro b i _
    refine bind_sim adjT ?_ fun b => ?_
    · rw [Tiles.write_adj, tileTrsm_adj]
      rfl
    · refine forM'_sim adjT _ _ ?_
      intro b j _
      rw [Tiles.write_adj, gemm_adj, star_one]
      rfl

omit [Field K] [StarRing K] in
theorem triSizes_left (a b : Blk K) : triSizes .Left a b = true ↔ a.rows = a.cols ∧ a.rows = b.rows := by
  simp [triSizes]

omit [Field K] [StarRing K] in
theorem triSizes_right (a b : Blk K) : triSizes .Right a b = true ↔ a.rows = a.cols ∧ a.rows = b.cols := by
  simp [triSizes]

theorem trmm_adj (s : Side) (u : Uplo) (o : BlasOp) (d : Diag) (alpha : K) (a b : Blk K) :
    (trmm s u o d alpha a b).map Blk.adj = trmm s.flip u.flip o d (star alpha) a.adj b.adj := by
  unfold trmm
  have hsz : triSizes s a b = triSizes s.flip a.adj b.adj := by
    rw [Bool.eq_iff_iff]
    cases s
    all_goals
      simp only [Side.flip, triSizes_left, triSizes_right]
      exact ⟨fun h => ⟨h.1.symm, h.1.symm.trans h.2⟩, fun h => ⟨h.1.symm, h.1.symm.trans h.2⟩⟩
  rw [← hsz]
  clear hsz
  by_cases hc : triSizes s a b = true
  · rw [if_pos hc, if_pos hc]
    have h1 : a.rows = a.cols := by
      unfold triSizes at hc
      simp only [Bool.and_eq_true, decide_eq_true_eq] at hc
      exact hc.1
    have hop : ((a.tri u d).op o).rows = a.rows ∧ ((a.tri u d).op o).cols = a.rows := by
      cases o <;> simp [Blk.op, Blk.tri, h1]
    simp only [Option.map_some, Option.some.injEq, Blk.adj]
    congr 1
    funext r c
    rw [star_mul', show (⟨a.cols, a.rows, fun r c => star (a.e c r)⟩ : Blk K) = a.adj from rfl,
      show (⟨b.cols, b.rows, fun r c => star (b.e c r)⟩ : Blk K) = b.adj from rfl, Blk.adj_tri, Blk.adj_op,
      Uplo.flip_flip]
    congr 1
    cases s
    · have h2 : a.rows = b.rows := by
        unfold triSizes at hc
        simp only [Bool.and_eq_true, decide_eq_true_eq] at hc
        exact hc.2
      simp only [Side.flip, Blk.mul, star_sum, Blk.adj_cols, hop.2]
      rw [← h2]
      refine Finset.sum_congr rfl fun l _ => ?_
      rw [star_mul', mul_comm]
      rfl
    · have h2 : a.rows = b.cols := by
        unfold triSizes at hc
        simp only [Bool.and_eq_true, decide_eq_true_eq] at hc
        exact hc.2
      simp only [Side.flip, Blk.mul, star_sum, Blk.adj_cols, hop.1]
      rw [← h2]
      refine Finset.sum_congr rfl fun l _ => ?_
      rw [star_mul', mul_comm]
      rfl
  · rw [if_neg hc, if_neg hc]
    rfl

theorem mult_right (u : Uplo) (o : BlasOp) (d : Diag) (alpha : K) (m n : Nat) (a b : Tiles K) :
    (Mult.triangular_multiplication .Right u o d alpha m n a b).map adjT =
      genMult (if lowerOp u.flip o then downto n 0 else upto 0 n)
        (if lowerOp u.flip o then downto m 0 else upto 0 m)
        (fun k => if lowerOp u.flip o then upto (k + 1) n else downto k 0)
        (fun k x => trmm .Left u.flip o d (star alpha) (adjT a (k, k)) x)
        (fun i k x y => gemm o .NoTrans (star alpha) (adjT a (srcTile o i k)) x 1 y) (adjT b) := by
  cases u <;> cases o <;>
  · refine forM'_sim adjT _ _ ?_
    intro b k _
    refine forM'_sim adjT _ _ ?_
    intro b i _
    refine bind_sim adjT ?_ fun b => ?_
    · refine forM'_sim adjT _ _ ?_
      intro b j _
      rw [Tiles.write_adj, gemm_adj, star_one]
      rfl
    · rw [Tiles.write_adj, trmm_adj]
      rfl

/-- Blocks of `op(A)` from the tiles of `A`. -/
theorem diag_block {u : Uplo} {d : Diag} {o : BlasOp} {sz : Nat → Nat} {nt k r e : Nat} {a : Tiles K} {A : Nat → Nat → K}
    (hA : HoldsOn a sz sz nt nt A (inTri u d)) (hk : k < nt) (hr : r < sz k) (he : e < sz k) :
    (((a (k, k)).tri u d).op o).e r e = opE o (triE u d A) (tileStart sz k + r) (tileStart sz k + e) := by
  have key : ∀ r e, r < sz k → e < sz k →
      ((a (k, k)).tri u d).e r e = triE u d A (tileStart sz k + r) (tileStart sz k + e) := by
    intro r e hr he
    have h := hA k hk k hk r hr e he
    simp only [Blk.tri, triE, Nat.add_left_cancel_iff]
    by_cases hre : r = e
    · subst hre
      simp only [if_true]
      cases d
      · simp only [reduceCtorEq, if_false]
        exact h (by cases u <;> simp [inTri])
      · simp
    · simp only [if_neg hre]
      cases u
      · simp only [decide_eq_true_eq, Nat.add_lt_add_iff_left]
        by_cases h2 : e < r
        · simp only [h2, if_true]; exact h (by simp only [inTri]; left; omega)
        · simp only [h2, if_false]
      · simp only [decide_eq_true_eq, Nat.add_lt_add_iff_left]
        by_cases h2 : r < e
        · simp only [h2, if_true]; exact h (by simp only [inTri]; left; omega)
        · simp only [h2, if_false]
  cases o <;> simp only [Blk.op, opE]
  · exact key r e hr he
  · exact key e r he hr
  · rw [key e r he hr]

theorem tile_lt_of (sz : Nat → Nat) {i j r c : Nat} (h : i < j) (hr : r < sz i) :
    tileStart sz i + r < tileStart sz j + c := by
  have := tileStart_mono sz (show i + 1 ≤ j by omega)
  rw [tileStart_succ] at this
  omega

/-- Block `(i, k)` of `op(A)` for `i` after `k` in the order of the solver. -/
theorem off_block {u : Uplo} {d : Diag} {o : BlasOp} {sz : Nat → Nat} {nt i k r e : Nat} {a : Tiles K} {A : Nat → Nat → K}
    (hA : HoldsOn a sz sz nt nt A (inTri u d)) (hi : i < nt) (hk : k < nt)
    (hik : if lowerOp u o then k < i else i < k) (hr : r < sz i) (he : e < sz k) :
    ((a (srcTile o i k)).op o).e r e = opE o (triE u d A) (tileStart sz i + r) (tileStart sz k + e) := by
  cases u <;> cases o <;> simp [lowerOp, srcTile, Blk.op, opE, triE] at hik ⊢
  · have := tile_lt_of sz (r := e) (c := r) hik he
    rw [if_neg (by omega), if_pos (by omega)]
    exact hA i hi k hk r hr e he (by simp only [inTri]; left; omega)
  · have := tile_lt_of sz (r := r) (c := e) hik hr
    rw [if_neg (by omega), if_pos (by omega)]
    exact hA k hk i hi e he r hr (by simp only [inTri]; left; omega)
  · have := tile_lt_of sz (r := r) (c := e) hik hr
    rw [if_neg (by omega), if_pos (by omega)]
    rw [hA k hk i hi e he r hr (by simp only [inTri]; left; omega)]
  · have := tile_lt_of sz (r := r) (c := e) hik hr
    rw [if_neg (by omega), if_pos (by omega)]
    exact hA i hi k hk r hr e he (by simp only [inTri]; left; omega)
  · have := tile_lt_of sz (r := e) (c := r) hik he
    rw [if_neg (by omega), if_pos (by omega)]
    exact hA k hk i hi e he r hr (by simp only [inTri]; left; omega)
  · have := tile_lt_of sz (r := e) (c := r) hik he
    rw [if_neg (by omega), if_pos (by omega)]
    rw [hA k hk i hi e he r hr (by simp only [inTri]; left; omega)]

/-- The other blocks are zero. -/
theorem zero_block {u : Uplo} {d : Diag} {o : BlasOp} {sz : Nat → Nat} {i k r e : Nat} {A : Nat → Nat → K}
    (hik : if lowerOp u o then i < k else k < i) (hr : r < sz i) (he : e < sz k) :
    opE o (triE u d A) (tileStart sz i + r) (tileStart sz k + e) = 0 := by
  cases u <;> cases o <;> simp [lowerOp, opE, triE] at hik ⊢
  · have := tile_lt_of sz (r := r) (c := e) hik hr
    rw [if_neg (by omega), if_neg (by omega)]
  · have := tile_lt_of sz (r := e) (c := r) hik he
    rw [if_neg (by omega), if_neg (by omega)]
  · have := tile_lt_of sz (r := e) (c := r) hik he
    rw [if_neg (by omega), if_neg (by omega)]
  · have := tile_lt_of sz (r := e) (c := r) hik he
    rw [if_neg (by omega), if_neg (by omega)]
  · have := tile_lt_of sz (r := r) (c := e) hik hr
    rw [if_neg (by omega), if_neg (by omega)]
  · have := tile_lt_of sz (r := r) (c := e) hik hr
    rw [if_neg (by omega), if_neg (by omega)]

end DLAF
