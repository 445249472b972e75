import Verif.Lemmas.TriangularVariants
import Verif.Props.Cholesky
/- C31: triangular solver.  C32 (first part): triangular multiplication. -/
namespace DLAF
variable {K : Type*} [Field K] [StarRing K]

theorem lower_order (u : Uplo) (o : BlasOp) (m : Nat) :
    Order (if lowerOp u o then upto 0 m else downto m 0) (fun k => if lowerOp u o then upto (k + 1) m else downto k 0) m := by
  cases h : lowerOp u o
  · refine Order.down m _ (fun k => ?_) (fun k i => by simp)
    exact List.nodup_reverse.2 (upto_nodup _ _)
  · exact Order.up m _ (fun k => upto_nodup _ _) (fun k i => by simp)

theorem lower_orderB (u : Uplo) (o : BlasOp) (m : Nat) (c : Bool) :
    OrderB (if lowerOp u o then downto m 0 else upto 0 m)
      (fun k => if lowerOp u o then upto (k + 1) m else if c then upto 0 k else downto k 0) m := by
  cases h : lowerOp u o
  · refine OrderB.up m _ (fun k => ?_) (fun k i => ?_)
    · cases c
      · exact List.nodup_reverse.2 (upto_nodup _ _)
      · exact upto_nodup _ _
    · cases c <;> simp
  · exact OrderB.down m _ (fun k => upto_nodup _ _) (fun k i => by simp)

theorem lower_later {u : Uplo} {o : BlasOp} {m k i : Nat}
    (h : i ∈ (if lowerOp u o then upto (k + 1) m else downto k 0)) (hk : k < m) :
    i < m ∧ if lowerOp u o then k < i else i < k := by
  cases hl : lowerOp u o <;> simp [hl] at h ⊢ <;> omega

theorem js_nodup (p : Prop) [Decidable p] (n : Nat) : (if p then upto 0 n else downto n 0).Nodup := by
  split
  · exact upto_nodup _ _
  · exact List.nodup_reverse.2 (upto_nodup _ _)

theorem js_mem (p : Prop) [Decidable p] (n j : Nat) : j ∈ (if p then upto 0 n else downto n 0) ↔ j < n := by
  split <;> simp

/-- The diagonal of the matrix has no zero, or is not referenced. -/
def NonsingE (d : Diag) (n : Nat) (A : Nat → Nat → K) : Prop := d = .Unit ∨ ∀ i < n, A i i ≠ 0

omit [StarRing K] in
theorem nonsing_tile {u : Uplo} {d : Diag} {sz : Nat → Nat} {nt k : Nat} {a : Tiles K} {A : Nat → Nat → K}
    (hs : Shaped a sz sz nt nt) (hA : HoldsOn a sz sz nt nt A (inTri u d)) (hn : NonsingE d (tileStart sz nt) A)
    (hk : k < nt) : Nonsing d (a (k, k)) := by
  have h1 := hs k hk k hk
  refine ⟨by rw [h1.1, h1.2], ?_⟩
  cases d
  · refine Or.inr ?_
    intro i hi
    rw [h1.1] at hi
    rw [hA k hk k hk i hi i hi (by cases u <;> simp [inTri])]
    exact (hn.resolve_left (by simp)) _ (tile_lt sz hk hi)
  · exact Or.inl rfl

theorem gemm_left_spec {u : Uplo} {d : Diag} {o : BlasOp} {sz : Nat → Nat} {nt i k : Nat} {a : Tiles K}
    {A : Nat → Nat → K} (hs : Shaped a sz sz nt nt) (hA : HoldsOn a sz sz nt nt A (inTri u d)) (hi : i < nt) (hk : k < nt)
    (hik : if lowerOp u o then k < i else i < k) (beta : K) (x y : Blk K) (hx : x.rows = sz k) (hy : y.rows = sz i)
    (hxy : x.cols = y.cols) :
    ∃ f, gemm o .NoTrans beta (a (srcTile o i k)) x 1 y = some ⟨sz i, y.cols, f⟩ ∧ ∀ r < sz i, ∀ c < y.cols,
        f r c = beta * ∑ e ∈ Finset.range (sz k), opE o (triE u d A) (tileStart sz i + r) (tileStart sz k + e) * x.e e c
          + y.e r c := by
  have hr : ((a (srcTile o i k)).op o).rows = sz i ∧ ((a (srcTile o i k)).op o).cols = sz k := by
    cases o <;> simp only [srcTile, Blk.op, reduceCtorEq, if_true, if_false]
    · exact hs i hi k hk
    · exact ⟨(hs k hk i hi).2, (hs k hk i hi).1⟩
    · exact ⟨(hs k hk i hi).2, (hs k hk i hi).1⟩
  unfold gemm
  rw [if_pos ⟨hr.1.trans hy.symm, hxy, hr.2.trans hx.symm⟩, hy]
  refine ⟨_, rfl, ?_⟩
  intro r hr' c hc
  simp only [Blk.mul, hr.2, one_mul]
  congr 2
  refine Finset.sum_congr rfl fun e he => ?_
  rw [Finset.mem_range] at he
  rw [off_block hA hi hk hik hr' he]
  rfl

theorem opE_adj (u : Uplo) (o : BlasOp) (d : Diag) (A : Nat → Nat → K) (x y : Nat) :
    opE o (triE u.flip d (adjE A)) x y = star (opE o (triE u d A) y x) := by
  have h : ∀ x y, triE u.flip d (adjE A) x y = star (triE u d A y x) := by
    intro x y
    cases u <;> simp only [triE, Uplo.flip, adjE, eq_comm (a := x) (b := y)] <;> split <;>
      [split; split; split; split] <;> simp_all
  cases o <;> simp only [opE, h]

/-- The solve theorem on the left side. -/
theorem solve_left {lp : Lapack K} {pos : K → Prop} (hl : LapackSpec lp pos) (u : Uplo) (o : BlasOp) (d : Diag)
    {alpha beta : K} (hbeta : alpha ≠ 0 → beta = -1 / alpha) {rs cs : Nat → Nat} {m n : Nat} {a b : Tiles K}
    (ha : Shaped a rs rs m m) (hb : Shaped b rs cs m n) {A B : Nat → Nat → K}
    (hA : HoldsOn a rs rs m m A (inTri u d)) (hB : HoldsOn b rs cs m n B fun _ _ => True)
    (hn : NonsingE d (tileStart rs m) A) :
    ∃ b', Solver.triangular_solver lp .Left u o d alpha beta m n a b = some b' ∧ Shaped b' rs cs m n ∧
      ∃ X, HoldsOn b' rs cs m n X (fun _ _ => True) ∧
        ∀ x < tileStart rs m, ∀ y < tileStart cs n,
          ∑ l ∈ Finset.range (tileStart rs m), opE o (triE u d A) x l * X l y = alpha * B x y := by
  rw [solver_left]
  obtain ⟨b', h1, h2, h3⟩ := genSolve_spec
    (T := fun k x => lp.tileTrsm .Left u o d alpha (a (k, k)) x)
    (G := fun i k x y => gemm o .NoTrans beta (a (srcTile o i k)) x 1 y)
    (M := fun i l r e => opE o (triE u d A) (tileStart rs i + r) (tileStart rs l + e))
    (lower_order u o m) (js_nodup (lowerOp u o = true) n) (js_mem (lowerOp u o = true) n) hbeta (by
      intro k hk x hx
      have hd := ha k hk k hk
      have hsz : triSizes .Left (a (k, k)) x = true := by rw [triSizes_left, hd.1, hd.2, hx]; exact ⟨rfl, rfl⟩
      unfold Lapack.tileTrsm
      rw [if_pos hsz]
      refine ⟨lp.trsm .Left u o d alpha (a (k, k)) x, by rw [hx], ?_, ?_⟩
      · intro r hr c hc
        rw [← hl.trsm_left u o d alpha (a (k, k)) x (nonsing_tile ha hA hn hk) (by rw [hd.1, hx]) r (by rw [hx]; exact hr)
          c hc, hx]
        refine Finset.sum_congr rfl fun e he => ?_
        rw [Finset.mem_range] at he
        rw [diag_block hA hk hr he]
      · intro h0 r hr c hc
        rw [h0]
        exact hl.trsm_zero .Left u o d (a (k, k)) x hsz r (by rw [hx]; exact hr) c hc) (by
      intro k hk i hi x y hx hy hxy
      obtain ⟨hi1, hi2⟩ := lower_later hi hk
      exact gemm_left_spec ha hA hi1 hk hi2 beta x y hx hy hxy) (by
      intro k hk l hl' r hr e he
      obtain ⟨hi1, hi2⟩ := lower_later hl' hk
      exact zero_block hi2 hr he) hb
  refine ⟨b', h1, h2, _, elemOf_holds b' rs cs m n _, ?_⟩
  intro x hx y hy
  obtain ⟨i, hi, r, hr, rfl⟩ := exists_tile rs hx
  obtain ⟨j, hj, c, hc, rfl⟩ := exists_tile cs hy
  rw [← hB i hi j hj r hr c hc trivial, ← h3 i hi j hj r hr c hc, sum_tiles]
  refine Finset.sum_congr rfl fun l hl' => ?_
  rw [Finset.mem_range] at hl'
  refine Finset.sum_congr rfl fun e he => ?_
  rw [Finset.mem_range] at he
  rw [elemOf_eq b' rs cs hl' hj he hc]

/-- C31, left: for every `uplo`, `op`, `diag`, every tiling and every nonsingular triangular `A`, the call returns and
`B` is overwritten with the solution of `op(A) X = alpha B`.  (`beta` is the constant `-1/alpha` of the code; nothing is
assumed on it if `alpha = 0`.) -/
theorem C31_solve_left {lp : Lapack K} {pos : K → Prop} (hl : LapackSpec lp pos) (u : Uplo) (o : BlasOp) (d : Diag)
    {alpha beta : K} (hbeta : alpha ≠ 0 → beta = -1 / alpha) {rs cs : Nat → Nat} {m n : Nat} {a b : Tiles K}
    (ha : Shaped a rs rs m m) (hb : Shaped b rs cs m n) {A B : Nat → Nat → K}
    (hA : HoldsOn a rs rs m m A (inTri u d)) (hB : HoldsOn b rs cs m n B fun _ _ => True)
    (hn : NonsingE d (tileStart rs m) A) :
    ∃ b', Solver.triangular_solver lp .Left u o d alpha beta m n a b = some b' ∧ Shaped b' rs cs m n ∧
      ∃ X, HoldsOn b' rs cs m n X (fun _ _ => True) ∧
        ∀ x < tileStart rs m, ∀ y < tileStart cs n,
          ∑ l ∈ Finset.range (tileStart rs m), opE o (triE u d A) x l * X l y = alpha * B x y :=
  solve_left hl u o d hbeta ha hb hA hB hn

theorem inTri_flip' {u : Uplo} {d : Diag} {r c : Nat} (h : inTri u.flip d r c) : inTri u d c r := by
  cases u <;> exact h

theorem NonsingE.adj {d : Diag} {n : Nat} {A : Nat → Nat → K} (h : NonsingE d n A) : NonsingE d n (adjE A) := by
  rcases h with h | h
  · exact Or.inl h
  · refine Or.inr fun i hi h0 => h i hi ?_
    exact star_eq_zero.1 h0

/-- C31, right: the same for `X op(A) = alpha B`. -/
theorem C31_solve_right {lp : Lapack K} {pos : K → Prop} (hl : LapackSpec lp pos) (hp : Positive pos)
    (u : Uplo) (o : BlasOp) (d : Diag)
    {alpha beta : K} (hbeta : alpha ≠ 0 → beta = -1 / alpha) {rs cs : Nat → Nat} {m n : Nat} {a b : Tiles K}
    (ha : Shaped a cs cs n n) (hb : Shaped b rs cs m n) {A B : Nat → Nat → K}
    (hA : HoldsOn a cs cs n n A (inTri u d)) (hB : HoldsOn b rs cs m n B fun _ _ => True)
    (hn : NonsingE d (tileStart cs n) A) :
    ∃ b', Solver.triangular_solver lp .Right u o d alpha beta m n a b = some b' ∧ Shaped b' rs cs m n ∧
      ∃ X, HoldsOn b' rs cs m n X (fun _ _ => True) ∧
        ∀ x < tileStart rs m, ∀ y < tileStart cs n,
          ∑ l ∈ Finset.range (tileStart cs n), X x l * opE o (triE u d A) l y = alpha * B x y := by
  obtain ⟨b1, h1, h2, X, h3, h4⟩ := solve_left (hl.adj hp) u.flip o d (alpha := star alpha) (beta := star beta)
    (by
      intro h0
      rw [hbeta (fun h => h0 (by rw [h, star_zero]))]
      simp [div_eq_mul_inv]) ha.adj hb.adj
    (hA.adj fun _ _ h => inTri_flip' h) (hB.adj (sel' := fun _ _ => True) fun _ _ _ => trivial) hn.adj
  rw [← solver_right, Option.map_eq_some_iff] at h1
  obtain ⟨b', h5, rfl⟩ := h1
  refine ⟨b', h5, by simpa using h2.adj, adjE X, ?_, ?_⟩
  · simpa using h3.adj (sel' := fun _ _ => True) (fun _ _ _ => trivial)
  · intro x hx y hy
    have := congrArg star (h4 y hy x hx)
    simp only [star_sum, star_mul', star_star, opE_adj, adjE] at this
    rw [← this]
    refine Finset.sum_congr rfl fun l _ => ?_
    simp only [adjE]
    ring

theorem mult_spec (u : Uplo) (o : BlasOp) (d : Diag) (c p : Bool)
    (alpha : K) {rs cs : Nat → Nat} {m n : Nat} {a b : Tiles K}
    (ha : Shaped a rs rs m m) (hb : Shaped b rs cs m n) {A B : Nat → Nat → K}
    (hA : HoldsOn a rs rs m m A (inTri u d)) (hB : HoldsOn b rs cs m n B fun _ _ => True) :
    ∃ b', genMult (if lowerOp u o then downto m 0 else upto 0 m) (if p then upto 0 n else downto n 0)
        (fun k => if lowerOp u o then upto (k + 1) m else if c then upto 0 k else downto k 0)
        (fun k x => trmm .Left u o d alpha (a (k, k)) x)
        (fun i k x y => gemm o .NoTrans alpha (a (srcTile o i k)) x 1 y) b = some b' ∧ Shaped b' rs cs m n ∧
      HoldsOn b' rs cs m n
        (fun x y => alpha * ∑ l ∈ Finset.range (tileStart rs m), opE o (triE u d A) x l * B l y) (fun _ _ => True) := by
  have hupd : ∀ k i, k < m → i ∈ (if lowerOp u o then upto (k + 1) m else if c then upto 0 k else downto k 0) →
      i < m ∧ if lowerOp u o then k < i else i < k := by
    intro k i hk h
    cases hl : lowerOp u o <;> cases c <;> simp [hl] at h ⊢ <;> omega
  obtain ⟨b', h1, h2, h3⟩ := genMult_spec
    (T := fun k x => trmm .Left u o d alpha (a (k, k)) x)
    (G := fun i k x y => gemm o .NoTrans alpha (a (srcTile o i k)) x 1 y)
    (M := fun i l r e => opE o (triE u d A) (tileStart rs i + r) (tileStart rs l + e))
    (lower_orderB u o m c) (js_nodup (p = true) n) (js_mem (p = true) n) (by
      intro k hk x hx
      have hd := ha k hk k hk
      have hsz : triSizes .Left (a (k, k)) x = true := by rw [triSizes_left, hd.1, hd.2, hx]; exact ⟨rfl, rfl⟩
      have hop : (((a (k, k)).tri u d).op o).cols = rs k := by
        cases o <;> simp [Blk.op, Blk.tri, hd.1, hd.2]
      unfold trmm
      rw [if_pos hsz, hx]
      refine ⟨_, rfl, ?_⟩
      intro r hr c hc
      simp only [Blk.mul, hop]
      congr 1
      refine Finset.sum_congr rfl fun e he => ?_
      rw [Finset.mem_range] at he
      rw [diag_block hA hk hr he]) (by
      intro k hk i hi x y hx hy hxy
      obtain ⟨hi1, hi2⟩ := hupd k i hk hi
      exact gemm_left_spec ha hA hi1 hk hi2 alpha x y hx hy hxy) (by
      intro k hk l hl' r hr e he
      obtain ⟨hi1, hi2⟩ := hupd k l hk hl'
      exact zero_block hi2 hr he) hb
  refine ⟨b', h1, h2, ?_⟩
  intro i hi j hj r hr c hc _
  rw [h3 i hi j hj r hr c hc]
  beta_reduce
  rw [sum_tiles]
  congr 1
  refine Finset.sum_congr rfl fun l hl' => ?_
  rw [Finset.mem_range] at hl'
  refine Finset.sum_congr rfl fun e he => ?_
  rw [Finset.mem_range] at he
  rw [hB l hl' j hj e he c hc trivial]

/-- C32, triangular, left: for every `uplo`, `op`, `diag` and every tiling the call returns and `B` is overwritten with
`alpha op(A) B`. -/
theorem C32_triangular_left (u : Uplo) (o : BlasOp) (d : Diag)
    (alpha : K) {rs cs : Nat → Nat} {m n : Nat} {a b : Tiles K}
    (ha : Shaped a rs rs m m) (hb : Shaped b rs cs m n) {A B : Nat → Nat → K}
    (hA : HoldsOn a rs rs m m A (inTri u d)) (hB : HoldsOn b rs cs m n B fun _ _ => True) :
    ∃ b', Mult.triangular_multiplication .Left u o d alpha m n a b = some b' ∧ Shaped b' rs cs m n ∧
      HoldsOn b' rs cs m n
        (fun x y => alpha * ∑ l ∈ Finset.range (tileStart rs m), opE o (triE u d A) x l * B l y) (fun _ _ => True) := by
  rw [mult_left]
  have := mult_spec u o d (decide (o = .NoTrans)) (!decide (u = .Upper ∧ o ≠ .NoTrans)) alpha ha hb hA hB
  cases u <;> cases o <;> exact this

/-- C32, triangular, right: `B` is overwritten with `alpha B op(A)`. -/
theorem C32_triangular_right (u : Uplo) (o : BlasOp) (d : Diag)
    (alpha : K) {rs cs : Nat → Nat} {m n : Nat} {a b : Tiles K}
    (ha : Shaped a cs cs n n) (hb : Shaped b rs cs m n) {A B : Nat → Nat → K}
    (hA : HoldsOn a cs cs n n A (inTri u d)) (hB : HoldsOn b rs cs m n B fun _ _ => True) :
    ∃ b', Mult.triangular_multiplication .Right u o d alpha m n a b = some b' ∧ Shaped b' rs cs m n ∧
      HoldsOn b' rs cs m n
        (fun x y => alpha * ∑ l ∈ Finset.range (tileStart cs n), B x l * opE o (triE u d A) l y) (fun _ _ => True) := by
  have hsim := mult_right u o d alpha m n a b
  obtain ⟨b1, h1, h2, h3⟩ := mult_spec u.flip o d false (!lowerOp u.flip o) (star alpha) ha.adj hb.adj
    (hA.adj fun _ _ h => inTri_flip' h) (hB.adj (sel' := fun _ _ => True) fun _ _ _ => trivial)
  have h4 : (Mult.triangular_multiplication .Right u o d alpha m n a b).map adjT = some b1 := by
    rw [hsim, ← h1]
    cases u <;> cases o <;> rfl
  rw [Option.map_eq_some_iff] at h4
  obtain ⟨b', h5, rfl⟩ := h4
  refine ⟨b', h5, by simpa using h2.adj, ?_⟩
  have := h3.adj (sel' := fun _ _ => True) (fun _ _ _ => trivial)
  rw [adjT_adjT] at this
  intro i hi j hj r hr c hc _
  rw [this i hi j hj r hr c hc trivial]
  simp only [adjE, star_sum, star_mul', star_star, opE_adj]
  congr 1
  refine Finset.sum_congr rfl fun l _ => ?_
  ring

/- Non-vacuity: tiles of sizes 2 and 1 over `ℚ`; all sixteen variants of each operation on the same matrix, which has no
zero on the diagonal. -/
section example_
private def exSz : Nat → Nat := fun i => if i = 0 then 2 else 1
private def exM : Tiles ℚ := fun z =>
  ⟨exSz z.1, exSz z.2, fun r c => (1 + tileStart exSz z.1 + r + 2 * (tileStart exSz z.2 + c) : Nat)⟩
private def exE : Nat → Nat → ℚ := fun r c => (1 + r + 2 * c : Nat)

private theorem exShaped : Shaped exM exSz exSz 2 2 := fun _ _ _ _ => ⟨rfl, rfl⟩
private theorem exHolds (sel) : HoldsOn exM exSz exSz 2 2 exE sel := by
  intro i _ j _ r _ c _ _
  show ((1 + tileStart exSz i + r + 2 * (tileStart exSz j + c) : Nat) : ℚ) = (1 + (tileStart exSz i + r) + 2 * (tileStart exSz j + c) : Nat)
  rw [Nat.add_assoc 1]
private theorem exNonsing (d : Diag) : NonsingE d 3 exE := by
  refine Or.inr ?_
  intro i _ h
  unfold exE at h
  have : 1 + i + 2 * i = 0 := by exact_mod_cast h
  omega

example (u : Uplo) (o : BlasOp) (d : Diag) :
    ∃ b', Solver.triangular_solver (lapackOf posQ) .Left u o d 4 (-1 / 4) 2 2 exM exM = some b' ∧
      ∃ X, HoldsOn b' exSz exSz 2 2 X (fun _ _ => True) ∧
        ∀ x < 3, ∀ y < 3, ∑ l ∈ Finset.range 3, opE o (triE u d exE) x l * X l y = 4 * exE x y := by
  obtain ⟨b', h1, _, X, h2, h3⟩ := C31_solve_left (lapack_spec posQ) u o d (alpha := 4) (beta := -1 / 4) (fun _ => rfl)
    exShaped exShaped (exHolds _) (exHolds _) (exNonsing d)
  exact ⟨b', h1, X, h2, h3⟩

example (u : Uplo) (o : BlasOp) (d : Diag) :
    ∃ b', Solver.triangular_solver (lapackOf posQ) .Right u o d 4 (-1 / 4) 2 2 exM exM = some b' ∧
      ∃ X, HoldsOn b' exSz exSz 2 2 X (fun _ _ => True) ∧
        ∀ x < 3, ∀ y < 3, ∑ l ∈ Finset.range 3, X x l * opE o (triE u d exE) l y = 4 * exE x y := by
  obtain ⟨b', h1, _, X, h2, h3⟩ := C31_solve_right (lapack_spec posQ) positiveQ u o d (alpha := 4) (beta := -1 / 4)
    (fun _ => rfl) exShaped exShaped (exHolds _) (exHolds _) (exNonsing d)
  exact ⟨b', h1, X, h2, h3⟩

/-- `alpha = 0`, with an arbitrary value for `-1/alpha`. -/
example (u : Uplo) (o : BlasOp) (d : Diag) :
    ∃ b', Solver.triangular_solver (lapackOf posQ) .Left u o d 0 7 2 2 exM exM = some b' ∧
      ∃ X, HoldsOn b' exSz exSz 2 2 X (fun _ _ => True) ∧
        ∀ x < 3, ∀ y < 3, ∑ l ∈ Finset.range 3, opE o (triE u d exE) x l * X l y = 0 * exE x y := by
  obtain ⟨b', h1, _, X, h2, h3⟩ := C31_solve_left (lapack_spec posQ) u o d (alpha := 0) (beta := 7)
    (fun h => absurd rfl h) exShaped exShaped (exHolds _) (exHolds _) (exNonsing d)
  exact ⟨b', h1, X, h2, h3⟩

example (u : Uplo) (o : BlasOp) (d : Diag) :
    (∃ b', Mult.triangular_multiplication .Left u o d (4 : ℚ) 2 2 exM exM = some b' ∧ HoldsOn b' exSz exSz 2 2
      (fun x y => 4 * ∑ l ∈ Finset.range 3, opE o (triE u d exE) x l * exE l y) (fun _ _ => True)) ∧
    (∃ b', Mult.triangular_multiplication .Right u o d (4 : ℚ) 2 2 exM exM = some b' ∧ HoldsOn b' exSz exSz 2 2
      (fun x y => 4 * ∑ l ∈ Finset.range 3, exE x l * opE o (triE u d exE) l y) (fun _ _ => True)) := by
  obtain ⟨b1, h1, _, h2⟩ := C32_triangular_left u o d (4 : ℚ) exShaped exShaped (exHolds _) (exHolds _)
  obtain ⟨b2, h3, _, h4⟩ := C32_triangular_right u o d (4 : ℚ) exShaped exShaped (exHolds _) (exHolds _)
  exact ⟨⟨b1, h1, h2⟩, ⟨b2, h3, h4⟩⟩
end example_

end DLAF
