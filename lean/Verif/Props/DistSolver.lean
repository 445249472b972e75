import Verif.Props.DistTriangular
import Verif.Lemmas.DistSolverChain
/-
C56: the distributed triangular solver.

The program of every process is that of Model/DistTriangular.lean (`op = NoTrans`) and Model/DistSolver.lean (otherwise); the machine is that of Model/Spmd.lean.
-/
namespace DLAF
variable {K : Type*} [Field K] [StarRing K]

/-- The variants of the solver with `op = NoTrans`. -/
theorem distSolveAlg_spec {lp : Lapack K} {s : Side} {u : Uplo} {d : Diag} {alpha beta : K} : ∃ t, distSolveAlg lp s u d alpha beta = t ∧
    t.axis = s.lines.orth ∧ t.linkFirst = false ∧ t.up = t.lower ∧ t.Keeps ∧
    ∀ (m n : Nat) (a b : Tiles K), ∃ js later, js.Nodup ∧ (∀ j, j ∈ js ↔ j < (s.pick n m)) ∧
      t.LaterOK (s.pick m n) later ∧
      (Solver.triangular_solver lp s u .NoTrans d alpha beta m n a b).map (lineT t.axis) =
        genSolve (if t.up then upto 0 (s.pick m n) else downto (s.pick m n) 0) js later
          (fun k x => t.diag (lineT t.axis a (k, k)) x) (fun i k x y => t.upd (lineT t.axis a (i, k)) x y) (lineT t.axis b) := by
  have hdn : ∀ n : Nat, (downto n 0).Nodup := fun n => List.nodup_reverse.2 (upto_nodup _ _)
  have hsw : ∀ (ks js : List Nat) (later : Nat → List Nat) (T : Nat → Blk K → Option (Blk K)) (G : Nat → Nat → Blk K → Blk K → Option (Blk K))
      (b : Tiles K), (forM' ks b fun b k => forM' js b fun b i => do
        let b ← b.write (i, k) (T k (b (i, k)))
        forM' (later k) b fun b j => b.write (i, j) (G j k (b (i, k)) (b (i, j)))).map swapT = (forM' ks (swapT b) fun b k => forM' js b fun b j => do
        let b ← b.write (k, j) (T k (b (k, j)))
        forM' (later k) b fun b i => b.write (i, j) (G i k (b (k, j)) (b (i, j)))) := by
    intro ks js later T G b
    refine forM'_sim swapT _ _ ?_
    intro b k _
    refine forM'_sim swapT _ _ ?_
    intro b i _
    refine bind_sim swapT ?_ fun b => ?_
    · rw [swapT_write]; rfl
    · refine forM'_sim swapT _ _ ?_
      intro b j _
      rw [swapT_write]; rfl
  cases s <;> cases u <;> refine ⟨_, rfl, rfl, rfl, rfl, ⟨rfl, fun _ _ _ h => tileTrsm_keeps h, fun _ _ _ _ h => gemm_keeps h⟩, fun m n a b => ?_⟩
  · refine ⟨upto 0 n, fun k => upto (k + 1) m, upto_nodup _ _, by simp [Side.pick], fun k hk => ⟨upto_nodup _ _, by simp, fun i hi => ?_⟩, ?_⟩
    · have hi' : i < m := hi
      simp only [distSolveAlg, if_true]; simp; omega
    · exact Option.map_id_apply ..
  · refine ⟨downto n 0, fun k => downto k 0, hdn _, by simp [Side.pick], fun k hk => ⟨hdn _, by simp, fun i hi => ?_⟩, ?_⟩
    · simp [distSolveAlg]
    · exact Option.map_id_apply ..
  · refine ⟨downto m 0, fun k => downto k 0, hdn _, by simp [Side.pick], fun k hk => ⟨hdn _, by simp, fun i hi => ?_⟩, ?_⟩
    · simp [distSolveAlg]
    · exact hsw (downto n 0) (downto m 0) (fun k => downto k 0) (fun k x => lp.tileTrsm .Right .Lower .NoTrans d alpha (a (k, k)) x)
        (fun j k x y => gemm .NoTrans .NoTrans beta x (a (k, j)) 1 y) b
  · refine ⟨upto 0 m, fun k => upto (k + 1) n, upto_nodup _ _, by simp [Side.pick], fun k hk => ⟨upto_nodup _ _, by simp, fun i hi => ?_⟩, ?_⟩
    · have hi' : i < n := hi
      simp only [distSolveAlg, if_true]; simp; omega
    · exact hsw (upto 0 n) (upto 0 m) (fun k => upto (k + 1) n) (fun k x => lp.tileTrsm .Right .Upper .NoTrans d alpha (a (k, k)) x)
        (fun j k x y => gemm .NoTrans .NoTrans beta x (a (k, j)) 1 y) b

/-- The distributed solver with `op = NoTrans` computes the tiles of the local one. -/
theorem solveN_ends (lp : Lapack K) (s : Side) (u : Uplo) (d : Diag) (alpha beta : K) {PA PB : Params2} (hD : TriDist s.lines PA PB) (dbg : Bool)
    (junk : Coord2 → Int → Nat → Nat → Nat → K) {a b b1 : Tiles K}
    (ha : Shaped a PA.row.tileSizes PA.col.tileSizes PA.row.ntn PA.col.ntn)
    (hb : Shaped b PB.row.tileSizes PB.col.tileSizes PB.row.ntn PB.col.ntn)
    (hloc : Solver.triangular_solver lp s u .NoTrans d alpha beta PB.row.ntn PB.col.ntn a b = some b1)
    {ma mb : Coord2 → Coord2 → Blk K} (hma : ∀ r ∈ PB.ranks, HoldsTiles PA PA.row.ntn PA.col.ntn r a (ma r))
    (hmb : ∀ r ∈ PB.ranks, HoldsTiles PB PB.row.ntn PB.col.ntn r b (mb r))
    {st : Coord2 → DSt K} (hst : ∀ r ∈ PB.ranks, distTriInit s (PA.on r) (PB.on r) (ma r) (mb r) = some (st r)) :
    AlwaysEnds (Conf.init (fun r => if r ∈ PB.ranks then (distSolveAlg lp s u d alpha beta).prog dbg (junk r) (PA.on r) (PB.on r) else []) st) fun fin =>
      ∀ r ∈ PB.ranks, HoldsTiles PB PB.row.ntn PB.col.ntn r b1 ((fin r).mat 1) ∧ (fin r).mat 0 = ma r := by
  obtain ⟨t, ht, hax, hlf, hul, hkeep, H⟩ := distSolveAlg_spec (lp := lp) (s := s) (u := u) (d := d) (alpha := alpha) (beta := beta)
  have hD' : TriDist t.axis.orth PA PB := by rw [hax, orth_orth]; exact hD
  obtain ⟨js, later, h1, h2, h3, h4⟩ := H PB.row.ntn PB.col.ntn a b
  rw [hloc, Option.map_some] at h4
  rw [side_lines_ntn hD' hax] at h3 h4
  rw [side_rhs_ntn hax] at h2
  have hch := TriAlg.solve_chain (PA := PA) (PB := PB) (a := lineT t.axis a) (TriAlg.fitA_of hD' ha) hkeep hlf h1 h2 h3
    (if t.up then upto 0 (PA.get t.axis).ntn else downto (PA.get t.axis).ntn 0) _ _ (by
      intro k hk
      split at hk <;> simpa using hk) (TriAlg.fitB_of hD' hb) h4.symm
  have := TriAlg.prog_ends hD' dbg junk hch (fun _ => hul) hma hmb (st := st) (fun r hr => by rw [← distTriInit_eq hax]; exact hst r hr)
  rw [ht]
  exact this

/-- The variants of the solver with a transposed `op`. -/
theorem distSolveAlgT_spec {lp : Lapack K} {s : Side} {u : Uplo} {o : BlasOp} {d : Diag} {alpha beta : K} :
    (distSolveAlgT lp s u o d alpha beta).1.axis = s.lines.orth ∧ (distSolveAlgT lp s u o d alpha beta).1.accum = true ∧
      (distSolveAlgT lp s u o d alpha beta).1.up = !(distSolveAlgT lp s u o d alpha beta).1.lower ∧
      ∀ x w y z, (distSolveAlgT lp s u o d alpha beta).1.upd x w y = some z → z.rows = y.rows ∧ z.cols = y.cols := by
  cases s <;> cases u <;> exact ⟨rfl, rfl, rfl, fun _ _ _ _ h => gemm_keeps h⟩

theorem kernelsT_left {lp : Lapack K} {pos : K → Prop} (hl : LapackSpec lp pos) (u : Uplo) {o : BlasOp} (ho : o ≠ .NoTrans) (d : Diag) (alpha beta : K)
    {rs : Nat → Nat} {nt : Nat} {a : Tiles K} (ha : Shaped a rs rs nt nt) {A : Nat → Nat → K} (hA : HoldsOn a rs rs nt nt A (inTri u d))
    (hn : NonsingE d (tileStart rs nt) A) :
    (distSolveAlgT lp .Left u o d alpha beta).1.KernelsT nt rs a alpha (-beta)
      (fun k i r e => opE o (triE u d A) (tileStart rs k + r) (tileStart rs i + e)) := by
  have hsrc : ∀ i k, srcTile o k i = (i, k) := fun i k => if_neg ho
  have hax : (distSolveAlgT lp .Left u o d alpha beta).1.axis = .Col := by cases u <;> rfl
  have hbef : ∀ i k, (distSolveAlgT lp .Left u o d alpha beta).1.before i k → if lowerOp u o then i < k else k < i := by
    intro i k h
    cases u <;> cases o <;> first | exact absurd rfl ho | exact h
  have hupd : (distSolveAlgT lp .Left u o d alpha beta).1.upd = fun x y z => gemm o .NoTrans (-beta) x y 1 z := by cases u <;> rfl
  have hdiag : (distSolveAlgT lp .Left u o d alpha beta).1.diag = lp.tileTrsm .Left u o d alpha := by cases u <;> rfl
  refine ⟨?_, ?_⟩ <;> rw [hax]
  · intro k hk i hi hb y z hy hz hyz
    obtain ⟨f, e1, e2⟩ := gemm_left_spec ha hA hk hi (hbef i k hb) (-beta) y z hy hz hyz
    rw [hsrc] at e1
    rw [hupd]
    exact ⟨_, e1, ⟨hz.symm, rfl⟩, e2⟩
  · intro k hk x hx
    have hd := ha k hk k hk
    replace hx : x.rows = rs k := hx
    have hsz : triSizes .Left (a (k, k)) x = true := by rw [triSizes_left, hd.1, hd.2, hx]; exact ⟨rfl, rfl⟩
    rw [hdiag]
    unfold Lapack.tileTrsm
    rw [if_pos hsz]
    refine ⟨_, rfl, ⟨rfl, rfl⟩, ?_, ?_⟩
    · intro r hr c hc
      have := hl.trsm_left u o d alpha (a (k, k)) x (nonsing_tile ha hA hn hk) (by rw [hd.1, hx]) r (by rw [hx]; exact hr) c hc
      rw [hx] at this
      refine Eq.trans ?_ this
      refine Finset.sum_congr rfl fun e he => ?_
      rw [Finset.mem_range] at he
      rw [diag_block hA hk hr he]
      rfl
    · intro h0 r hr c hc
      subst h0
      exact hl.trsm_zero .Left u o d (a (k, k)) x hsz r (by rw [hx]; exact hr) c hc

theorem kernelsT_right {lp : Lapack K} {pos : K → Prop} (hl : LapackSpec lp pos) (u : Uplo) {o : BlasOp} (ho : o ≠ .NoTrans) (d : Diag) (alpha beta : K)
    {rs : Nat → Nat} {nt : Nat} {a : Tiles K} (ha : Shaped a rs rs nt nt) {A : Nat → Nat → K} (hA : HoldsOn a rs rs nt nt A (inTri u d))
    (hn : NonsingE d (tileStart rs nt) A) :
    (distSolveAlgT lp .Right u o d alpha beta).1.KernelsT nt rs (swapT a) alpha beta
      (fun k i r e => opE o (triE u d A) (tileStart rs i + e) (tileStart rs k + r)) := by
  have hsrc : ∀ i k, srcTile o i k = (k, i) := fun i k => if_neg ho
  have hax : (distSolveAlgT lp .Right u o d alpha beta).1.axis = .Row := by cases u <;> rfl
  have hbef : ∀ i k, (distSolveAlgT lp .Right u o d alpha beta).1.before i k → if lowerOp u o then k < i else i < k := by
    intro i k h
    cases u <;> cases o <;> first | exact absurd rfl ho | exact h
  have hupd : (distSolveAlgT lp .Right u o d alpha beta).1.upd = fun x y z => gemm .NoTrans o beta y x 1 z := by cases u <;> rfl
  have hdiag : (distSolveAlgT lp .Right u o d alpha beta).1.diag = lp.tileTrsm .Right u o d alpha := by cases u <;> rfl
  refine ⟨?_, ?_⟩ <;> rw [hax]
  · intro k hk i hi hb y z hy hz hyz
    replace hy : y.cols = rs i := hy
    replace hz : z.cols = rs k := hz
    replace hyz : y.rows = z.rows := hyz
    have hr : ((a (k, i)).op o).rows = rs i ∧ ((a (k, i)).op o).cols = rs k := by
      cases o
      · exact absurd rfl ho
      all_goals exact ⟨(ha k hk i hi).2, (ha k hk i hi).1⟩
    rw [hupd]
    show ∃ w, gemm .NoTrans o beta y (a (k, i)) 1 z = some w ∧ _
    unfold gemm
    rw [if_pos ⟨hyz, hr.2.trans hz.symm, hy.trans hr.1.symm⟩]
    refine ⟨_, rfl, ⟨rfl, rfl⟩, fun r hr' c hc => ?_⟩
    show beta * ((y.op .NoTrans).mul ((a (k, i)).op o)).e c r + 1 * z.e c r = _
    unfold Blk.mul
    rw [show (y.op .NoTrans).cols = rs i from hy, one_mul]
    dsimp only
    refine congrArg (fun q => beta * q + z.e c r) (Finset.sum_congr rfl fun e he => ?_)
    rw [Finset.mem_range] at he
    have := off_block hA hi hk (hbef i k hb) he hr'
    rw [hsrc] at this
    rw [this, mul_comm]
    rfl
  · intro k hk x hx
    have hd := ha k hk k hk
    replace hx : x.cols = rs k := hx
    have hsz : triSizes .Right (a (k, k)) x = true := by rw [triSizes_right, hd.1, hd.2, hx]; exact ⟨rfl, rfl⟩
    rw [hdiag]
    show ∃ w, lp.tileTrsm .Right u o d alpha (a (k, k)) x = some w ∧ _
    unfold Lapack.tileTrsm
    rw [if_pos hsz]
    refine ⟨_, rfl, ⟨rfl, rfl⟩, ?_, ?_⟩
    · intro r hr c hc
      have := hl.trsm_right u o d alpha (a (k, k)) x (nonsing_tile ha hA hn hk) (by rw [hd.1, hx]) c hc r (by rw [hx]; exact hr)
      rw [hx] at this
      refine Eq.trans ?_ this
      refine Finset.sum_congr rfl fun e he => ?_
      rw [Finset.mem_range] at he
      rw [diag_block hA hk he hr, mul_comm]
      rfl
    · intro h0 r hr c hc
      subst h0
      exact hl.trsm_zero .Right u o d (a (k, k)) x hsz c hc r (by rw [hx]; exact hr)

omit [StarRing K] in
/-- The equations of a line, with all blocks. -/
theorem TriAlg.all_blocks {t : TriAlg K} {nt k : Nat} (hk : k < nt) {S : Nat → K} (h0 : ∀ i < nt, i ≠ k → ¬ t.before i k → S i = 0) :
    ∑ i ∈ Finset.range nt, S i = S k + ∑ i ∈ (Finset.range nt).filter (fun i => t.before i k), S i := by
  classical
  rw [← Finset.add_sum_erase _ _ (Finset.mem_range.2 hk)]
  congr 1
  symm
  refine Finset.sum_subset ?_ ?_
  · intro i hi
    rw [Finset.mem_filter, Finset.mem_range] at hi
    rw [Finset.mem_erase, Finset.mem_range]
    refine ⟨?_, hi.1⟩
    rintro rfl
    have := hi.2
    unfold before at this
    split at this <;> omega
  · intro i hi hi'
    rw [Finset.mem_erase, Finset.mem_range] at hi
    rw [Finset.mem_filter, Finset.mem_range] at hi'
    exact h0 i hi.2 hi.1 fun hb => hi' ⟨hi.2, hb⟩

/-- The distributed solver with a transposed `op`: the tiles at the end satisfy the equations of the lines. -/
theorem TriAlg.solveT_ends {t : TriAlg K} {PA PB : Params2} (hD : TriDist t.axis.orth PA PB) (hacc : t.accum = true) (hup : t.up = !t.lower)
    (hkeep : ∀ x w y z, t.upd x w y = some z → z.rows = y.rows ∧ z.cols = y.cols) (dbg : Bool) (junk : Coord2 → Int → Nat → Nat → Nat → K) {a b : Tiles K}
    (ha : Shaped a PA.row.tileSizes PA.col.tileSizes PA.row.ntn PA.col.ntn) (hb : Shaped b PB.row.tileSizes PB.col.tileSizes PB.row.ntn PB.col.ntn)
    {alpha beta gamma sigma : K} {N : Nat → Nat → Nat → Nat → K}
    (hK : t.KernelsT (PA.get t.axis).ntn (PA.get t.axis).tileSizes (lineT t.axis a) alpha gamma N) (hgs : sigma * gamma = beta)
    (hbeta : alpha ≠ 0 → beta = -1 / alpha)
    (hN : ∀ k < (PA.get t.axis).ntn, ∀ i < (PA.get t.axis).ntn, i ≠ k → ¬ t.before i k → ∀ r < (PA.get t.axis).tileSizes k,
      ∀ e < (PA.get t.axis).tileSizes i, N k i r e = 0)
    {ma mb : Coord2 → Coord2 → Blk K} (hma : ∀ r ∈ PB.ranks, HoldsTiles PA PA.row.ntn PA.col.ntn r a (ma r))
    (hmb : ∀ r ∈ PB.ranks, HoldsTiles PB PB.row.ntn PB.col.ntn r b (mb r))
    {st : Coord2 → DSt K} (hst : ∀ r ∈ PB.ranks, t.init (PA.on r) (PB.on r) (ma r) (mb r) = some (st r)) :
    ∃ b1, (∀ k < (PA.get t.axis).ntn, ∀ j < (PB.get t.axis).ntn, ∀ r < (PA.get t.axis).tileSizes k, ∀ c < (PB.get t.axis).tileSizes j,
        ∑ i ∈ Finset.range (PA.get t.axis).ntn, ∑ e ∈ Finset.range ((PA.get t.axis).tileSizes i), N k i r e * (lineB t.axis (lineT t.axis b1 (i, j))).e e c =
          alpha * (lineB t.axis (lineT t.axis b (k, j))).e r c) ∧
      AlwaysEnds (Conf.init (fun r => if r ∈ PB.ranks then t.progT dbg (junk r) (PA.on r) (PB.on r) sigma else []) st) fun fin =>
        ∀ r ∈ PB.ranks, HoldsTiles PB PB.row.ntn PB.col.ntn r b1 ((fin r).mat 1) ∧ (fin r).mat 0 = ma r := by
  have hfb := TriAlg.fitB_of hD hb
  have hpw : (if t.up then upto 0 (PA.get t.axis).ntn else downto (PA.get t.axis).ntn 0).Pairwise (fun x y => t.before x y) := by
    unfold before
    rw [hup]
    cases t.lower
    · exact upto_sorted 0 _
    · exact List.pairwise_reverse.2 (upto_sorted 0 _)
  have hmem : ∀ x, x ∈ (if t.up then upto 0 (PA.get t.axis).ntn else downto (PA.get t.axis).ntn 0) ↔ x < (PA.get t.axis).ntn := by
    intro x
    split <;> simp
  have hasym : ∀ x y, t.before x y → ¬ t.before y x := by
    intro x y
    unfold before
    split <;> omega
  obtain ⟨b', h1, h2⟩ := TriAlg.chainT_values (t := t) (PA := PA) (PB := PB) (b0 := lineT t.axis b) hD hacc hkeep (TriAlg.fitA_of hD ha) hK hgs hbeta
    (if t.up then upto 0 (PA.get t.axis).ntn else downto (PA.get t.axis).ntn 0) [] (fun k hk => (hmem k).1 hk) (by simp)
    (hpw.imp fun {x y} h e => by subst e; exact hasym x x h h) (by simp) (by
      intro p1 k p2 e i hi
      rw [List.nil_append]
      rw [e, List.pairwise_append, List.pairwise_cons] at hpw
      constructor
      · intro hb
        have := (hmem i).2 hi
        rw [e, List.mem_append, List.mem_cons] at this
        rcases this with h | h | h
        · exact h
        · subst h; exact absurd hb (hasym _ _ hb)
        · exact absurd hb (hasym _ _ (hpw.2.1.1 i h))
      · intro h
        exact hpw.2.2 i h k List.mem_cons_self) (by simp) (lineT t.axis b)
    ⟨fun i hi j hj => by
      have := hfb i hi j hj
      have q1 : (PA.get t.axis).tileSizes i = ((PA.get t.axis).dist.global_tile_size_of i).toNat := rfl
      have q2 : (PB.get t.axis).tileSizes j = ((PB.get t.axis).dist.global_tile_size_of j).toNat := rfl
      rw [q1, q2]
      unfold VPanel.fits at this
      cases hax : t.axis
      · rw [hax] at this
        simp [isTall, Coord.orth] at this
        exact ⟨by show (lineT _ _ _).cols = _; omega, by show (lineT _ _ _).rows = _; omega⟩
      · rw [hax] at this
        simp [isTall, Coord.orth] at this
        exact ⟨by show (lineT .Col b (i, j)).rows = _; omega, by show (lineT .Col b (i, j)).cols = _; omega⟩, by simp, by simp, fun _ _ _ _ _ => rfl⟩
  obtain ⟨b1, rfl⟩ : ∃ b1, lineT t.axis b1 = b' := by
    cases t.axis
    · exact ⟨swapT b', by rw [show lineT .Row (swapT b') = swapT (swapT b') from rfl, swapT_swapT]⟩
    · exact ⟨b', rfl⟩
  refine ⟨b1, fun k hk j hj r hr c hc => ?_, progT_ends hD dbg junk h1 hma hmb hst⟩
  rw [all_blocks hk (fun i hi hik hb => Finset.sum_eq_zero fun e he => by rw [hN k hk i hi hik hb r hr e (Finset.mem_range.1 he), zero_mul])]
  exact h2.eqn k (by rw [List.nil_append]; exact (hmem k).2 hk) j hj r hr c hc

/-- C56, `side = Left`.  For every grid, source ranks and tile sizes, uplo, op and diag, every nonsingular triangular `A` and every `B`: under every
schedule of the processes the distributed solver ends without abort or deadlock; every process then holds its tiles of the solution of
`op(A) X = alpha B`, and its tiles of `A` as before.  (`beta` is the constant `-1/alpha` of the code; nothing is assumed on it if `alpha = 0`.)
`junk` is the memory of the workspaces that the code broadcasts without setting it. -/
theorem C56_distributed_solve_left {lp : Lapack K} {pos : K → Prop} (hl : LapackSpec lp pos) (u : Uplo) (o : BlasOp) (d : Diag) {alpha beta : K}
    (hbeta : alpha ≠ 0 → beta = -1 / alpha) {PA PB : Params2} (hD : TriDist .Row PA PB) (dbg : Bool)
    (junk : Coord2 → Int → Nat → Nat → Nat → K) {a b : Tiles K} {A B : Nat → Nat → K}
    (ha : Shaped a PA.row.tileSizes PA.col.tileSizes PA.row.ntn PA.col.ntn)
    (hb : Shaped b PB.row.tileSizes PB.col.tileSizes PB.row.ntn PB.col.ntn)
    (hA : HoldsOn a PA.row.tileSizes PA.col.tileSizes PA.row.ntn PA.col.ntn A (inTri u d))
    (hB : HoldsOn b PB.row.tileSizes PB.col.tileSizes PB.row.ntn PB.col.ntn B fun _ _ => True)
    (hn : NonsingE d (tileStart PB.row.tileSizes PB.row.ntn) A)
    {ma mb : Coord2 → Coord2 → Blk K} (hma : ∀ r ∈ PB.ranks, HoldsTiles PA PA.row.ntn PA.col.ntn r a (ma r))
    (hmb : ∀ r ∈ PB.ranks, HoldsTiles PB PB.row.ntn PB.col.ntn r b (mb r))
    {st : Coord2 → DSt K} (hst : ∀ r ∈ PB.ranks, distTriInit .Left (PA.on r) (PB.on r) (ma r) (mb r) = some (st r)) :
    AlwaysEnds (Conf.init (fun r => if r ∈ PB.ranks then distTriSolve dbg (junk r) lp .Left u o d alpha beta (PA.on r) (PB.on r) else []) st) fun fin =>
      (∀ r ∈ PB.ranks, (fin r).mat 0 = ma r) ∧
      ∃ b1, (∀ r ∈ PB.ranks, HoldsTiles PB PB.row.ntn PB.col.ntn r b1 ((fin r).mat 1)) ∧
        ∃ X, HoldsOn b1 PB.row.tileSizes PB.col.tileSizes PB.row.ntn PB.col.ntn X (fun _ _ => True) ∧
          ∀ x < tileStart PB.row.tileSizes PB.row.ntn, ∀ y < tileStart PB.col.tileSizes PB.col.ntn,
            ∑ l ∈ Finset.range (tileStart PB.row.tileSizes PB.row.ntn), opE o (triE u d A) x l * X l y = alpha * B x y := by
  obtain ⟨q1, q2⟩ := tileSizes_sq hD.a
  have hli : PB.row = PA.row := hD.lines
  have ha' := ha
  rw [q1, q2, ← hli] at ha' hA
  by_cases ho : o = .NoTrans
  · subst ho
    obtain ⟨b1, h1, _, X, h2, h3⟩ := C31_solve_left hl u .NoTrans d hbeta ha' hb hA hB hn
    obtain ⟨n, f, e1, e2, e3⟩ := solveN_ends lp .Left u d alpha beta hD dbg junk ha hb h1 hma hmb hst
    exact ⟨n, f, e1, ⟨fun r hr => (e2 r hr).2, b1, fun r hr => (e2 r hr).1, X, h2, h3⟩, e3⟩
  · obtain ⟨hax, hacc, hup, hkeep⟩ := distSolveAlgT_spec (lp := lp) (s := .Left) (u := u) (o := o) (d := d) (alpha := alpha) (beta := beta)
    have hK := kernelsT_left hl u ho d alpha beta ha' hA hn
    have hbef : ∀ i k, i ≠ k → ¬ (distSolveAlgT lp .Left u o d alpha beta).1.before i k → if lowerOp u o then k < i else i < k := by
      intro i k hik h
      cases u <;> cases o <;> first | exact absurd rfl ho | (simp [TriAlg.before, distSolveAlgT, lowerOp] at h ⊢; omega)
    have hsg : (distSolveAlgT lp .Left u o d alpha beta).2 * (-beta) = beta := by cases u <;> simp [distSolveAlgT]
    have hprog : ∀ r, distTriSolve dbg (junk r) lp .Left u o d alpha beta (PA.on r) (PB.on r) =
        (distSolveAlgT lp .Left u o d alpha beta).1.progT dbg (junk r) (PA.on r) (PB.on r) (distSolveAlgT lp .Left u o d alpha beta).2 := by
      intro r
      cases o
      · exact absurd rfl ho
      all_goals rfl
    simp only [hprog]
    generalize (distSolveAlgT lp .Left u o d alpha beta).2 = sigma at *
    generalize (distSolveAlgT lp .Left u o d alpha beta).1 = t at *
    have hax' : t.axis = .Col := hax
    have hrs : (PA.get t.axis).ntn = PB.row.ntn ∧ (PA.get t.axis).tileSizes = PB.row.tileSizes := by
      rw [hax', hli]
      exact ⟨q2, q1⟩
    obtain ⟨b1, h1, n, f, e1, e2, e3⟩ := TriAlg.solveT_ends (t := t) (by rw [hax']; exact hD) hacc hup hkeep dbg junk ha hb (N := fun k i r e => opE o (triE u d A) (tileStart PB.row.tileSizes k + r) (tileStart PB.row.tileSizes i + e))
      (by rw [hrs.1, hrs.2, hax']; exact hK) hsg hbeta (by
        rw [hrs.1, hrs.2]
        intro k hk i hi hik hb r hr e he
        exact zero_block (hbef i k hik hb) hr he) hma hmb (st := st) (fun r hr => by rw [← distTriInit_eq hax]; exact hst r hr)
    refine ⟨n, f, e1, ⟨fun r hr => (e2 r hr).2, b1, fun r hr => (e2 r hr).1, _, elemOf_holds b1 _ _ _ _ _, ?_⟩, e3⟩
    rw [hrs.1, hrs.2, hax'] at h1
    intro x hx y hy
    obtain ⟨i, hi, r, hr, rfl⟩ := exists_tile _ hx
    obtain ⟨j, hj, c, hc, rfl⟩ := exists_tile _ hy
    have := h1 i hi j hj r hr c hc
    rw [← hB i hi j hj r hr c hc trivial]
    refine Eq.trans ?_ this
    rw [sum_tiles]
    refine Finset.sum_congr rfl fun l hl' => ?_
    rw [Finset.mem_range] at hl'
    refine Finset.sum_congr rfl fun e he => ?_
    rw [Finset.mem_range] at he
    rw [elemOf_eq b1 _ _ hl' hj he hc]
    rfl

/-- C56, `side = Right`: the same for `X op(A) = alpha B`. -/
theorem C56_distributed_solve_right {lp : Lapack K} {pos : K → Prop} (hl : LapackSpec lp pos) (hp : Positive pos) (u : Uplo) (o : BlasOp) (d : Diag) {alpha beta : K}
    (hbeta : alpha ≠ 0 → beta = -1 / alpha) {PA PB : Params2} (hD : TriDist .Col PA PB) (dbg : Bool)
    (junk : Coord2 → Int → Nat → Nat → Nat → K) {a b : Tiles K} {A B : Nat → Nat → K}
    (ha : Shaped a PA.row.tileSizes PA.col.tileSizes PA.row.ntn PA.col.ntn)
    (hb : Shaped b PB.row.tileSizes PB.col.tileSizes PB.row.ntn PB.col.ntn)
    (hA : HoldsOn a PA.row.tileSizes PA.col.tileSizes PA.row.ntn PA.col.ntn A (inTri u d))
    (hB : HoldsOn b PB.row.tileSizes PB.col.tileSizes PB.row.ntn PB.col.ntn B fun _ _ => True)
    (hn : NonsingE d (tileStart PB.col.tileSizes PB.col.ntn) A)
    {ma mb : Coord2 → Coord2 → Blk K} (hma : ∀ r ∈ PB.ranks, HoldsTiles PA PA.row.ntn PA.col.ntn r a (ma r))
    (hmb : ∀ r ∈ PB.ranks, HoldsTiles PB PB.row.ntn PB.col.ntn r b (mb r))
    {st : Coord2 → DSt K} (hst : ∀ r ∈ PB.ranks, distTriInit .Right (PA.on r) (PB.on r) (ma r) (mb r) = some (st r)) :
    AlwaysEnds (Conf.init (fun r => if r ∈ PB.ranks then distTriSolve dbg (junk r) lp .Right u o d alpha beta (PA.on r) (PB.on r) else []) st) fun fin =>
      (∀ r ∈ PB.ranks, (fin r).mat 0 = ma r) ∧
      ∃ b1, (∀ r ∈ PB.ranks, HoldsTiles PB PB.row.ntn PB.col.ntn r b1 ((fin r).mat 1)) ∧
        ∃ X, HoldsOn b1 PB.row.tileSizes PB.col.tileSizes PB.row.ntn PB.col.ntn X (fun _ _ => True) ∧
          ∀ x < tileStart PB.row.tileSizes PB.row.ntn, ∀ y < tileStart PB.col.tileSizes PB.col.ntn,
            ∑ l ∈ Finset.range (tileStart PB.col.tileSizes PB.col.ntn), X x l * opE o (triE u d A) l y = alpha * B x y := by
  obtain ⟨q1, q2⟩ := tileSizes_sq hD.a
  have hli : PB.col = PA.col := hD.lines
  have ha' := ha
  rw [← q1, ← q2, ← hli] at ha' hA
  by_cases ho : o = .NoTrans
  · subst ho
    obtain ⟨b1, h1, _, X, h2, h3⟩ := C31_solve_right hl hp u .NoTrans d hbeta ha' hb hA hB hn
    obtain ⟨n, f, e1, e2, e3⟩ := solveN_ends lp .Right u d alpha beta hD dbg junk ha hb h1 hma hmb hst
    exact ⟨n, f, e1, ⟨fun r hr => (e2 r hr).2, b1, fun r hr => (e2 r hr).1, X, h2, h3⟩, e3⟩
  · obtain ⟨hax, hacc, hup, hkeep⟩ := distSolveAlgT_spec (lp := lp) (s := .Right) (u := u) (o := o) (d := d) (alpha := alpha) (beta := beta)
    have hK := kernelsT_right hl u ho d alpha beta ha' hA hn
    have hbef : ∀ i k, i ≠ k → ¬ (distSolveAlgT lp .Right u o d alpha beta).1.before i k → if lowerOp u o then i < k else k < i := by
      intro i k hik h
      cases u <;> cases o <;> first | exact absurd rfl ho | (simp [TriAlg.before, distSolveAlgT, lowerOp] at h ⊢; omega)
    have hsg : (distSolveAlgT lp .Right u o d alpha beta).2 * beta = beta := by cases u <;> simp [distSolveAlgT]
    have hprog : ∀ r, distTriSolve dbg (junk r) lp .Right u o d alpha beta (PA.on r) (PB.on r) =
        (distSolveAlgT lp .Right u o d alpha beta).1.progT dbg (junk r) (PA.on r) (PB.on r) (distSolveAlgT lp .Right u o d alpha beta).2 := by
      intro r
      cases o
      · exact absurd rfl ho
      all_goals rfl
    simp only [hprog]
    generalize (distSolveAlgT lp .Right u o d alpha beta).2 = sigma at *
    generalize (distSolveAlgT lp .Right u o d alpha beta).1 = t at *
    have hax' : t.axis = .Row := hax
    have hrs : (PA.get t.axis).ntn = PB.col.ntn ∧ (PA.get t.axis).tileSizes = PB.col.tileSizes := by
      rw [hax', hli]
      exact ⟨q2.symm, q1.symm⟩
    obtain ⟨b1, h1, n, f, e1, e2, e3⟩ := TriAlg.solveT_ends (t := t) (by rw [hax']; exact hD) hacc hup hkeep dbg junk ha hb (N := fun k i r e => opE o (triE u d A) (tileStart PB.col.tileSizes i + e) (tileStart PB.col.tileSizes k + r))
      (by rw [hrs.1, hrs.2, hax']; exact hK) hsg hbeta (by
        rw [hrs.1, hrs.2]
        intro k hk i hi hik hb r hr e he
        exact zero_block (hbef i k hik hb) he hr) hma hmb (st := st) (fun r hr => by rw [← distTriInit_eq hax]; exact hst r hr)
    refine ⟨n, f, e1, ⟨fun r hr => (e2 r hr).2, b1, fun r hr => (e2 r hr).1, _, elemOf_holds b1 _ _ _ _ _, ?_⟩, e3⟩
    rw [hrs.1, hrs.2, hax'] at h1
    intro x hx y hy
    obtain ⟨i, hi, r, hr, rfl⟩ := exists_tile _ hx
    obtain ⟨j, hj, c, hc, rfl⟩ := exists_tile _ hy
    have := h1 j hj i hi c hc r hr
    rw [← hB i hi j hj r hr c hc trivial]
    refine Eq.trans ?_ this
    rw [sum_tiles]
    refine Finset.sum_congr rfl fun l hl' => ?_
    rw [Finset.mem_range] at hl'
    refine Finset.sum_congr rfl fun e he => ?_
    rw [Finset.mem_range] at he
    rw [elemOf_eq b1 _ _ hi hl' hr he, mul_comm]
    rfl

/-- C56.  The construction of the workspaces never fails. -/
theorem C56_workspaces_created (s : Side) {PA PB : Params2} (hD : TriDist s.lines PA PB) {r : Coord2} (hr : r ∈ PB.ranks) (a b : Coord2 → Blk K) :
    ∃ x, distTriInit s (PA.on r) (PB.on r) a b = some x := C55_workspaces_created s hD hr a b

omit [StarRing K] in
theorem reducePanel_sigs {S : Type*} {P : Params2} {axis : Coord} (hP : Plain (P.get axis.orth)) {r : Coord2} (hr : r ∈ P.ranks)
    (dbg : Bool) (root : Int) (R : PRef S K) {st en : Int} (hs : 0 ≤ st) (hse : st ≤ en) (c : Chan) :
    sigs c (reducePanel dbg axis (P.on r) root R st en) = if (P.get axis).grid ≤ 1 then [] else
      (irange st en).flatMap fun t => if (P.get axis.orth).dist.rank_global_tile t = r.get axis.orth then
        if panelChan axis r = c then [.reduce root] else [] else [] := by
  have hpl := (Params2.plain hP hr).valid
  unfold reducePanel
  dsimp only
  rw [sigs_append]
  show [] ++ _ = _
  rw [List.nil_append, P.on_get r axis]
  by_cases hg : (P.get axis).grid ≤ 1
  · rw [if_pos (show ((P.get axis).onRank (r.get axis)).dist.grid ≤ 1 from hg), if_pos hg]
    rfl
  · rw [if_neg (show ¬ ((P.get axis).onRank (r.get axis)).dist.grid ≤ 1 from hg), if_neg hg, sigs_flatMap,
      P.on_get r axis.orth]
    rw [List.flatMap_congr (g := fun _ => if panelChan axis r = c then [.reduce root] else []) fun i _ => ?_, local_flatMap hpl hs hse]
    · rfl
    · split <;> simp [sigs] <;> rfl

omit [StarRing K] in
theorem reducePanel_same {S : Type*} {P : Params2} {axis : Coord} (hP : Plain (P.get axis.orth)) (dbg : Bool) (root : Int)
    (R : PRef S K) {st en : Int} (hs : 0 ≤ st) (hse : st ≤ en) {c : Chan} {r q : Coord2} (hr : r ∈ P.ranks) (hq : q ∈ P.ranks) (h1 : c.has r = true) (h2 : c.has q = true) :
    sigs c (reducePanel dbg axis (P.on r) root R st en) = sigs c (reducePanel dbg axis (P.on q) root R st en) := by
  rw [reducePanel_sigs hP hr dbg root R hs hse, reducePanel_sigs hP hq dbg root R hs hse]
  rcases chan_mem (axis := axis) h1 with (rfl | rfl) | n1
  · have hqr := (chan_has axis r q).1 h2
    rw [chan_eq axis hqr, hqr]
  · have n1 : ∀ r', ¬ panelChan axis r' = panelChan axis.orth r := fun r' h => chan_ne axis r' r h
    simp [n1]
  · simp [n1]

omit [StarRing K] in
theorem TriAlg.progT_same {t : TriAlg K} {PA PB : Params2} (h : TriDist t.axis.orth PA PB) (dbg : Bool) (junk : Coord2 → Int → Nat → Nat → Nat → K) (sigma : K) :
    SameCollectives PB.ranks (fun r => t.progT dbg (junk r) (PA.on r) (PB.on r) sigma) := by
  intro c r hr q hq h1 h2
  have hn := h.nr_eq t.axis.orth t.axis
  show sigs c (t.progT dbg (junk r) (PA.on r) (PB.on r) sigma) = sigs c (t.progT dbg (junk q) (PA.on q) (PB.on q) sigma)
  unfold progT
  by_cases hz : PB.row.size = 0 ∨ PB.col.size = 0
  · rw [if_pos (show (PB.on r).row.size = 0 ∨ (PB.on r).col.size = 0 from hz), if_pos (show (PB.on q).row.size = 0 ∨ (PB.on q).col.size = 0 from hz)]
  rw [if_neg (show ¬ ((PB.on r).row.size = 0 ∨ (PB.on r).col.size = 0) from hz),
    if_neg (show ¬ ((PB.on q).row.size = 0 ∨ (PB.on q).col.size = 0) from hz)]
  simp only [Params2.on_get]
  show sigs c (List.flatMap _ (dirRange t.up 0 (PA.get t.axis).dist.nrTiles)) = sigs c (List.flatMap _ (dirRange t.up 0 (PA.get t.axis).dist.nrTiles))
  rw [sigs_flatMap, sigs_flatMap]
  refine List.flatMap_congr fun k hk => ?_
  rw [mem_dirRange] at hk
  have b1 : ∀ R : PRef (DSt K) K, sigs c (bcastPanel dbg t.axis (PA.on r) ((PA.get t.axis).dist.rank_global_tile k) R (if t.lower then k else 0)
        (PA.get t.axis.orth).dist.nrTiles) = sigs c (bcastPanel dbg t.axis (PA.on q) ((PA.get t.axis).dist.rank_global_tile k) R (if t.lower then k else 0)
        (PA.get t.axis.orth).dist.nrTiles) := fun R =>
    bcastPanel_same (h.plainA _).toTiled dbg _ _ (by split <;> omega) (by split <;> omega) (h.ranksA ▸ hr) (h.ranksA ▸ hq) h1 h2
  have b2 : ∀ R : PRef (DSt K) K, sigs c (reducePanel dbg t.axis.orth (PB.on r) ((PA.get t.axis.orth).dist.rank_global_tile k) R 0
        (PB.get t.axis).dist.nrTiles) = sigs c (reducePanel dbg t.axis.orth (PB.on q) ((PA.get t.axis.orth).dist.rank_global_tile k) R 0
        (PB.get t.axis).dist.nrTiles) := fun R =>
    reducePanel_same (by rw [orth_orth]; exact h.plainB _) dbg _ _ (le_refl _) (h.plainB _).nrTiles_nonneg hr hq h1 h2
  have i1 : t.iter (PA.on r) k = t.iter (PA.on q) k := by rw [iter_on, iter_on]
  have l1 : ∀ (f g : DSt K → Option (DSt K)), sigs (V := Blk K) c [.loc f, .loc g] = [] := fun _ _ => rfl
  unfold stepT
  rw [i1]
  simp only [Params2.on_get, sigs_append, sigs_locs, List.nil_append, List.append_nil, l1]
  congr 1
  · exact b1 _
  · exact b2 _

/-- C56.  All members of each row and column communicator perform the same sequence of collectives. -/
theorem C56_same_collectives (lp : Lapack K) (s : Side) (u : Uplo) (o : BlasOp) (d : Diag) (alpha beta : K) {PA PB : Params2} (hD : TriDist s.lines PA PB) (dbg : Bool)
    (junk : Coord2 → Int → Nat → Nat → Nat → K) :
    SameCollectives PB.ranks (fun r => distTriSolve dbg (junk r) lp s u o d alpha beta (PA.on r) (PB.on r)) := by
  cases o
  · obtain ⟨t, ht, hax, _⟩ := distSolveAlg_spec (lp := lp) (s := s) (u := u) (d := d) (alpha := alpha) (beta := beta)
    unfold distTriSolve
    rw [ht]
    exact TriAlg.prog_same (by rw [hax, orth_orth]; exact hD) dbg junk
  all_goals
    exact TriAlg.progT_same (by rw [distSolveAlgT_spec.1, orth_orth]; exact hD) dbg junk _

/- Non-vacuity: all variants, all `alpha`, on 2 x 3 processes; `A` is 5 x 5 in tiles of 2 x 2. -/
section example_
private def exPA : Params2 := ⟨⟨5, 2, 2, 2, 0, 1, 0⟩, ⟨5, 2, 2, 3, 0, 2, 0⟩⟩
private def exPB : Side → Params2
  | .Left => ⟨⟨5, 2, 2, 2, 0, 1, 0⟩, ⟨7, 3, 3, 3, 0, 1, 0⟩⟩
  | .Right => ⟨⟨7, 3, 3, 2, 0, 0, 0⟩, ⟨5, 2, 2, 3, 0, 2, 0⟩⟩
private def exOf (P : Params2) (X : Nat → Nat → ℚ) : Tiles ℚ := fun z => ⟨P.row.tileSizes z.1, P.col.tileSizes z.2,
  fun r c => X (tileStart P.row.tileSizes z.1 + r) (tileStart P.col.tileSizes z.2 + c)⟩
private def exX : Nat → Nat → ℚ := fun r c => r + 2 * c + 1

private theorem exD (s : Side) : TriDist s.lines exPA (exPB s) := by
  cases s
  · exact ⟨by decide, by decide, by decide, rfl, rfl, rfl⟩
  · exact ⟨by decide, by decide, by decide, rfl, rfl, rfl⟩

private theorem exNon (d : Diag) (n : Nat) : NonsingE d n exX := by
  refine Or.inr ?_
  intro i _ h
  unfold exX at h
  have : i + 2 * i + 1 = 0 := by exact_mod_cast h
  omega

example (u : Uplo) (o : BlasOp) (d : Diag) (alpha : ℚ) (dbg : Bool) (junk : Coord2 → Int → Nat → Nat → Nat → ℚ) : ∃ st : Coord2 → DSt ℚ,
    AlwaysEnds (Conf.init (fun r => if r ∈ (exPB .Left).ranks then distTriSolve dbg (junk r) (lapackOf posQ) .Left u o d alpha (-1 / alpha) (exPA.on r) ((exPB .Left).on r) else []) st)
      fun fin => ∃ b1, (∀ r ∈ (exPB .Left).ranks, HoldsTiles (exPB .Left) 3 3 r b1 ((fin r).mat 1)) ∧
        ∃ X, HoldsOn b1 (exPB .Left).row.tileSizes (exPB .Left).col.tileSizes 3 3 X (fun _ _ => True) ∧
          ∀ x < tileStart (exPB .Left).row.tileSizes 3, ∀ y < tileStart (exPB .Left).col.tileSizes 3,
            ∑ l ∈ Finset.range (tileStart (exPB .Left).row.tileSizes 3), opE o (triE u d exX) x l * X l y = alpha * exX x y := by
  have hD := exD .Left
  let loc : (Params2) → Tiles ℚ → Coord2 → Coord2 → Blk ℚ := fun P m r l =>
    m (((P.at' .Row r).dist.global_tile_from_local_tile l.row).toNat, ((P.at' .Col r).dist.global_tile_from_local_tile l.col).toNat)
  have hst := fun r (hr : r ∈ (exPB .Left).ranks) => C56_workspaces_created (K := ℚ) .Left hD hr (loc exPA (exOf exPA exX) r)
    (loc (exPB .Left) (exOf (exPB .Left) exX) r)
  choose st' hst' using hst
  obtain ⟨v, _, _⟩ := panel_create (K := ℚ) hD.bRow true 0
  obtain ⟨n, f, e1, ⟨_, e2⟩, e3⟩ := C56_distributed_solve_left (lapack_spec posQ) u o d (alpha := alpha) (beta := -1 / alpha) (fun _ => rfl) hD dbg junk
    (a := exOf exPA exX) (b := exOf (exPB .Left) exX) (A := exX) (B := exX)
    (fun _ _ _ _ => ⟨rfl, rfl⟩) (fun _ _ _ _ => ⟨rfl, rfl⟩) (fun _ _ _ _ _ _ _ _ _ => rfl) (fun _ _ _ _ _ _ _ _ _ => rfl) (exNon d _)
    (fun r h => HoldsTiles.ofMatrix hD.a.row hD.a.col _ (by rw [show exPA.ranks = (exPB .Left).ranks by decide]; exact h) _ _)
    (fun r h => HoldsTiles.ofMatrix hD.bRow hD.bCol _ h _ _)
    (st := fun r => if h : r ∈ (exPB .Left).ranks then st' r h else ⟨fun _ _ => ⟨0, 0, fun _ _ => 0⟩, fun _ _ => v⟩)
    (fun r hr => by rw [dif_pos hr]; exact hst' r hr)
  exact ⟨_, n, f, e1, e2, e3⟩

example (u : Uplo) (o : BlasOp) (d : Diag) (alpha : ℚ) (dbg : Bool) (junk : Coord2 → Int → Nat → Nat → Nat → ℚ) : ∃ st : Coord2 → DSt ℚ,
    AlwaysEnds (Conf.init (fun r => if r ∈ (exPB .Right).ranks then distTriSolve dbg (junk r) (lapackOf posQ) .Right u o d alpha (-1 / alpha) (exPA.on r) ((exPB .Right).on r) else []) st)
      fun fin => ∃ b1, (∀ r ∈ (exPB .Right).ranks, HoldsTiles (exPB .Right) 3 3 r b1 ((fin r).mat 1)) ∧
        ∃ X, HoldsOn b1 (exPB .Right).row.tileSizes (exPB .Right).col.tileSizes 3 3 X (fun _ _ => True) ∧
          ∀ x < tileStart (exPB .Right).row.tileSizes 3, ∀ y < tileStart (exPB .Right).col.tileSizes 3,
            ∑ l ∈ Finset.range (tileStart (exPB .Right).col.tileSizes 3), X x l * opE o (triE u d exX) l y = alpha * exX x y := by
  have hD := exD .Right
  let loc : (Params2) → Tiles ℚ → Coord2 → Coord2 → Blk ℚ := fun P m r l =>
    m (((P.at' .Row r).dist.global_tile_from_local_tile l.row).toNat, ((P.at' .Col r).dist.global_tile_from_local_tile l.col).toNat)
  have hst := fun r (hr : r ∈ (exPB .Right).ranks) => C56_workspaces_created (K := ℚ) .Right hD hr (loc exPA (exOf exPA exX) r)
    (loc (exPB .Right) (exOf (exPB .Right) exX) r)
  choose st' hst' using hst
  obtain ⟨v, _, _⟩ := panel_create (K := ℚ) hD.bRow true 0
  obtain ⟨n, f, e1, ⟨_, e2⟩, e3⟩ := C56_distributed_solve_right (lapack_spec posQ) positiveQ u o d (alpha := alpha) (beta := -1 / alpha) (fun _ => rfl) hD dbg junk
    (a := exOf exPA exX) (b := exOf (exPB .Right) exX) (A := exX) (B := exX)
    (fun _ _ _ _ => ⟨rfl, rfl⟩) (fun _ _ _ _ => ⟨rfl, rfl⟩) (fun _ _ _ _ _ _ _ _ _ => rfl) (fun _ _ _ _ _ _ _ _ _ => rfl) (exNon d _)
    (fun r h => HoldsTiles.ofMatrix hD.a.row hD.a.col _ (by rw [show exPA.ranks = (exPB .Right).ranks by decide]; exact h) _ _)
    (fun r h => HoldsTiles.ofMatrix hD.bRow hD.bCol _ h _ _)
    (st := fun r => if h : r ∈ (exPB .Right).ranks then st' r h else ⟨fun _ _ => ⟨0, 0, fun _ _ => 0⟩, fun _ _ => v⟩)
    (fun r hr => by rw [dif_pos hr]; exact hst' r hr)
  exact ⟨_, n, f, e1, e2, e3⟩

end example_

end DLAF
