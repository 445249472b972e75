import Verif.Lemmas.DistAssemble
import Verif.Props.DistInverse
import Verif.Props.DistCholesky
/-
C59: the distributed inverse from the Cholesky factor.

The program of every process is that of Model/DistAssemble.lean after that of Model/DistInverse.lean; the machine is that of Model/Spmd.lean.
-/
namespace DLAF
variable {K : Type*} [Field K] [StarRing K]

/-- The kernels of a variant. -/
def asmTasks (lp : Lapack K) : Uplo → AsmTasks K
  | .Lower => asmTasksL lp
  | .Upper => asmTasksU lp

theorem herk_shape {u : Uplo} {o : BlasOp} {alpha beta : K} {a c e : Blk K} (h : herk u o alpha a beta c = some e) : e.rows = c.rows ∧ e.cols = c.cols := by
  unfold herk at h
  split at h
  · rw [Option.some.injEq] at h
    subst h
    exact ⟨rfl, rfl⟩
  · exact absurd h (by simp)

theorem trmm_shape {s : Side} {u : Uplo} {o : BlasOp} {d : Diag} {alpha : K} {a b e : Blk K} (h : trmm s u o d alpha a b = some e) : e.rows = b.rows ∧ e.cols = b.cols := by
  unfold trmm at h
  split at h
  · rw [Option.some.injEq] at h
    subst h
    exact ⟨rfl, rfl⟩
  · exact absurd h (by simp)

theorem tileLauum_shape {lp : Lapack K} {u : Uplo} {a e : Blk K} (h : lp.tileLauum u a = some e) : e.rows = a.rows ∧ e.cols = a.cols := by
  unfold Lapack.tileLauum at h
  split at h
  · rw [Option.map_eq_some_iff] at h
    obtain ⟨f, -, rfl⟩ := h
    exact ⟨rfl, rfl⟩
  · exact absurd h (by simp)

theorem asmTasks_keeps (lp : Lapack K) (u : Uplo) : (asmTasks lp u).Keeps := by
  cases u
  · exact ⟨fun _ _ _ _ h => gemm_shape h, fun a b e h => herk_shape (u := .Lower) (o := .ConjTrans) (alpha := 1) (beta := 1) (a := a) (c := b) (e := e) h, fun _ _ _ h => trmm_shape h, fun _ _ h => tileLauum_shape h⟩
  · exact ⟨fun _ _ _ _ h => gemm_shape h, fun a b e h => herk_shape (u := .Upper) (o := .NoTrans) (alpha := 1) (beta := 1) (a := a) (c := b) (e := e) h, fun _ _ _ h => trmm_shape h, fun _ _ h => tileLauum_shape h⟩

section
variable {P : Params2}

/-- Workspaces that store the transposed tiles. -/
theorem sq_panelsT (hD : SquareDist P) {r : Coord2} (hr : r ∈ P.ranks) (c : Coord) : ∃ v : Bool → VPanel K, mkPanelsT c (P.on r) = some v ∧
    ∀ b, PanelIs (P.at' c.orth r) (isTall c.orth) P.row.tile P.row.tile 0 (P.at' c.orth r).dist.nrTiles (fun _ => none) (v b) := by
  obtain ⟨v, h1, h2⟩ := panel_create (K := K) (hD.plainAt c.orth hr) (isTall c.orth) P.row.tile
  refine ⟨fun _ => v, ?_, fun _ => h2⟩
  have e : ((P.on r).get c).tileSize = P.row.tile := by
    cases c
    · rfl
    · exact hD.tile.symm
  unfold mkPanelsT
  rw [e, P.on_at, (hD.plainAt c.orth hr).transpose, h1]
  rfl

/-- The construction of the workspaces of the second phase. -/
theorem asmInit_idle (hD : SquareDist P) {ax : Coord} {r : Coord2} (hr : r ∈ P.ranks) (x : DSt K) :
    ∃ y, asmInit ax (P.on r) x = some y ∧ DIdle (sqEnv P (asmA ax)).E r x.mat y := by
  obtain ⟨v, c1, c2⟩ := sq_panels (K := K) hD hr ax
  obtain ⟨vT, t1, t2⟩ := sq_panelsT (K := K) hD hr ax.orth
  unfold asmInit
  rw [c1, t1]
  refine ⟨_, rfl, rfl, fun n b => ?_⟩
  rcases n with _ | n
  · exact ⟨0, _, fun _ => rfl, fun _ => rfl, le_refl _, c2 b⟩
  · refine ⟨0, _, fun _ => rfl, fun _ => rfl, le_refl _, ?_⟩
    have := t2 b
    rw [orth_orth] at this
    show PanelIs (P.at' (asmA ax (n + 1)).axis.orth r) (isTall ax) P.row.tile P.row.tile 0 (P.at' (asmA ax (n + 1)).axis.orth r).dist.nrTiles (fun _ => none) (vT b)
    rw [show (asmA ax (n + 1)).axis.orth = ax from orth_orth ax]
    exact this

/-- The local instruction that constructs the workspaces, on all processes. -/
theorem asmInit_runs (hD : SquareDist P) (ax : Coord) {A : Nat → PanKind} {M : Nat → Tiles K} {g : Glob (DSt K) (Blk K)} (hg : VIdle (sqEnv P A) M g) :
    ∃ g', Runs (fun r => if r ∈ P.ranks then [Instr.loc fun s => asmInit ax (P.on r) s] else []) g g' ∧ VIdle (sqEnv P (asmA ax)) M g' := by
  obtain ⟨g', r1, c1, q1⟩ := Runs.locals_ex (V := Blk K) (hD.env (A := A)).env.nodup hg.clean (fun r => [fun s => asmInit ax (P.on r) s])
    (fun r x => DIdle (sqEnv P (asmA ax)).E r x.mat x ∧ ∀ n z, (sqEnv P A).In n r z → x.mat n z = M n ((sqEnv P A).g n r z)) (fun r hr => by
      obtain ⟨y, e1, e2⟩ := asmInit_idle (K := K) hD (ax := ax) hr (g.st r)
      refine ⟨y, ?_, ?_⟩
      · show (asmInit ax (P.on r) (g.st r)).bind _ = _
        rw [e1]
        rfl
      · rw [e2.mat]
        exact ⟨e2, (hg.all r hr).2⟩)
  exact ⟨g', r1, c1, q1⟩

/-- The program of the processes and the local algorithm. -/
theorem distInverse_runs (hD : SquareDist P) (lp : Lapack K) (u : Uplo) (dbg : Bool) {m0 : Nat → Tiles K} {a a' : Tiles K} (ha : P.Fits a)
    (h : inverse_from_cholesky_factor lp u P.nt a = some a') {g : Glob (DSt K) (Blk K)} (hg : VIdle (sqEnv P (triA (triAxis u))) (set1 m0 0 a) g) :
    ∃ g', Runs (fun r => if r ∈ P.ranks then distInverseFromCholesky lp u dbg (P.on r) else []) g g' ∧
      VIdle (sqEnv P (asmA (triAxis u))) (set1 m0 0 a') g' ∧ P.Fits a' := by
  have h' : ∃ a1, triangular_inverse lp u .NonUnit P.nt a = some a1 ∧ forM' (upto 0 P.nt) a1 (asmStepG (triAxis u) (asmTasks lp u)) = some a' := by
    cases u
    · exact Option.bind_eq_some_iff.1 h
    · exact Option.bind_eq_some_iff.1 h
  obtain ⟨a1, h1, h2⟩ := h'
  obtain ⟨g1, r1, i1, f1⟩ := distTri_runs hD lp u .NonUnit dbg ha h1 hg
  obtain ⟨g2, r2, i2⟩ := asmInit_runs hD (triAxis u) i1
  obtain ⟨g3, r3, i3, f3⟩ := assemble_runs (dbg := dbg) hD (asmTasks_keeps lp u) f1 h2 i2
  refine ⟨g3, ((r1.append r2).append r3).congr fun r => ?_, i3, f3⟩
  by_cases hr : r ∈ P.ranks
  · simp only [if_pos hr]
    unfold distInverseFromCholesky distAssemble
    cases u
    · simp [triAxis, asmTasks]
    · simp [triAxis, asmTasks]
  · simp [hr]

/-- C59.  The distributed call computes tile by tile what the local call computes on one process: whenever the local one returns, so does the distributed
one, under every schedule, with the same tiles. -/
theorem C59_same_as_local (hD : SquareDist P) (lp : Lapack K) (u : Uplo) (dbg : Bool) {a a' : Tiles K}
    (ha : Shaped a P.row.tileSizes P.row.tileSizes P.nt P.nt) (h : inverse_from_cholesky_factor lp u P.nt a = some a')
    {ma : Coord2 → Coord2 → Blk K} (hma : ∀ r ∈ P.ranks, HoldsTiles P P.nt P.nt r a (ma r))
    {st : Coord2 → DSt K} (hst : ∀ r ∈ P.ranks, distTriInvInit u (P.on r) (ma r) = some (st r)) :
    AlwaysEnds (Conf.init (fun r => if r ∈ P.ranks then distInverseFromCholesky lp u dbg (P.on r) else []) st) fun fin =>
      ∀ r ∈ P.ranks, HoldsTiles P P.nt P.nt r a' ((fin r).mat 0) := by
  obtain ⟨g', r1, i1, -⟩ := distInverse_runs hD lp u dbg ha h (sq_idle hD (A := triA (triAxis u)) hma fun r hr => by
    obtain ⟨x, x1, x2⟩ := triInit_idle hD u hr (ma r)
    have hx : x = st r := Option.some.inj (x1.symm.trans (hst r hr))
    exact hx ▸ x2)
  refine r1.alwaysEnds fun r hr => ?_
  have := sq_holds hD i1 hr 0
  rw [set1_same] at this
  exact this

/-- C59.  For every grid, source ranks, matrix and tile size and both triangles, if the `u` triangle of the distributed matrix holds the Cholesky factor of a
matrix `A`, then under every schedule of the processes the call ends without abort or deadlock, and every process then holds its tiles of a matrix whose
`u` triangle is that of the inverse of `A` and whose other elements are those of the input. -/
theorem C59_distributed_inverse_from_cholesky {lp : Lapack K} {pos : K → Prop} (hl : LapackSpec lp pos) (hp : Positive pos) (hD : SquareDist P)
    (u : Uplo) (dbg : Bool) {a : Tiles K} (ha : Shaped a P.row.tileSizes P.row.tileSizes P.nt P.nt) {A F : Nat → Nat → K}
    (hF : HoldsOn a P.row.tileSizes P.row.tileSizes P.nt P.nt F fun _ _ => True) (hA : IsChol pos u (tileStart P.row.tileSizes P.nt) A F)
    {ma : Coord2 → Coord2 → Blk K} (hma : ∀ r ∈ P.ranks, HoldsTiles P P.nt P.nt r a (ma r))
    {st : Coord2 → DSt K} (hst : ∀ r ∈ P.ranks, distTriInvInit u (P.on r) (ma r) = some (st r)) :
    AlwaysEnds (Conf.init (fun r => if r ∈ P.ranks then distInverseFromCholesky lp u dbg (P.on r) else []) st) fun fin =>
      ∃ a' X, (∀ r ∈ P.ranks, HoldsTiles P P.nt P.nt r a' ((fin r).mat 0)) ∧ Shaped a' P.row.tileSizes P.row.tileSizes P.nt P.nt ∧
        HoldsOn a' P.row.tileSizes P.row.tileSizes P.nt P.nt X (fun _ _ => True) ∧
        (∀ x < tileStart P.row.tileSizes P.nt, ∀ y < tileStart P.row.tileSizes P.nt, ∑ l ∈ Finset.range (tileStart P.row.tileSizes P.nt),
          hermE u A x l * hermE u X l y = if x = y then 1 else 0) ∧
        ∀ x y, ¬ inTri u .NonUnit x y → X x y = F x y := by
  obtain ⟨a', X, h1, h2, h3, h4, h5⟩ := C33_inverse_from_cholesky hl hp u ha hF hA
  obtain ⟨n, f, b1, b2, b3⟩ := C59_same_as_local hD lp u dbg ha h1 hma hst
  exact ⟨n, f, b1, ⟨a', X, b2, h2, h3, h4, h5⟩, b3⟩

/-- C59 with C30: factorize, then invert.  Whenever the Cholesky factorization of the (Hermitian) matrix returns on one process, the distributed
factorization followed by the distributed inverse ends under every schedule, and the processes then hold the inverse of the matrix that was given. -/
theorem C59_distributed_factorize_and_invert {lp : Lapack K} {pos : K → Prop} (hl : LapackSpec lp pos) (hp : Positive pos) (hD : SquareDist P)
    (u : Uplo) (dbg : Bool) {a a1 : Tiles K} (ha : Shaped a P.row.tileSizes P.row.tileSizes P.nt P.nt) {A : Nat → Nat → K}
    (hA : HoldsOn a P.row.tileSizes P.row.tileSizes P.nt P.nt A fun _ _ => True) (hloc : cholesky_factorization lp u P.nt a = some a1)
    {ma : Coord2 → Coord2 → Blk K} (hma : ∀ r ∈ P.ranks, HoldsTiles P P.nt P.nt r a (ma r))
    {st : Coord2 → CholState K} (hst : ∀ r ∈ P.ranks, distCholeskyInit u (P.on r) (ma r) = some (st r)) :
    AlwaysEnds (Conf.init (fun r => if r ∈ P.ranks then distCholesky dbg lp u (P.on r) else []) st) fun mid =>
      ∀ st' : Coord2 → DSt K, (∀ r ∈ P.ranks, distTriInvInit u (P.on r) (mid r).mat = some (st' r)) →
        AlwaysEnds (Conf.init (fun r => if r ∈ P.ranks then distInverseFromCholesky lp u dbg (P.on r) else []) st') fun fin =>
          ∃ a' X, (∀ r ∈ P.ranks, HoldsTiles P P.nt P.nt r a' ((fin r).mat 0)) ∧
            HoldsOn a' P.row.tileSizes P.row.tileSizes P.nt P.nt X (fun _ _ => True) ∧
            ∀ x < tileStart P.row.tileSizes P.nt, ∀ y < tileStart P.row.tileSizes P.nt, ∑ l ∈ Finset.range (tileStart P.row.tileSizes P.nt),
              hermE u A x l * hermE u X l y = if x = y then 1 else 0 := by
  obtain ⟨a', X, h1, h2, h3⟩ := C33_factorize_and_invert hl hp u ha hA hloc
  have hs1 : Shaped a1 P.row.tileSizes P.row.tileSizes P.nt P.nt := by
    cases u
    · exact (C29_cholesky_lower hl hp ha (fun i hi j hj r hr c hc _ => hA i hi j hj r hr c hc trivial) hloc).1
    · exact (C29_cholesky_upper hl hp ha (fun i hi j hj r hr c hc _ => hA i hi j hj r hr c hc trivial) hloc).1
  obtain ⟨n, f, b1, b2, b3⟩ := C30_distributed_cholesky hD dbg lp u ha hloc hma hst
  refine ⟨n, f, b1, fun st' hst' => ?_, b3⟩
  obtain ⟨n, f, b1, b2, b3⟩ := C59_same_as_local hD lp u dbg hs1 h1 (ma := fun r => (f.st r).mat) b2 hst'
  exact ⟨n, f, b1, ⟨a', X, b2, h2, h3⟩, b3⟩

theorem assemble_same (hD : SquareDist P) (dbg : Bool) (ax : Coord) (T : AsmTasks K) :
    SameCollectives P.ranks (fun r => assembleDist dbg ax T (P.on r)) := by
  intro c r hr q hq h1 h2
  beta_reduce
  unfold assembleDist
  have n1 : ∀ r, (P.on r).col.nrTiles = P.nt := fun r => hD.nrTiles .Col
  rw [sigs_flatMap, sigs_flatMap, n1, n1]
  refine List.flatMap_congr fun k hk => ?_
  rw [mem_irange] at hk
  have e2 : ∀ r c t, ((P.on r).get c).rank_global_tile t = (P.get c).dist.rank_global_tile t := fun r c t => by rw [P.on_at]; rfl
  have e3 : ∀ r c, ((P.on r).get c).rank = r.get c := fun r c => by rw [P.on_at]; rfl
  unfold asmStep
  simp only [sigs_append, sigs_locs, List.append_nil, e2, e3]
  by_cases hl : k > 0
  · rw [if_pos hl, if_pos hl]
    simp only [sigs_append, sigs_locs, List.nil_append, List.append_nil]
    congr 1
    · exact bcastPanels_sigs (hD.plain ax.orth) dbg _ _ _ (le_refl _) (by omega) hr hq h1 h2
    · -- the second broadcast: only on the processes of line `k`
      have key : ∀ r ∈ P.ranks, sigs c (if (P.get ax).dist.rank_global_tile k = r.get ax then
          (asmDiag dbg ax (P.on r) k).map Instr.loc ++ bcastPanel dbg ax.orth (P.on r) ((P.get ax.orth).dist.rank_global_tile k) (DSt.panel 1 k) k (k + 1) ++
          (asmLine dbg ax T (P.on r) k).map Instr.loc else []) =
          if (P.get ax).dist.rank_global_tile k = r.get ax then
            sigs c (bcastPanel dbg ax.orth (P.on r) ((P.get ax.orth).dist.rank_global_tile k) (DSt.panel (K := K) 1 k) k (k + 1)) else [] := by
        intro r _
        split
        · simp only [sigs_append, sigs_locs, List.nil_append, List.append_nil]
        · rfl
      rw [key r hr, key q hq]
      have hb := bcastPanel_same (P := P) (axis := ax.orth) (hD.plain ax.orth.orth).toTiled dbg ((P.get ax.orth).dist.rank_global_tile k) (DSt.panel (K := K) 1 k)
        (s := k) (e := k + 1) hk.1 (by omega) hr hq h1 h2
      have hs := fun r (hr : r ∈ P.ranks) => bcastPanel_sigs (P := P) (axis := ax.orth) (hD.plain ax.orth.orth) hr dbg ((P.get ax.orth).dist.rank_global_tile k) (DSt.panel (K := K) 1 k)
        (s := k) (e := k + 1) hk.1 (by omega) c
      rcases chan_mem (axis := ax) h1 with (rfl | rfl) | n1
      · have n1 : ∀ r', ¬ panelChan ax.orth r' = panelChan ax r := fun r' h => chan_ne ax r r' h.symm
        rw [hs r hr, hs q hq]
        simp only [n1, if_false, ite_self]
        have z : ((irange k (k + 1)).flatMap fun _ => ([] : List Sig)) = [] := List.flatMap_eq_nil_iff.2 fun _ _ => rfl
        simp only [z, ite_self]
      · have hqr := (chan_has ax.orth r q).1 h2
        rw [orth_orth] at hqr
        rw [hb, hqr]
      · rw [hs r hr, hs q hq]
        simp only [n1, if_false, ite_self]
        have z : ((irange k (k + 1)).flatMap fun _ => ([] : List Sig)) = [] := List.flatMap_eq_nil_iff.2 fun _ _ => rfl
        simp only [z, ite_self]
  · rw [if_neg hl, if_neg hl]

/-- C59.  All members of each row and column communicator perform the same sequence of collectives. -/
theorem C59_same_collectives (hD : SquareDist P) (lp : Lapack K) (u : Uplo) (dbg : Bool) :
    SameCollectives P.ranks (fun r => distInverseFromCholesky lp u dbg (P.on r)) := by
  intro c r hr q hq h1 h2
  have e1 := C58_same_collectives hD lp u .NonUnit dbg c r hr q hq h1 h2
  have e2 := assemble_same hD dbg (triAxis u) (asmTasks lp u) c r hr q hq h1 h2
  beta_reduce at e1 e2 ⊢
  unfold distInverseFromCholesky distAssemble
  cases u
  · show sigs c (_ ++ ([Instr.loc _] ++ assembleDist dbg .Row (asmTasksL lp) (P.on r))) = sigs c (_ ++ ([Instr.loc _] ++ assembleDist dbg .Row (asmTasksL lp) (P.on q)))
    rw [sigs_append, sigs_append, sigs_append, sigs_append, e1]
    exact congrArg _ (congrArg _ e2)
  · show sigs c (_ ++ ([Instr.loc _] ++ assembleDist dbg .Col (asmTasksU lp) (P.on r))) = sigs c (_ ++ ([Instr.loc _] ++ assembleDist dbg .Col (asmTasksU lp) (P.on q)))
    rw [sigs_append, sigs_append, sigs_append, sigs_append, e1]
    exact congrArg _ (congrArg _ e2)
end

/- Non-vacuity: a 5 x 5 matrix in tiles of 2 x 2 on a 2 x 3 grid, with other values outside of the triangle. -/
section example_
private def exP : Params2 := ⟨⟨5, 2, 2, 2, 0, 1, 0⟩, ⟨5, 2, 2, 3, 0, 2, 0⟩⟩
private def exF : Nat → Nat → ℚ := fun r c => r + 2 * c + 1
private def exA : Uplo → Nat → Nat → ℚ
  | .Lower => fun r c => ∑ l ∈ Finset.range (c + 1), exF r l * star (exF c l)
  | .Upper => fun r c => ∑ l ∈ Finset.range (r + 1), star (exF l r) * exF l c
private def exM : Tiles ℚ := fun z => ⟨exP.row.tileSizes z.1, exP.row.tileSizes z.2,
  fun r c => exF (tileStart exP.row.tileSizes z.1 + r) (tileStart exP.row.tileSizes z.2 + c)⟩

example : SquareDist exP ∧ exP.ranks.length = 6 ∧ exP.nt = 3 := by decide

private theorem exChol (u : Uplo) : IsChol posQ u 5 (exA u) exF := by
  refine ⟨fun i _ => ?_, ?_⟩
  · show (0 : ℚ) < i + 2 * i + 1
    positivity
  · cases u
    · exact fun _ _ _ _ => rfl
    · exact fun _ _ _ _ => rfl

example (u : Uplo) : ∃ (st : Coord2 → DSt ℚ),
    AlwaysEnds (Conf.init (fun r => if r ∈ exP.ranks then distInverseFromCholesky (lapackOf posQ) u true (exP.on r) else []) st)
      fun fin => ∃ a' X, (∀ r ∈ exP.ranks, HoldsTiles exP 3 3 r a' ((fin r).mat 0)) ∧ HoldsOn a' exP.row.tileSizes exP.row.tileSizes 3 3 X (fun _ _ => True) ∧
        ∀ x < 5, ∀ y < 5, ∑ l ∈ Finset.range 5, hermE u (exA u) x l * hermE u X l y = if x = y then 1 else 0 := by
  have hP : SquareDist exP := by decide
  have h5 : tileStart exP.row.tileSizes exP.nt = 5 := by decide
  let ma : Coord2 → Coord2 → Blk ℚ := fun r l => exM (((exP.at' .Row r).dist.global_tile_from_local_tile l.row).toNat,
      ((exP.at' .Col r).dist.global_tile_from_local_tile l.col).toNat)
  have hst := fun r (hr : r ∈ exP.ranks) => C58_workspaces_created (K := ℚ) hP u hr (ma r)
  choose st' hst' using hst
  obtain ⟨v, _, _⟩ := panel_create (K := ℚ) hP.row true 0
  obtain ⟨n, f, a1, ⟨a', X, a2, -, a3, a4, -⟩, a5⟩ := C59_distributed_inverse_from_cholesky (lapack_spec posQ) positiveQ hP u true (a := exM)
    (fun _ _ _ _ => ⟨rfl, rfl⟩) (A := exA u) (F := exF) (fun _ _ _ _ _ _ _ _ _ => rfl) (by rw [h5]; exact exChol u) (ma := ma)
    (fun r hr => HoldsTiles.ofMatrix hP.row hP.col exM hr _ _)
    (st := fun r => if h : r ∈ exP.ranks then st' r h else ⟨fun _ _ => ⟨0, 0, fun _ _ => 0⟩, fun _ _ => v⟩)
    (fun r hr => by rw [dif_pos hr]; exact hst' r hr)
  rw [h5] at a4
  exact ⟨_, n, f, a1, ⟨a', X, a2, a3, a4⟩, a5⟩

/-- The hypothesis of `C59_distributed_factorize_and_invert` is met. -/
example : ∃ a1, cholesky_factorization (lapackOf posQ) .Lower exP.nt (fun z => ⟨exP.row.tileSizes z.1, exP.row.tileSizes z.2,
    fun r c => exA .Lower (tileStart exP.row.tileSizes z.1 + r) (tileStart exP.row.tileSizes z.2 + c)⟩) = some a1 := by
  obtain ⟨m1, h1, _⟩ := C29_cholesky_lower_succeeds (lapack_spec posQ) positiveQ (sz := exP.row.tileSizes) (nt := exP.nt) (A := exA .Lower) (L := exF)
    (m := fun z => ⟨exP.row.tileSizes z.1, exP.row.tileSizes z.2, fun r c => exA .Lower (tileStart exP.row.tileSizes z.1 + r) (tileStart exP.row.tileSizes z.2 + c)⟩)
    (fun _ _ _ _ => ⟨rfl, rfl⟩) (fun _ _ _ _ _ _ _ _ _ => rfl) (exChol .Lower)
  exact ⟨m1, h1⟩
end example_

end DLAF
