import Verif.Lemmas.DistGenToStd
import Verif.Props.DistAssemble
import Verif.Props.GenToStd
/-
C60: the distributed transformation of a generalized eigenproblem to standard form.

The program of every process is that of Model/DistGenToStd.lean; the machine is that of Model/Spmd.lean.
-/
namespace DLAF
variable {K : Type*} [Field K] [StarRing K]

theorem her2k_shape {u : Uplo} {o : BlasOp} {alpha beta : K} {a b c e : Blk K} (h : her2k u o alpha a b beta c = some e) : e.rows = c.rows ∧ e.cols = c.cols := by
  unfold her2k at h
  split at h
  · rw [Option.some.injEq] at h
    subst h
    exact ⟨rfl, rfl⟩
  · exact absurd h (by simp)

theorem hemm_shape {s : Side} {u : Uplo} {alpha beta : K} {a b c e : Blk K} (h : hemm s u alpha a b beta c = some e) : e.rows = c.rows ∧ e.cols = c.cols := by
  unfold hemm at h
  cases s
  all_goals
    dsimp only at h
    split at h
    · rw [Option.some.injEq] at h
      subst h
      exact ⟨rfl, rfl⟩
    · exact absurd h (by simp)

theorem tileHegst_shape {lp : Lapack K} {u : Uplo} {a b e : Blk K} (h : lp.tileHegst u a b = some e) : e.rows = a.rows ∧ e.cols = a.cols := by
  unfold Lapack.tileHegst at h
  split at h
  · rw [Option.map_eq_some_iff] at h
    obtain ⟨f, -, rfl⟩ := h
    exact ⟨rfl, rfl⟩
  · exact absurd h (by simp)

theorem gsTasks_keeps (lp : Lapack K) (u : Uplo) : (gsTasks lp u).Keeps := by
  cases u
  · exact ⟨fun _ _ _ h => tileHegst_shape h, fun l a e h => tileTrsm_shape lp .Right .Lower .ConjTrans .NonUnit 1 l a e h,
      fun d l a e h => hemm_shape (s := .Right) (u := .Lower) (alpha := minusHalf) (beta := 1) (a := d) (b := l) (c := a) (e := e) h,
      fun a l c e h => her2k_shape (u := .Lower) (o := .NoTrans) (alpha := -1) (beta := 1) (a := a) (b := l) (c := c) (e := e) h,
      fun _ _ _ _ h => gemm_shape h, fun l a e h => tileTrsm_shape lp .Left .Lower .NoTrans .NonUnit 1 l a e h, fun _ _ _ _ h => gemm_shape h⟩
  · exact ⟨fun _ _ _ h => tileHegst_shape h, fun l a e h => tileTrsm_shape lp .Left .Upper .ConjTrans .NonUnit 1 l a e h,
      fun d l a e h => hemm_shape (s := .Left) (u := .Upper) (alpha := minusHalf) (beta := 1) (a := d) (b := l) (c := a) (e := e) h,
      fun a l c e h => her2k_shape (u := .Upper) (o := .ConjTrans) (alpha := -1) (beta := 1) (a := a) (b := l) (c := c) (e := e) h,
      fun _ _ _ _ h => gemm_shape h, fun l a e h => tileTrsm_shape lp .Right .Upper .NoTrans .NonUnit 1 l a e h, fun _ _ _ _ h => gemm_shape h⟩

section
variable {P : Params2}

/-- The state of the processes at the call. -/
theorem gsInit_idle (hD : SquareDist P) {ax : Coord} {r : Coord2} (hr : r ∈ P.ranks) (a l : Coord2 → Blk K) :
    ∃ x, gsInit ax (P.on r) a l = some x ∧ DIdle (sqEnv P (gsA ax)).E r (fun n => if n = 0 then a else l) x := by
  obtain ⟨v, c1, c2⟩ := sq_panels (K := K) hD hr ax
  obtain ⟨vT, t1, t2⟩ := sq_panelsT (K := K) hD hr ax.orth
  obtain ⟨w, w1, w2⟩ := sq_panels (K := K) hD hr ax.orth
  unfold gsInit
  rw [c1, t1, w1]
  refine ⟨_, rfl, rfl, fun n b => ?_⟩
  rcases n with _ | _ | _ | n
  · exact ⟨0, _, fun _ => rfl, fun _ => rfl, le_refl _, c2 b⟩
  · refine ⟨0, _, fun _ => rfl, fun _ => rfl, le_refl _, ?_⟩
    have := t2 b
    rw [orth_orth] at this
    show PanelIs (P.at' (gsA ax 1).axis.orth r) (isTall ax) P.row.tile P.row.tile 0 (P.at' (gsA ax 1).axis.orth r).dist.nrTiles (fun _ => none) (vT b)
    rw [show (gsA ax 1).axis.orth = ax from orth_orth ax]
    exact this
  · exact ⟨0, _, fun _ => rfl, fun _ => rfl, le_refl _, c2 b⟩
  · exact ⟨0, _, fun _ => rfl, fun _ => rfl, le_refl _, w2 b⟩

/-- The construction of the workspaces never fails. -/
theorem C60_workspaces_created (hD : SquareDist P) (u : Uplo) {r : Coord2} (hr : r ∈ P.ranks) (a l : Coord2 → Blk K) :
    ∃ x, gsInit (gsAxis u) (P.on r) a l = some x := by
  obtain ⟨x, h, _⟩ := gsInit_idle hD (ax := gsAxis u) hr a l
  exact ⟨x, h⟩

/-- C60.  The distributed call computes tile by tile what the local call computes on one process: whenever the local one returns, so does the distributed
one, under every schedule, with the same tiles; the tiles of the factor are those of the call. -/
theorem C60_same_as_local (hD : SquareDist P) (lp : Lapack K) (u : Uplo) (dbg : Bool) {a b a' : Tiles K}
    (ha : Shaped a P.row.tileSizes P.row.tileSizes P.nt P.nt) (hb : Shaped b P.row.tileSizes P.row.tileSizes P.nt P.nt)
    (h : generalized_to_standard lp u P.nt b a = some a')
    {ma mb : Coord2 → Coord2 → Blk K} (hma : ∀ r ∈ P.ranks, HoldsTiles P P.nt P.nt r a (ma r)) (hmb : ∀ r ∈ P.ranks, HoldsTiles P P.nt P.nt r b (mb r))
    {st : Coord2 → DSt K} (hst : ∀ r ∈ P.ranks, gsInit (gsAxis u) (P.on r) (ma r) (mb r) = some (st r)) :
    AlwaysEnds (Conf.init (fun r => if r ∈ P.ranks then distGenToStd lp u dbg (P.on r) else []) st) fun fin =>
      ∀ r ∈ P.ranks, HoldsTiles P P.nt P.nt r a' ((fin r).mat 0) ∧ HoldsTiles P P.nt P.nt r b ((fin r).mat 1) := by
  have hn : P.col.ntn = P.nt := by
    have := hD.nrTiles .Col
    show P.col.dist.nrTiles.toNat = _
    have e : P.col.dist.nrTiles = P.nt := this
    omega
  have hh : ∀ (M : Tiles K) (r : Coord2) (m : Coord2 → Blk K), HoldsTiles P P.nt P.nt r M m = HoldsTiles P P.row.ntn P.col.ntn r M m := fun M r m => by rw [hn]; rfl
  have hf : forM' (upto 0 P.nt) a (gsStepG (gsAxis u) (gsTasks lp u) P.nt b) = some a' := by
    cases u
    · exact h
    · exact h
  have hg : VIdle (sqEnv P (gsA (gsAxis u))) (set1 (fun _ => b) 0 a) ⟨st, fun _ _ => 0, fun _ _ _ => none⟩ := by
    refine ⟨Clean.init _ _, fun r hr => ?_⟩
    obtain ⟨x, x1, x2⟩ := gsInit_idle (K := K) hD (ax := gsAxis u) hr (ma r) (mb r)
    have hx : x = st r := Option.some.inj (x1.symm.trans (hst r hr))
    subst hx
    have hm := x2.mat
    refine ⟨by rw [hm]; exact x2, fun n z hz => ?_⟩
    show (st r).mat n z = _
    rw [hm]
    beta_reduce
    by_cases n0 : n = 0
    · subst n0
      rw [set1_same, if_pos rfl]
      have hc := hma r hr
      rw [hh] at hc
      exact LView.of_holds hD.row hD.col hr hc z.row z.col hz.1.1 hz.1.2 hz.2.1 hz.2.2
    · rw [set1_ne _ _ n0, if_neg n0]
      have hc := hmb r hr
      rw [hh] at hc
      exact LView.of_holds hD.row hD.col hr hc z.row z.col hz.1.1 hz.1.2 hz.2.1 hz.2.2
  obtain ⟨g', r1, i1⟩ := gs_runs (dbg := dbg) (m0 := fun _ => b) hD (gsTasks_keeps lp u) hb ha hf rfl hg
  refine r1.alwaysEnds fun r hr => ⟨?_, ?_⟩
  · rw [hh]
    refine LView.holds hD.row hD.col hr fun i j h1 h2 h3 h4 => ?_
    have := i1 r hr 0 ⟨i, j⟩ ⟨⟨h1, h2⟩, h3, h4⟩
    rw [set1_same] at this
    exact this
  · rw [hh]
    refine LView.holds hD.row hD.col hr fun i j h1 h2 h3 h4 => ?_
    have := i1 r hr 1 ⟨i, j⟩ ⟨⟨h1, h2⟩, h3, h4⟩
    rw [set1_ne _ _ (by decide)] at this
    exact this

/-- C60, lower.  For every grid, source ranks, matrix and tile size, if the lower triangle of `b` is a nonsingular triangular matrix `L` and the diagonal of `a` is real,
then under every schedule of the processes the call ends without abort or deadlock, and every process then holds its tiles of a matrix whose lower triangle is that of the
Hermitian matrix `X` with `L X Lᴴ = A`, and whose other elements are those of the input; its tiles of the factor are unchanged. -/
theorem C60_distributed_gen_to_std_lower {lp : Lapack K} {pos : K → Prop} (hl : LapackSpec lp pos) (h2 : (2 : K) ≠ 0) (hD : SquareDist P) (dbg : Bool)
    {a b : Tiles K} (ha : Shaped a P.row.tileSizes P.row.tileSizes P.nt P.nt) (hb : Shaped b P.row.tileSizes P.row.tileSizes P.nt P.nt)
    {A B : Nat → Nat → K} (hA : HoldsOn a P.row.tileSizes P.row.tileSizes P.nt P.nt A fun _ _ => True)
    (hB : HoldsOn b P.row.tileSizes P.row.tileSizes P.nt P.nt B fun _ _ => True)
    (hn : NonsingE .NonUnit (tileStart P.row.tileSizes P.nt) B) (hr : ∀ i < tileStart P.row.tileSizes P.nt, star (A i i) = A i i)
    {ma mb : Coord2 → Coord2 → Blk K} (hma : ∀ r ∈ P.ranks, HoldsTiles P P.nt P.nt r a (ma r)) (hmb : ∀ r ∈ P.ranks, HoldsTiles P P.nt P.nt r b (mb r))
    {st : Coord2 → DSt K} (hst : ∀ r ∈ P.ranks, gsInit (gsAxis .Lower) (P.on r) (ma r) (mb r) = some (st r)) :
    AlwaysEnds (Conf.init (fun r => if r ∈ P.ranks then distGenToStd lp .Lower dbg (P.on r) else []) st) fun fin =>
      ∃ a' X, (∀ r ∈ P.ranks, HoldsTiles P P.nt P.nt r a' ((fin r).mat 0) ∧ HoldsTiles P P.nt P.nt r b ((fin r).mat 1)) ∧
        Shaped a' P.row.tileSizes P.row.tileSizes P.nt P.nt ∧ HoldsOn a' P.row.tileSizes P.row.tileSizes P.nt P.nt X (fun _ _ => True) ∧
        (∀ x < tileStart P.row.tileSizes P.nt, ∀ y < tileStart P.row.tileSizes P.nt, hermE .Lower A x y =
          ∑ p ∈ Finset.range (tileStart P.row.tileSizes P.nt), ∑ q ∈ Finset.range (tileStart P.row.tileSizes P.nt),
            triE .Lower .NonUnit B x p * hermE .Lower X p q * star (triE .Lower .NonUnit B y q)) ∧
        (∀ x, star (X x x) = X x x) ∧ ∀ x y, x < y → X x y = A x y := by
  obtain ⟨a', X, h3, h4⟩ := C42_gen_to_std_lower hl h2 ha hb hA hB hn hr
  obtain ⟨n, f, b1, b2, b3⟩ := C60_same_as_local hD lp .Lower dbg ha hb h3 hma hmb hst
  exact ⟨n, f, b1, ⟨a', X, b2, h4⟩, b3⟩

/-- C60, upper: the same with `Uᴴ X U = A`. -/
theorem C60_distributed_gen_to_std_upper {lp : Lapack K} {pos : K → Prop} (hl : LapackSpec lp pos) (hp : Positive pos) (h2 : (2 : K) ≠ 0) (hD : SquareDist P) (dbg : Bool)
    {a b : Tiles K} (ha : Shaped a P.row.tileSizes P.row.tileSizes P.nt P.nt) (hb : Shaped b P.row.tileSizes P.row.tileSizes P.nt P.nt)
    {A B : Nat → Nat → K} (hA : HoldsOn a P.row.tileSizes P.row.tileSizes P.nt P.nt A fun _ _ => True)
    (hB : HoldsOn b P.row.tileSizes P.row.tileSizes P.nt P.nt B fun _ _ => True)
    (hn : NonsingE .NonUnit (tileStart P.row.tileSizes P.nt) B) (hr : ∀ i < tileStart P.row.tileSizes P.nt, star (A i i) = A i i)
    {ma mb : Coord2 → Coord2 → Blk K} (hma : ∀ r ∈ P.ranks, HoldsTiles P P.nt P.nt r a (ma r)) (hmb : ∀ r ∈ P.ranks, HoldsTiles P P.nt P.nt r b (mb r))
    {st : Coord2 → DSt K} (hst : ∀ r ∈ P.ranks, gsInit (gsAxis .Upper) (P.on r) (ma r) (mb r) = some (st r)) :
    AlwaysEnds (Conf.init (fun r => if r ∈ P.ranks then distGenToStd lp .Upper dbg (P.on r) else []) st) fun fin =>
      ∃ a' X, (∀ r ∈ P.ranks, HoldsTiles P P.nt P.nt r a' ((fin r).mat 0) ∧ HoldsTiles P P.nt P.nt r b ((fin r).mat 1)) ∧
        Shaped a' P.row.tileSizes P.row.tileSizes P.nt P.nt ∧ HoldsOn a' P.row.tileSizes P.row.tileSizes P.nt P.nt X (fun _ _ => True) ∧
        (∀ x < tileStart P.row.tileSizes P.nt, ∀ y < tileStart P.row.tileSizes P.nt, hermE .Upper A x y =
          ∑ p ∈ Finset.range (tileStart P.row.tileSizes P.nt), ∑ q ∈ Finset.range (tileStart P.row.tileSizes P.nt),
            star (triE .Upper .NonUnit B p x) * hermE .Upper X p q * triE .Upper .NonUnit B q y) ∧
        (∀ x, star (X x x) = X x x) ∧ ∀ x y, y < x → X x y = A x y := by
  obtain ⟨a', X, h3, h4⟩ := C42_gen_to_std_upper hl hp h2 ha hb hA hB hn hr
  obtain ⟨n, f, b1, b2, b3⟩ := C60_same_as_local hD lp .Upper dbg ha hb h3 hma hmb hst
  exact ⟨n, f, b1, ⟨a', X, b2, h4⟩, b3⟩

omit [Field K] [StarRing K] in
theorem gsDist_same (hD : SquareDist P) (dbg : Bool) (ax : Coord) (T : GsTasks K) :
    SameCollectives P.ranks (fun r => gsDist dbg ax T (P.on r)) := by
  intro c r hr q hq h1 h2
  beta_reduce
  unfold gsDist
  have n1 : ∀ r, (P.on r).col.nrTiles = P.nt := fun r => hD.nrTiles .Col
  rw [sigs_flatMap, sigs_flatMap, n1, n1]
  refine List.flatMap_congr fun k hk => ?_
  rw [mem_irange] at hk
  have e2 : ∀ r c t, ((P.on r).get c).rank_global_tile t = (P.get c).dist.rank_global_tile t := fun r c t => by rw [P.on_at]; rfl
  have e3 : ∀ r c, ((P.on r).get c).rank = r.get c := fun r c => by rw [P.on_at]; rfl
  have eL : ∀ f : DSt K → Option (DSt K), sigs c [Instr.loc (V := Blk K) f] = [] := fun f => sigs_locs c [f]
  unfold gsStep
  simp only [sigs_append, sigs_locs, eL, List.append_nil, List.nil_append, n1, e2, e3]
  congr 1
  · congr 1
    · exact bcastPanels_sigs (hD.plain ax.orth) dbg _ _ _ hk.1 (by omega) hr hq h1 h2
    · by_cases hl : k < (P.nt : Int) - 1
      · rw [if_pos hl, if_pos hl]
        simp only [sigs_append, sigs_locs, List.append_nil]
        exact bcastPanel_same (hD.plain ax.orth.orth).toTiled dbg _ _ (le_refl _) (by omega) hr hq h1 h2
      · rw [if_neg hl, if_neg hl]
  · by_cases hl : k = (P.nt : Int) - 1
    · rw [if_pos hl, if_pos hl]
    · rw [if_neg hl, if_neg hl]
      simp only [sigs_append, sigs_locs, eL, List.nil_append, List.append_nil]
      congr 1
      · -- only on the processes of line `k`
        have key : ∀ r ∈ P.ranks, sigs c (if (P.get ax).dist.rank_global_tile k = r.get ax then
            (gsSetDiag dbg ax (P.on r) k).map Instr.loc ++ bcastPanel dbg ax.orth (P.on r) ((P.get ax.orth).dist.rank_global_tile k) (DSt.panel 3 k) k (k + 1) ++
            (gsLine dbg ax T (P.on r) k).map Instr.loc else []) =
            if (P.get ax).dist.rank_global_tile k = r.get ax then
              sigs c (bcastPanel dbg ax.orth (P.on r) ((P.get ax.orth).dist.rank_global_tile k) (DSt.panel (K := K) 3 k) k (k + 1)) else [] := by
          intro r _
          split
          · simp only [sigs_append, sigs_locs, List.nil_append, List.append_nil]
          · rfl
        rw [key r hr, key q hq]
        have hb := bcastPanel_same (P := P) (axis := ax.orth) (hD.plain ax.orth.orth).toTiled dbg ((P.get ax.orth).dist.rank_global_tile k) (DSt.panel (K := K) 3 k)
          (s := k) (e := k + 1) hk.1 (by omega) hr hq h1 h2
        have hs := fun r (hr : r ∈ P.ranks) => bcastPanel_sigs (P := P) (axis := ax.orth) (hD.plain ax.orth.orth) hr dbg ((P.get ax.orth).dist.rank_global_tile k) (DSt.panel (K := K) 3 k)
          (s := k) (e := k + 1) hk.1 (by omega) c
        rcases chan_mem (axis := ax) h1 with (rfl | rfl) | n1
        · have n1 : ∀ r', ¬ panelChan ax.orth r' = panelChan ax r := fun r' h => chan_ne ax r r' h.symm
          rw [hs r hr, hs q hq]
          simp only [n1, if_false, ite_self]
          have z : ((irange k (k + 1)).flatMap fun _ => ([] : List Sig)) = [] := List.flatMap_eq_nil_iff.2 fun _ _ => rfl
          simp only [z, ite_self]
        · have hqr := (chan_has ax.orth r q).1 h2
          rw [orth_orth] at hqr
          rw [hb, hqr]
        · rw [hs r hr, hs q hq]
          simp only [n1, if_false, ite_self]
          have z : ((irange k (k + 1)).flatMap fun _ => ([] : List Sig)) = [] := List.flatMap_eq_nil_iff.2 fun _ _ => rfl
          simp only [z, ite_self]
      · exact bcastPanels_sigs (hD.plain ax.orth) dbg _ _ _ (by omega) (by omega) hr hq h1 h2

/-- C60.  All members of each row and column communicator perform the same sequence of collectives. -/
theorem C60_same_collectives (hD : SquareDist P) (lp : Lapack K) (u : Uplo) (dbg : Bool) :
    SameCollectives P.ranks (fun r => distGenToStd lp u dbg (P.on r)) :=
  gsDist_same hD dbg (gsAxis u) (gsTasks lp u)
end

/- Non-vacuity: 5 x 5 matrices in tiles of 2 x 2 on a 2 x 3 grid, with other values outside of the triangles. -/
section example_
private def exP : Params2 := ⟨⟨5, 2, 2, 2, 0, 1, 0⟩, ⟨5, 2, 2, 3, 0, 2, 0⟩⟩
private def exB : Nat → Nat → ℚ := fun r c => r + 2 * c + 1
private def exA : Nat → Nat → ℚ := fun r c => 2 * r + c
private def exM (E : Nat → Nat → ℚ) : Tiles ℚ := fun z => ⟨exP.row.tileSizes z.1, exP.row.tileSizes z.2,
  fun r c => E (tileStart exP.row.tileSizes z.1 + r) (tileStart exP.row.tileSizes z.2 + c)⟩
private def exL (E : Nat → Nat → ℚ) : Coord2 → Coord2 → Blk ℚ := fun r l => exM E (((exP.at' .Row r).dist.global_tile_from_local_tile l.row).toNat,
      ((exP.at' .Col r).dist.global_tile_from_local_tile l.col).toNat)

example : SquareDist exP ∧ exP.ranks.length = 6 ∧ exP.nt = 3 := by decide

private theorem exN : NonsingE .NonUnit 5 exB := Or.inr fun i _ => by
  show (i : ℚ) + 2 * i + 1 ≠ 0
  positivity

private theorem exSt (u : Uplo) : ∃ st : Coord2 → DSt ℚ, ∀ r ∈ exP.ranks, gsInit (gsAxis u) (exP.on r) (exL exA r) (exL exB r) = some (st r) := by
  have hP : SquareDist exP := by decide
  have hst := fun r (hr : r ∈ exP.ranks) => C60_workspaces_created (K := ℚ) hP u hr (exL exA r) (exL exB r)
  choose st' hst' using hst
  obtain ⟨v, _, _⟩ := panel_create (K := ℚ) hP.row true 0
  exact ⟨fun r => if h : r ∈ exP.ranks then st' r h else ⟨fun _ _ => ⟨0, 0, fun _ _ => 0⟩, fun _ _ => v⟩, fun r hr => by beta_reduce; rw [dif_pos hr]; exact hst' r hr⟩

example : ∃ (st : Coord2 → DSt ℚ),
    AlwaysEnds (Conf.init (fun r => if r ∈ exP.ranks then distGenToStd (lapackOf posQ) .Lower true (exP.on r) else []) st)
      fun fin => ∃ a' X, (∀ r ∈ exP.ranks, HoldsTiles exP 3 3 r a' ((fin r).mat 0) ∧ HoldsTiles exP 3 3 r (exM exB) ((fin r).mat 1)) ∧
        HoldsOn a' exP.row.tileSizes exP.row.tileSizes 3 3 X (fun _ _ => True) ∧
        ∀ x < 5, ∀ y < 5, hermE .Lower exA x y = ∑ p ∈ Finset.range 5, ∑ q ∈ Finset.range 5,
            triE .Lower .NonUnit exB x p * hermE .Lower X p q * star (triE .Lower .NonUnit exB y q) := by
  have hP : SquareDist exP := by decide
  have h5 : tileStart exP.row.tileSizes exP.nt = 5 := by decide
  obtain ⟨st, hst⟩ := exSt .Lower
  obtain ⟨n, f, a1, ⟨a', X, a2, -, a3, a4, -⟩, a5⟩ := C60_distributed_gen_to_std_lower (lapack_spec posQ) (by norm_num) hP true (a := exM exA) (b := exM exB)
    (fun _ _ _ _ => ⟨rfl, rfl⟩) (fun _ _ _ _ => ⟨rfl, rfl⟩) (A := exA) (B := exB) (fun _ _ _ _ _ _ _ _ _ => rfl) (fun _ _ _ _ _ _ _ _ _ => rfl) (by rw [h5]; exact exN)
    (fun _ _ => rfl) (ma := exL exA) (mb := exL exB)
    (fun r hr => HoldsTiles.ofMatrix hP.row hP.col (exM exA) hr _ _) (fun r hr => HoldsTiles.ofMatrix hP.row hP.col (exM exB) hr _ _) hst
  rw [h5] at a4
  exact ⟨_, n, f, a1, ⟨a', X, a2, a3, a4⟩, a5⟩

example : ∃ (st : Coord2 → DSt ℚ),
    AlwaysEnds (Conf.init (fun r => if r ∈ exP.ranks then distGenToStd (lapackOf posQ) .Upper true (exP.on r) else []) st)
      fun fin => ∃ a' X, (∀ r ∈ exP.ranks, HoldsTiles exP 3 3 r a' ((fin r).mat 0) ∧ HoldsTiles exP 3 3 r (exM exB) ((fin r).mat 1)) ∧
        HoldsOn a' exP.row.tileSizes exP.row.tileSizes 3 3 X (fun _ _ => True) ∧
        ∀ x < 5, ∀ y < 5, hermE .Upper exA x y = ∑ p ∈ Finset.range 5, ∑ q ∈ Finset.range 5,
            star (triE .Upper .NonUnit exB p x) * hermE .Upper X p q * triE .Upper .NonUnit exB q y := by
  have hP : SquareDist exP := by decide
  have h5 : tileStart exP.row.tileSizes exP.nt = 5 := by decide
  obtain ⟨st, hst⟩ := exSt .Upper
  obtain ⟨n, f, a1, ⟨a', X, a2, -, a3, a4, -⟩, a5⟩ := C60_distributed_gen_to_std_upper (lapack_spec posQ) positiveQ (by norm_num) hP true (a := exM exA) (b := exM exB)
    (fun _ _ _ _ => ⟨rfl, rfl⟩) (fun _ _ _ _ => ⟨rfl, rfl⟩) (A := exA) (B := exB) (fun _ _ _ _ _ _ _ _ _ => rfl) (fun _ _ _ _ _ _ _ _ _ => rfl) (by rw [h5]; exact exN)
    (fun _ _ => rfl) (ma := exL exA) (mb := exL exB)
    (fun r hr => HoldsTiles.ofMatrix hP.row hP.col (exM exA) hr _ _) (fun r hr => HoldsTiles.ofMatrix hP.row hP.col (exM exB) hr _ _) hst
  rw [h5] at a4
  exact ⟨_, n, f, a1, ⟨a', X, a2, a3, a4⟩, a5⟩
end example_

end DLAF
