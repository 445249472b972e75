import Verif.Lemmas.DistSolverStep
import Mathlib.Algebra.BigOperators.Group.Finset.Basic
import Mathlib.Tactic.LinearCombination
/- The distributed triangular solver with a transposed `op`: all iterations, and the equations that the tiles satisfy. -/
namespace DLAF
variable {K : Type*} [Field K]

/-- A tile seen by lines. -/
def lineB (axis : Coord) (x : Blk K) : Blk K :=
  match axis with
  | .Col => x
  | .Row => ⟨x.cols, x.rows, fun r c => x.e c r⟩

theorem lineB_congr {axis : Coord} {x y : Blk K} (h : x.rows = y.rows ∧ x.cols = y.cols) :
    (lineB axis x).rows = (lineB axis y).rows ∧ (lineB axis x).cols = (lineB axis y).cols := by
  cases axis
  · exact ⟨h.2, h.1⟩
  · exact h

theorem lineB_sizes {axis : Coord} {x y : Blk K} (h : (lineB axis x).rows = (lineB axis y).rows ∧ (lineB axis x).cols = (lineB axis y).cols) :
    x.rows = y.rows ∧ x.cols = y.cols := by
  cases axis
  · exact ⟨h.2, h.1⟩
  · exact h

theorem lineB_zero (axis : Coord) (ax co : Int) : lineB axis (zeroTile (K := K) (isTall axis.orth) ax co) = ⟨ax.toNat, co.toNat, fun _ _ => 0⟩ := by
  cases axis <;> rfl

theorem lineB_add {axis : Coord} {s : K} {x y : Blk K} (h : y.rows = x.rows ∧ y.cols = x.cols) :
    ∃ w, blkAdd s x y = some w ∧ (w.rows = y.rows ∧ w.cols = y.cols) ∧ ∀ r c, (lineB axis w).e r c = (lineB axis y).e r c + s * (lineB axis x).e r c := by
  unfold blkAdd
  rw [if_pos ⟨h.1.symm, h.2.symm⟩]
  refine ⟨_, rfl, ⟨rfl, rfl⟩, fun r c => ?_⟩
  cases axis <;> rfl

theorem sumBlk_values {axis : Coord} (R C : Nat) : ∀ (xs : List (Blk K)) (x : Blk K), (∀ y ∈ x :: xs, (lineB axis y).rows = R ∧ (lineB axis y).cols = C) →
    ∃ z, sumBlk (x :: xs) = some z ∧ (lineB axis z).rows = R ∧ (lineB axis z).cols = C ∧
      ∀ r c, (lineB axis z).e r c = ((x :: xs).map fun y => (lineB axis y).e r c).sum := by
  intro xs
  induction xs with
  | nil =>
    intro x hx
    obtain ⟨h1, h2⟩ := hx x List.mem_cons_self
    exact ⟨x, rfl, h1, h2, fun r c => by simp⟩
  | cons y ys ih =>
    intro x hx
    have hxx := hx x List.mem_cons_self
    have hyy := hx y (by simp)
    obtain ⟨w, e1, e2, e3⟩ := lineB_add (axis := axis) (s := (1 : K)) (x := y) (y := x)
      (lineB_sizes (axis := axis) ⟨hxx.1.trans hyy.1.symm, hxx.2.trans hyy.2.symm⟩)
    have hw := lineB_congr (axis := axis) e2
    obtain ⟨z, z1, z2, z3, z4⟩ := ih w (by
      intro v hv
      rcases List.mem_cons.1 hv with rfl | hv
      · exact ⟨hw.1.trans hxx.1, hw.2.trans hxx.2⟩
      · exact hx v (by simp [hv]))
    refine ⟨z, ?_, z2, z3, fun r c => ?_⟩
    · show (y :: ys).foldlM (fun a b => blkAdd 1 b a) x = some z
      rw [List.foldlM_cons, e1]
      exact z1
    · rw [z4]
      simp only [List.map_cons, List.sum_cons, e3]
      ring

namespace TriAlg
variable {t : TriAlg K} {PA PB : Params2}

/-- The iterations lead from `b` to `b'`. -/
def ChainT (t : TriAlg K) (PA PB : Params2) (sigma : K) (a : Tiles K) : List Nat → Tiles K → Tiles K → Prop
  | [], b, b' => b' = b
  | k :: ks, b, b' => ∃ b1 V Z, t.TileStepT PA PB sigma a b b1 k V Z ∧ ChainT t PA PB sigma a ks b1 b'

theorem chainT_runs (h : TriDist t.axis.orth PA PB) (dbg : Bool) (junk : Coord2 → Int → Nat → Nat → Nat → K) {sigma : K} {a : Tiles K} :
    ∀ (ks : List Nat) (b b' : Tiles K), t.ChainT PA PB sigma a ks b b' →
      ∀ (M : Coord2 → Nat → Coord2 → Blk K) (_ : ∀ r ∈ PB.ranks, LView PA t.axis r a (M r 0) ∧ LView PB t.axis r b (M r 1))
        (g : Glob (DSt K) (Blk K)) (_ : GIdle (t.env PA PB) M g),
      ∃ g' M', Runs (fun r => if r ∈ PB.ranks then (ks.map fun k : Nat => (k : Int)).flatMap fun k => t.stepT dbg (junk r) (PA.on r) (PB.on r) k sigma else []) g g' ∧
        GEnd (t.env PA PB) M' g' ∧ ∀ r ∈ PB.ranks, M' r 0 = M r 0 ∧ LView PB t.axis r b' (M' r 1)
  | [], b, b', hc, M, hM, g, hg => by
    cases hc
    refine ⟨g, M, Runs.nil (fun r => ?_) _, hg.toEnd, fun r hr => ⟨rfl, (hM r hr).2⟩⟩
    simp
  | k :: ks, b, b', hc, M, hM, g, hg => by
    obtain ⟨b1, V, Z, hT, hc⟩ := hc
    obtain ⟨g1, M1, h1, h2, h3⟩ := stepT_step h (dbg := dbg) (junk := junk) hT hM hg
    obtain ⟨g2, M2, e1, e2, e3⟩ := chainT_runs h dbg junk ks b1 b' hc M1 (fun r hr => (h3 r hr).2) g1 h2
    refine ⟨g2, M2, (h1.append e1).congr fun r => ?_, e2, fun r hr => ⟨(e3 r hr).1.trans (h3 r hr).1, (e3 r hr).2⟩⟩
    split
    · simp only [List.map_cons, List.flatMap_cons]
    · rfl

/-- The distributed function computes the tiles at the end of the chain. -/
theorem progT_ends (h : TriDist t.axis.orth PA PB) (dbg : Bool) (junk : Coord2 → Int → Nat → Nat → Nat → K) {sigma : K} {a b : Tiles K}
    {b' : Tiles K} (hc : t.ChainT PA PB sigma (lineT t.axis a) (if t.up then upto 0 (PA.get t.axis).ntn else downto (PA.get t.axis).ntn 0)
      (lineT t.axis b) (lineT t.axis b'))
    {ma mb : Coord2 → Coord2 → Blk K} (hma : ∀ r ∈ PB.ranks, HoldsTiles PA PA.row.ntn PA.col.ntn r a (ma r))
    (hmb : ∀ r ∈ PB.ranks, HoldsTiles PB PB.row.ntn PB.col.ntn r b (mb r))
    {st : Coord2 → DSt K} (hst : ∀ r ∈ PB.ranks, t.init (PA.on r) (PB.on r) (ma r) (mb r) = some (st r)) :
    AlwaysEnds (Conf.init (fun r => if r ∈ PB.ranks then t.progT dbg (junk r) (PA.on r) (PB.on r) sigma else []) st) fun fin =>
      ∀ r ∈ PB.ranks, HoldsTiles PB PB.row.ntn PB.col.ntn r b' ((fin r).mat 1) ∧ (fin r).mat 0 = ma r := by
  have hE := env_ok h
  let g0 : Glob (DSt K) (Blk K) := ⟨st, fun _ _ => 0, fun _ _ _ => none⟩
  let M0 : Coord2 → Nat → Coord2 → Blk K := fun r n => if n = 0 then ma r else mb r
  have hI0 : GIdle (t.env PA PB) M0 g0 := ⟨Clean.init _ _, fun r hr => by
    obtain ⟨x, h1, h2⟩ := init_idle h hr (ma r) (mb r)
    have := hst r hr
    rw [h1, Option.some.injEq] at this
    subst this
    exact h2⟩
  have hV0 : ∀ r ∈ PB.ranks, LView PA t.axis r (lineT t.axis a) (M0 r 0) ∧ LView PB t.axis r (lineT t.axis b) (M0 r 1) := fun r hr =>
    ⟨.lines h.a.row h.a.col (h.ranksA ▸ hr) (hma r hr) _, .lines h.bRow h.bCol hr (hmb r hr) _⟩
  by_cases hz : PB.row.size = 0 ∨ PB.col.size = 0
  · have hruns : Runs (fun r => if r ∈ PB.ranks then t.progT dbg (junk r) (PA.on r) (PB.on r) sigma else []) g0 g0 := by
      refine Runs.nil (fun r => ?_) _
      unfold progT
      rw [if_pos (show (PB.on r).row.size = 0 ∨ (PB.on r).col.size = 0 from hz), ite_self]
    refine hruns.alwaysEnds fun r hr => ?_
    have hm := (hI0.all r hr).mat
    rw [show (g0.st r).mat = _ from hm]
    refine ⟨?_, rfl⟩
    intro i hi j hj
    rcases hz with hz | hz
    · have := (ntn_zero h.bRow).1 hz; omega
    · have := (ntn_zero h.bCol).1 hz; omega
  · obtain ⟨g', M', h1, h2, h3⟩ := chainT_runs h dbg junk _ _ _ hc M0 hV0 g0 hI0
    have hruns : Runs (fun r => if r ∈ PB.ranks then t.progT dbg (junk r) (PA.on r) (PB.on r) sigma else []) g0 g' := by
      refine h1.congr fun r => ?_
      split
      · unfold progT
        rw [if_neg (show ¬ ((PB.on r).row.size = 0 ∨ (PB.on r).col.size = 0) from hz), Params2.on_get]
        show List.flatMap _ (dirRange t.up 0 (PA.get t.axis).dist.nrTiles) = _
        rw [dirRange_nat t.up (h.plainA t.axis).nrTiles_nonneg]
      · rfl
    refine hruns.alwaysEnds fun r hr => ?_
    obtain ⟨v1, v2⟩ := h3 r hr
    rw [h2.mat r hr]
    exact ⟨LView.unlines h.bRow h.bCol hr v2, v1⟩

/-- Line `i` is solved before line `k`. -/
def before (t : TriAlg K) (i k : Nat) : Prop := if t.lower then k < i else i < k

instance (t : TriAlg K) (i k : Nat) : Decidable (t.before i k) := by unfold before; infer_instance

theorem mem_doneOf (h : TriDist t.axis.orth PA PB) {q : Int} (h0 : 0 ≤ q) (h1 : q < (PB.get t.axis.orth).grid) {k : Nat} (hk : k < (PA.get t.axis).ntn)
    {i : Nat} : i ∈ t.doneOf PB q k ↔ i < (PA.get t.axis).ntn ∧ t.before i k ∧ (PB.get t.axis.orth).dist.rank_global_tile i = q := by
  obtain ⟨r, hr, rfl⟩ : ∃ r ∈ PB.ranks, r.get t.axis.orth = q := by
    have hg : 0 < (PB.get t.axis).grid := (h.plainB t.axis).valid.wf.grid_pos
    rcases ha : t.axis with _ | _
    · rw [ha] at h1 hg
      refine ⟨⟨0, q⟩, Params2.mem_ranks.2 fun c => ?_, rfl⟩
      cases c
      · exact ⟨le_refl _, hg⟩
      · exact ⟨h0, h1⟩
    · rw [ha] at h1 hg
      refine ⟨⟨q, 0⟩, Params2.mem_ranks.2 fun c => ?_, rfl⟩
      cases c
      · exact ⟨h0, h1⟩
      · exact ⟨le_refl _, hg⟩
  have hpo : Plain (PB.at' t.axis.orth r) := Params2.plain (h.plainB _) hr
  have hnl : (PB.get t.axis.orth).dist.nrTiles = (PA.get t.axis).dist.nrTiles := by rw [h.lines]; exact h.nr_eq t.axis.orth t.axis
  rw [doneOf_eq, List.mem_map]
  constructor
  · rintro ⟨x, hx, rfl⟩
    rw [mem_doneLines h hr hk] at hx
    have g0 := hpo.gl_nonneg hx.1
    have g1 : (PB.at' t.axis.orth r).gl x < (PB.get t.axis.orth).dist.nrTiles := hpo.gl_lt hx.1 hx.2.1
    have g2 := hpo.gl_own hx.1
    refine ⟨by unfold Params.ntn; omega, ?_, ?_⟩
    · unfold before
      have := hx.2.2
      split <;> rename_i hl
      · rw [if_pos hl] at this; omega
      · rw [if_neg hl] at this; omega
    · rw [show ((((PB.at' t.axis.orth r).gl x).toNat : Nat) : Int) = (PB.at' t.axis.orth r).gl x by omega]
      exact g2
  · rintro ⟨i1, i2, i3⟩
    have hi : (i : Int) < (PB.at' t.axis.orth r).dist.nrTiles := by
      show (i : Int) < (PB.get t.axis.orth).dist.nrTiles
      unfold Params.ntn at i1
      omega
    obtain ⟨b0, b1⟩ := hpo.lc_bounds (t := (i : Int)) (by omega) hi i3
    have hgl : (PB.at' t.axis.orth r).gl ((PB.at' t.axis.orth r).lc i) = i := hpo.gl_lc (by omega) i3
    refine ⟨(PB.at' t.axis.orth r).lc i, ?_, ?_⟩
    · rw [mem_doneLines h hr hk, hgl]
      refine ⟨b0, b1, ?_⟩
      unfold before at i2
      split <;> rename_i hl
      · rw [if_pos hl] at i2; omega
      · rw [if_neg hl] at i2; omega
    · rw [hgl]; omega

theorem doneOf_nodup (h : TriDist t.axis.orth PA PB) {q : Int} (h0 : 0 ≤ q) (h1 : q < (PB.get t.axis.orth).grid) {k : Nat} :
    (t.doneOf PB q k).Nodup := by
  have hp : Plain ((PB.get t.axis.orth).onRank q) := (h.plainB _).onRank h0 h1
  have hnn : ∀ i, i ∈ (if t.lower then irange (((PB.get t.axis.orth).onRank q).nx ((k : Int) + 1)) ((PB.get t.axis.orth).onRank q).dist.localNrTiles
    else irange 0 (((PB.get t.axis.orth).onRank q).nx k)) → 0 ≤ i := by
    intro i hi
    split at hi <;> rw [mem_irange] at hi
    · have := hp.nx_nonneg (s := (k : Int) + 1) (by omega); omega
    · exact hi.1
  unfold doneOf
  refine List.Nodup.map_on ?_ (by split <;> exact irange_nodup _ _)
  intro x hx y hy hxy
  have x0 := hnn x hx
  have y0 := hnn y hy
  have g1 := hp.gl_nonneg x0
  have g2 := hp.gl_nonneg y0
  exact hp.gl_inj x0 y0 (by omega)

/-- The sum over the processes of the sums over their lines is the sum over all lines. -/
theorem sum_doneOf (h : TriDist t.axis.orth PA PB) {k : Nat} (hk : k < (PA.get t.axis).ntn) (S : Nat → K) :
    ((irange 0 (PB.get t.axis.orth).grid).map fun q => ((t.doneOf PB q k).map S).sum).sum =
      ∑ i ∈ (Finset.range (PA.get t.axis).ntn).filter (fun i => t.before i k), S i := by
  have e1 : ((irange 0 (PB.get t.axis.orth).grid).map fun q => ((t.doneOf PB q k).map S).sum).sum =
      (((irange 0 (PB.get t.axis.orth).grid).flatMap fun q => t.doneOf PB q k).map S).sum := by
    generalize irange 0 (PB.get t.axis.orth).grid = qs
    induction qs with
    | nil => rfl
    | cons q qs ih => rw [List.map_cons, List.sum_cons, ih, List.flatMap_cons, List.map_append, List.sum_append]
  have hnd : ((irange 0 (PB.get t.axis.orth).grid).flatMap fun q => t.doneOf PB q k).Nodup := by
    rw [List.nodup_flatMap]
    refine ⟨fun q hq => doneOf_nodup h (mem_irange.1 hq).1 (mem_irange.1 hq).2, ?_⟩
    refine List.Pairwise.imp_of_mem ?_ (irange_nodup 0 (PB.get t.axis.orth).grid)
    intro p q hp hq hne
    rw [mem_irange] at hp hq
    intro i hi hi'
    rw [mem_doneOf h hp.1 hp.2 hk] at hi
    rw [mem_doneOf h hq.1 hq.2 hk] at hi'
    exact hne (hi.2.2.symm.trans hi'.2.2)
  rw [e1, ← List.sum_toFinset S hnd]
  refine Finset.sum_congr ?_ fun _ _ => rfl
  ext i
  rw [List.mem_toFinset, List.mem_flatMap, Finset.mem_filter, Finset.mem_range]
  constructor
  · rintro ⟨q, hq, hi⟩
    rw [mem_irange] at hq
    rw [mem_doneOf h hq.1 hq.2 hk] at hi
    exact ⟨hi.1, hi.2.1⟩
  · rintro ⟨h1, h2⟩
    have := (h.plainB t.axis.orth).valid.wf.cyc.rank_range (t := (i : Int)) (by omega)
    exact ⟨_, mem_irange.2 this, (mem_doneOf h this.1 this.2 hk).2 ⟨h1, h2, rfl⟩⟩

/-- What the kernels of the solver compute, on the tiles of A: `N k i` is the block of `op(A)` (or its transpose) that couples the lines `k` and `i`,
the lines have the sizes `rs`. -/
structure KernelsT (t : TriAlg K) (nt : Nat) (rs : Nat → Nat) (a : Tiles K) (alpha gamma : K) (N : Nat → Nat → Nat → Nat → K) : Prop where
  upd : ∀ k < nt, ∀ i < nt, t.before i k → ∀ y z, (lineB t.axis y).rows = rs i → (lineB t.axis z).rows = rs k →
    (lineB t.axis y).cols = (lineB t.axis z).cols → ∃ w, t.upd (a (i, k)) y z = some w ∧ (w.rows = z.rows ∧ w.cols = z.cols) ∧
      ∀ r < rs k, ∀ c < (lineB t.axis z).cols, (lineB t.axis w).e r c =
        gamma * ∑ e ∈ Finset.range (rs i), N k i r e * (lineB t.axis y).e e c + (lineB t.axis z).e r c
  diag : ∀ k < nt, ∀ x, (lineB t.axis x).rows = rs k → ∃ w, t.diag (a (k, k)) x = some w ∧ (w.rows = x.rows ∧ w.cols = x.cols) ∧
    (∀ r < rs k, ∀ c < (lineB t.axis x).cols, ∑ e ∈ Finset.range (rs k), N k k r e * (lineB t.axis w).e e c = alpha * (lineB t.axis x).e r c) ∧
    (alpha = 0 → ∀ r < rs k, ∀ c < (lineB t.axis x).cols, (lineB t.axis w).e r c = 0)

/-- The contributions of some lines. -/
theorem fold_values {nt : Nat} {rs : Nat → Nat} {a : Tiles K} {alpha gamma : K} {N : Nat → Nat → Nat → Nat → K} (hK : t.KernelsT nt rs a alpha gamma N)
    {k : Nat} (hk : k < nt) {C : Nat} {y : Nat → Blk K} (hy : ∀ i < nt, (lineB t.axis (y i)).rows = rs i ∧ (lineB t.axis (y i)).cols = C) :
    ∀ (is : List Nat), (∀ i ∈ is, i < nt ∧ t.before i k) → ∀ z, (lineB t.axis z).rows = rs k → (lineB t.axis z).cols = C →
      ∃ w, is.foldlM (fun v i => t.upd (a (i, k)) (y i) v) z = some w ∧ (w.rows = z.rows ∧ w.cols = z.cols) ∧
        ∀ r < rs k, ∀ c < C, (lineB t.axis w).e r c =
          (is.map fun i => gamma * ∑ e ∈ Finset.range (rs i), N k i r e * (lineB t.axis (y i)).e e c).sum + (lineB t.axis z).e r c
  | [], _, z, _, _ => ⟨z, rfl, ⟨rfl, rfl⟩, fun r _ c _ => by simp⟩
  | i :: is, hi, z, h1, h2 => by
    obtain ⟨i1, i2⟩ := hi i List.mem_cons_self
    obtain ⟨w, e1, e2, e3⟩ := hK.upd k hk i i1 i2 (y i) z (hy i i1).1 h1 ((hy i i1).2.trans h2.symm)
    have hw := lineB_congr (axis := t.axis) e2
    obtain ⟨v, f1, f2, f3⟩ := fold_values hK hk hy is (fun i hi' => hi i (List.mem_cons_of_mem _ hi')) w (hw.1.trans h1) (hw.2.trans h2)
    refine ⟨v, ?_, ⟨f2.1.trans e2.1, f2.2.trans e2.2⟩, fun r hr c hc => ?_⟩
    · rw [List.foldlM_cons, e1]
      exact f1
    · rw [f3 r hr c hc, e3 r hr c (by rw [h2]; exact hc), List.map_cons, List.sum_cons]
      ring

/-- The lines in `done` satisfy their equations. -/
structure SolvedT (t : TriAlg K) (nt n : Nat) (rs cs : Nat → Nat) (alpha : K) (N : Nat → Nat → Nat → Nat → K) (b0 : Tiles K) (done : List Nat) (b : Tiles K) : Prop where
  shape : ∀ i < nt, ∀ j < n, (lineB t.axis (b (i, j))).rows = rs i ∧ (lineB t.axis (b (i, j))).cols = cs j
  eqn : ∀ k ∈ done, ∀ j < n, ∀ r < rs k, ∀ c < cs j, ∑ e ∈ Finset.range (rs k), N k k r e * (lineB t.axis (b (k, j))).e e c +
    ∑ i ∈ (Finset.range nt).filter (fun i => t.before i k), ∑ e ∈ Finset.range (rs i), N k i r e * (lineB t.axis (b (i, j))).e e c =
      alpha * (lineB t.axis (b0 (k, j))).e r c
  zero : alpha = 0 → ∀ k ∈ done, ∀ j < n, ∀ r < rs k, ∀ c < cs j, (lineB t.axis (b (k, j))).e r c = 0
  same : ∀ k < nt, k ∉ done → ∀ j < n, b (k, j) = b0 (k, j)

theorem chainT_values (h : TriDist t.axis.orth PA PB) (hacc : t.accum = true) (hkeep : ∀ x w y z, t.upd x w y = some z → z.rows = y.rows ∧ z.cols = y.cols)
    {a b0 : Tiles K} (hA : t.FitA PA a) {alpha beta gamma sigma : K} {N : Nat → Nat → Nat → Nat → K}
    (hK : t.KernelsT (PA.get t.axis).ntn (PA.get t.axis).tileSizes a alpha gamma N) (hgs : sigma * gamma = beta) (hbeta : alpha ≠ 0 → beta = -1 / alpha) :
    ∀ (post pre : List Nat), (∀ k ∈ post, k < (PA.get t.axis).ntn) → (∀ k ∈ pre, k < (PA.get t.axis).ntn) → post.Nodup → (∀ k ∈ post, k ∉ pre) →
      (∀ (p1 : List Nat) (k : Nat) (p2 : List Nat), post = p1 ++ k :: p2 → ∀ i < (PA.get t.axis).ntn, t.before i k ↔ i ∈ pre ++ p1) →
      (∀ k ∈ pre, ∀ i < (PA.get t.axis).ntn, t.before i k → i ∈ pre) →
      ∀ b, t.SolvedT (PA.get t.axis).ntn (PB.get t.axis).ntn (PA.get t.axis).tileSizes (PB.get t.axis).tileSizes alpha N b0 pre b →
      ∃ b', t.ChainT PA PB sigma a post b b' ∧
        t.SolvedT (PA.get t.axis).ntn (PB.get t.axis).ntn (PA.get t.axis).tileSizes (PB.get t.axis).tileSizes alpha N b0 (pre ++ post) b'
  | [], pre, _, _, _, _, _, _, b, hS => ⟨b, rfl, by rw [List.append_nil]; exact hS⟩
  | k :: post, pre, hp, hpre, hnd, hdis, hord, hcl, b, hS => by
    classical
    have hk := hp k List.mem_cons_self
    have hkpre := hdis k List.mem_cons_self
    let nt := (PA.get t.axis).ntn
    let n := (PB.get t.axis).ntn
    let rs := (PA.get t.axis).tileSizes
    let cs := (PB.get t.axis).tileSizes
    let G := (PB.get t.axis.orth).grid
    let zero : Nat → Blk K := fun j => zeroTile (isTall t.axis.orth) ((PA.get t.axis).dist.global_tile_size_of k) ((PB.get t.axis).dist.global_tile_size_of j)
    have hz : ∀ j, lineB t.axis (zero j) = ⟨rs k, cs j, fun _ _ => 0⟩ := fun j => lineB_zero _ _ _
    have hG : 0 < G := (h.plainB t.axis.orth).valid.wf.grid_pos
    have hb4 : ∀ i < nt, t.before i k ↔ i ∈ pre := by
      intro i hi
      have := hord [] k post rfl i hi
      rwa [List.append_nil] at this
    -- the contributions of the processes
    have hV : ∀ q j, ∃ v : Blk K, 0 ≤ q → q < G → j < n → (t.doneOf PB q k).foldlM (fun v i => t.upd (a (i, k)) (b (i, j)) v) (zero j) = some v ∧
        (lineB t.axis v).rows = rs k ∧ (lineB t.axis v).cols = cs j ∧ ∀ r < rs k, ∀ c < cs j, (lineB t.axis v).e r c =
          ((t.doneOf PB q k).map fun i => gamma * ∑ e ∈ Finset.range (rs i), N k i r e * (lineB t.axis (b (i, j))).e e c).sum := by
      intro q j
      by_cases hc : 0 ≤ q ∧ q < G ∧ j < n
      · obtain ⟨c1, c2, c3⟩ := hc
        obtain ⟨w, e1, e2, e3⟩ := fold_values hK hk (C := cs j) (y := fun i => b (i, j)) (fun i hi => hS.shape i hi j c3) (t.doneOf PB q k) (fun i hi => by
          rw [mem_doneOf h c1 c2 hk] at hi
          exact ⟨hi.1, hi.2.1⟩) (zero j) (by rw [hz]) (by rw [hz])
        have hw := lineB_congr (axis := t.axis) e2
        refine ⟨w, fun _ _ _ => ⟨e1, by rw [hw.1, hz], by rw [hw.2, hz], fun r hr c hc => ?_⟩⟩
        rw [e3 r hr c hc, hz, add_zero]
      · exact ⟨zero j, fun c1 c2 c3 => absurd ⟨c1, c2, c3⟩ hc⟩
    choose V hV using hV
    -- their sum
    have hcons : irange 0 G = 0 :: irange 1 G := irange_cons hG
    have hZ : ∀ j, ∃ z : Blk K, j < n → sumBlk ((irange 0 G).map fun q => V q j) = some z ∧
        (lineB t.axis z).rows = rs k ∧ (lineB t.axis z).cols = cs j ∧ ∀ r < rs k, ∀ c < cs j, (lineB t.axis z).e r c =
          gamma * ∑ i ∈ (Finset.range nt).filter (fun i => t.before i k), ∑ e ∈ Finset.range (rs i), N k i r e * (lineB t.axis (b (i, j))).e e c := by
      intro j
      by_cases hj : j < n
      · obtain ⟨z, z1, z2, z3, z4⟩ := sumBlk_values (axis := t.axis) (rs k) (cs j) ((irange 1 G).map fun q => V q j) (V 0 j) (by
          intro y hy
          have hy' : y ∈ (irange 0 G).map fun q => V q j := by rw [hcons, List.map_cons]; exact hy
          rw [List.mem_map] at hy'
          obtain ⟨q, hq, rfl⟩ := hy'
          rw [mem_irange] at hq
          exact ⟨(hV q j hq.1 hq.2 hj).2.1, (hV q j hq.1 hq.2 hj).2.2.1⟩)
        refine ⟨z, fun _ => ⟨by rw [hcons, List.map_cons]; exact z1, z2, z3, fun r hr c hc => ?_⟩⟩
        rw [z4, show (V 0 j :: (irange 1 G).map fun q => V q j) = (irange 0 G).map fun q => V q j by rw [hcons, List.map_cons], List.map_map,
          List.map_congr_left (f := (fun y => (lineB t.axis y).e r c) ∘ fun q => V q j) (g := fun q => ((t.doneOf PB q k).map fun i => gamma * ∑ e ∈ Finset.range (rs i), N k i r e * (lineB t.axis (b (i, j))).e e c).sum)
            (fun q hq => (hV q j (mem_irange.1 hq).1 (mem_irange.1 hq).2 hj).2.2.2 r hr c hc), sum_doneOf h hk, Finset.mul_sum]
      · exact ⟨zero j, fun c => absurd c hj⟩
    choose Z hZ using hZ
    -- the tiles of the line
    have hD : ∀ j, ∃ w : Blk K, j < n → (blkAdd sigma (Z j) (b (k, j))).bind (t.diag (a (k, k))) = some w ∧
        (lineB t.axis w).rows = rs k ∧ (lineB t.axis w).cols = cs j ∧ (∀ r < rs k, ∀ c < cs j, ∑ e ∈ Finset.range (rs k), N k k r e * (lineB t.axis w).e e c =
          alpha * ((lineB t.axis (b (k, j))).e r c + sigma * (lineB t.axis (Z j)).e r c)) ∧
        (alpha = 0 → ∀ r < rs k, ∀ c < cs j, (lineB t.axis w).e r c = 0) := by
      intro j
      by_cases hj : j < n
      · obtain ⟨s1, s2⟩ := hS.shape k hk j hj
        obtain ⟨_, z1, z2, _⟩ := hZ j hj
        obtain ⟨x, x1, x2, x3⟩ := lineB_add (axis := t.axis) (s := sigma) (x := Z j) (y := b (k, j))
          (lineB_sizes (axis := t.axis) ⟨s1.trans z1.symm, s2.trans z2.symm⟩)
        have hx := lineB_congr (axis := t.axis) x2
        obtain ⟨w, w1, w2, w3, w4⟩ := hK.diag k hk x (hx.1.trans s1)
        have hw := lineB_congr (axis := t.axis) w2
        refine ⟨w, fun _ => ⟨by rw [x1, Option.bind_some]; exact w1, hw.1.trans (hx.1.trans s1), hw.2.trans (hx.2.trans s2), fun r hr c hc => ?_, fun ha r hr c hc => ?_⟩⟩
        · rw [w3 r hr c (by rw [hx.2, s2]; exact hc), x3]
        · exact w4 ha r hr c (by rw [hx.2, s2]; exact hc)
      · exact ⟨zero j, fun c => absurd c hj⟩
    choose D hD using hD
    let b1 : Tiles K := fun z => if z.1 = k then D z.2 else b z
    have hb1 : ∀ i, i ≠ k → ∀ j, b1 (i, j) = b (i, j) := fun i hi j => if_neg hi
    have hb1k : ∀ j, b1 (k, j) = D j := fun j => if_pos rfl
    have hT : t.TileStepT PA PB sigma a b b1 k V Z := ⟨hacc, hkeep, hk, fun i hi _ => hA i hi k hk,
      fun q q0 q1 j hj => (hV q j q0 q1 hj).1, fun j hj => (hZ j hj).1, fun j hj => by rw [hb1k]; exact (hD j hj).1, fun i _ hik j _ => hb1 i hik j⟩
    have hS1 : t.SolvedT nt n rs cs alpha N b0 (pre ++ [k]) b1 := by
      refine ⟨fun i hi j hj => ?_, ?_, ?_, ?_⟩
      · by_cases hik : i = k
        · subst hik
          rw [hb1k]
          exact ⟨(hD j hj).2.1, (hD j hj).2.2.1⟩
        · rw [hb1 i hik]
          exact hS.shape i hi j hj
      · intro q hq j hj r hr c hc
        have hoff : ∀ i ∈ (Finset.range nt).filter (fun i => t.before i q), i ≠ k := by
          rintro i hi rfl
          rw [Finset.mem_filter, Finset.mem_range] at hi
          rcases List.mem_append.1 hq with hq | hq
          · exact hkpre (hcl q hq i hi.1 hi.2)
          · rw [List.mem_singleton] at hq
            rw [hq] at hi
            exact hkpre ((hb4 _ hi.1).1 hi.2)
        rw [Finset.sum_congr rfl (fun i hi => Finset.sum_congr rfl fun e _ => by rw [hb1 i (hoff i hi)])]
        rcases List.mem_append.1 hq with hq | hq
        · have hqk : q ≠ k := fun e => hkpre (e ▸ hq)
          rw [hb1 q hqk]
          exact hS.eqn q hq j hj r hr c hc
        · rw [List.mem_singleton] at hq
          subst hq
          rw [hb1k, (hD j hj).2.2.2.1 r hr c hc, (hZ j hj).2.2.2 r hr c hc, hS.same q hk hkpre j hj]
          by_cases ha : alpha = 0
          · have h0 : ∑ i ∈ (Finset.range nt).filter (fun i => t.before i q), ∑ e ∈ Finset.range (rs i), N q i r e * (lineB t.axis (b (i, j))).e e c = 0 := by
              refine Finset.sum_eq_zero fun i hi => Finset.sum_eq_zero fun e he => ?_
              rw [Finset.mem_filter, Finset.mem_range] at hi
              rw [hS.zero ha i ((hb4 i hi.1).1 hi.2) j hj e (Finset.mem_range.1 he) c hc, mul_zero]
            rw [h0, ha]
            ring
          · have := hbeta ha
            rw [← hgs] at this
            have h2 : alpha * (sigma * gamma) = -1 := by rw [this]; field_simp
            linear_combination (∑ i ∈ (Finset.range nt).filter (fun i => t.before i q), ∑ e ∈ Finset.range (rs i), N q i r e * (lineB t.axis (b (i, j))).e e c) * h2
      · intro ha q hq j hj r hr c hc
        by_cases hqk : q = k
        · subst hqk
          rw [hb1k]
          exact (hD j hj).2.2.2.2 ha r hr c hc
        · rw [hb1 q hqk]
          rcases List.mem_append.1 hq with hq | hq
          · exact hS.zero ha q hq j hj r hr c hc
          · exact absurd (List.mem_singleton.1 hq) hqk
      · intro q hq hq' j hj
        rw [List.mem_append, List.mem_singleton, not_or] at hq'
        rw [hb1 q hq'.2]
        exact hS.same q hq hq'.1 j hj
    rw [List.nodup_cons] at hnd
    obtain ⟨b', c1, c2⟩ := chainT_values h hacc hkeep hA hK hgs hbeta post (pre ++ [k]) (fun q hq => hp q (List.mem_cons_of_mem _ hq))
      (by
        intro q hq
        rcases List.mem_append.1 hq with hq | hq
        · exact hpre q hq
        · rw [List.mem_singleton] at hq; rw [hq]; exact hk) hnd.2
      (by
        intro q hq hc
        rcases List.mem_append.1 hc with hc | hc
        · exact hdis q (List.mem_cons_of_mem _ hq) hc
        · rw [List.mem_singleton] at hc
          exact hnd.1 (hc ▸ hq))
      (by
        intro p1 q p2 e i hi
        rw [hord (k :: p1) q p2 (by rw [e]; rfl) i hi, List.append_assoc]
        rfl)
      (by
        intro q hq i hi hb
        rcases List.mem_append.1 hq with hq | hq
        · exact List.mem_append_left _ (hcl q hq i hi hb)
        · rw [List.mem_singleton] at hq
          subst hq
          exact List.mem_append_left _ ((hb4 i hi).1 hb)) b1 hS1
    refine ⟨b', ⟨b1, V, Z, hT, c1⟩, ?_⟩
    rw [List.append_assoc] at c2
    exact c2

end TriAlg
end DLAF
