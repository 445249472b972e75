import Verif.Lemmas.DistCholesky
import Verif.Spec.DistMatrix
import Verif.Props.Cholesky
/-
C30: the distributed Cholesky factorization.

The distributed program of every process is that of Model/DistCholesky.lean; the machine is that of Model/Spmd.lean.
-/
namespace DLAF
variable {K : Type*} [Field K] [StarRing K]

theorem tasksL_keeps (lp : Lapack K) : (tasksL lp).Keeps := by
  refine ⟨?_, ?_, ?_, ?_⟩
  · intro a b h
    simp only [tasksL, potrfL, Lapack.tilePotrf] at h
    split at h
    · rw [Option.map_eq_some_iff] at h
      obtain ⟨_, _, rfl⟩ := h
      exact ⟨rfl, rfl⟩
    · simp at h
  · intro k a b h
    simp only [tasksL, trsmL, Lapack.tileTrsm] at h
    split at h
    · cases h; exact ⟨rfl, rfl⟩
    · simp at h
  · intro p a b h
    simp only [tasksL, herkL, herk] at h
    split at h
    · cases h; exact ⟨rfl, rfl⟩
    · simp at h
  · intro p q a b h
    simp only [tasksL, gemmL, gemm] at h
    split at h
    · cases h; exact ⟨rfl, rfl⟩
    · simp at h

theorem tasksU_keeps (lp : Lapack K) : (tasksU lp).Keeps := by
  refine ⟨?_, ?_, ?_, ?_⟩
  · intro a b h
    simp only [tasksU, potrfU, Lapack.tilePotrf] at h
    split at h
    · rw [Option.map_eq_some_iff] at h
      obtain ⟨_, _, rfl⟩ := h
      exact ⟨rfl, rfl⟩
    · simp at h
  · intro k a b h
    simp only [tasksU, trsmU, Lapack.tileTrsm] at h
    split at h
    · cases h; exact ⟨rfl, rfl⟩
    · simp at h
  · intro p a b h
    simp only [tasksU, herkU, herk] at h
    split at h
    · cases h; exact ⟨rfl, rfl⟩
    · simp at h
  · intro p q a b h
    simp only [tasksU, gemmU, gemm] at h
    split at h
    · cases h; exact ⟨rfl, rfl⟩
    · simp at h

/-- The matrix with rows and columns of tiles exchanged (the tiles themselves are not transposed). -/
def swapT (m : Tiles K) : Tiles K := fun z => m (z.2, z.1)

theorem swapT_write (m : Tiles K) (i j : Nat) (o : Option (Blk K)) :
    (m.write (i, j) o).map swapT = (swapT m).write (j, i) o := by
  unfold Tiles.write
  cases o with
  | none => rfl
  | some b =>
    simp only [Option.map_some, Option.some.injEq]
    funext z
    simp only [swapT]
    by_cases h : z = (j, i)
    · subst h; simp
    · rw [if_neg h, if_neg]
      intro e
      simp only [Prod.mk.injEq] at e
      exact h (by rw [← e.1, ← e.2])

theorem cholU_swap (lp : Lapack K) (nt : Nat) (m : Tiles K) :
    (cholU lp nt m).map swapT = forM' (upto 0 nt) (swapT m) (seqStep (tasksU lp) nt) := by
  refine forM'_sim swapT _ _ ?_
  intro m k _
  unfold cholStepU seqStep
  refine bind_sim swapT ?_ fun m => ?_
  · rw [swapT_write]; rfl
  · refine bind_sim swapT ?_ fun m => ?_
    · refine forM'_sim swapT _ _ ?_
      intro m j _
      rw [swapT_write]; rfl
    · refine forM'_sim swapT _ _ ?_
      intro m i _
      refine bind_sim swapT ?_ fun m => ?_
      · rw [swapT_write]; rfl
      · refine forM'_sim swapT _ _ ?_
        intro m j _
        rw [swapT_write]; rfl

/-- The state of the processes at the call. -/
theorem init_RB {P : Params2} {axis : Coord} {tall : Bool} {nb : Int} {nt : Nat} (D : DistOK P tall nb nt)
    (ht : tall = tallOf axis) {m : Tiles K} {r : Coord2} (hr : r ∈ P.ranks)
    {mat : Coord2 → Blk K} {x : CholState K} (hx : distCholInit axis (P.on r) mat = some x)
    (hm : MatOn P axis nt r m ⟨mat, x.panels, x.panelsT⟩) : RB P axis tall nb nt r m x := by
  have pC := D.plainAt axis.orth hr
  have pT := D.plainAt axis hr
  have hts : ∀ c, ((P.on r).get c).tileSize = nb := by
    intro c
    rw [D.nbEq]
    cases c
    · rfl
    · exact D.tile.symm
  unfold distCholInit at hx
  simp only [hts] at hx
  simp only [P.on_get] at hx
  rw [← ht] at hx
  obtain ⟨v, c1, c2⟩ := panel_create (K := K) pC tall nb
  obtain ⟨vT, d1, d2⟩ := panel_create (K := K) pT tall nb
  have htr : VPanel.transposeDist ((P.get axis).onRank (r.get axis)).dist = (P.at' axis r).dist := pT.transpose
  rw [htr, d1] at hx
  rw [show VPanel.create tall ((P.get axis.orth).onRank (r.get axis.orth)).dist nb = some v from c1] at hx
  simp only [Option.bind_some, Option.map_some, Option.some.injEq] at hx
  subst hx
  rw [nrTiles_onRank, D.nr] at c2
  rw [nrTiles_onRank, D.nr] at d2
  exact ⟨hm, fun _ => ⟨0, c2⟩, fun _ => ⟨0, _, d2⟩⟩

theorem SquareDist.ok {P : Params2} (h : SquareDist P) (tall : Bool) : DistOK P tall P.row.tile P.nt := by
  refine ⟨h.row, h.col, h.size, h.tile, rfl, ?_⟩
  have := h.row.valid.wf.nrTiles_nonneg
  unfold Params2.nt
  omega

theorem fits_of {tall : Bool} {b : Blk K} {x y : Int} (hx : 0 ≤ x) (hy : 0 ≤ y)
    (h : if tall then b.rows = y.toNat ∧ b.cols = x.toNat else b.rows = x.toNat ∧ b.cols = y.toNat) :
    VPanel.fits tall b x y = true := by
  unfold VPanel.fits
  cases tall
  · simp only [Bool.false_eq_true, if_false] at h ⊢
    simp [h.1, h.2]; omega
  · simp only [if_true] at h ⊢
    simp [h.1, h.2]; omega

theorem tsize_nonneg {P : Params2} (h : SquareDist P) {i : Nat} (hi : i < P.nt) : 0 ≤ P.row.dist.global_tile_size_of i := by
  have hn := (h.ok true).ntEq
  have := h.row.valid.wf.global_tsz_pos (t := i) (by omega) (by omega)
  omega

/-- C30.  For every grid, source ranks and size of the tiles, and every matrix whose local factorization succeeds, with the
result `m1`: under every schedule of the processes the distributed factorization of the same matrix ends without abort or
deadlock, and every process then holds its tiles of `m1`. -/
theorem C30_distributed_cholesky {P : Params2} (hP : SquareDist P) (dbg : Bool) (lp : Lapack K) (u : Uplo) {m m1 : Tiles K}
    (hs : Shaped m P.row.tileSizes P.row.tileSizes P.nt P.nt)
    (hloc : cholesky_factorization lp u P.nt m = some m1)
    {mat : Coord2 → Coord2 → Blk K} (hmat : ∀ r ∈ P.ranks, HoldsTiles P P.nt P.nt r m (mat r))
    {st : Coord2 → CholState K} (hst : ∀ r ∈ P.ranks, distCholeskyInit u (P.on r) (mat r) = some (st r)) :
    AlwaysEnds (Conf.init (fun r => if r ∈ P.ranks then distCholesky dbg lp u (P.on r) else []) st) fun fin =>
      ∀ r ∈ P.ranks, HoldsTiles P P.nt P.nt r m1 (fin r).mat := by
  cases u with
  | Lower =>
    have D := hP.ok true
    have hsh : ShapedG P.row true P.nt m := by
      intro i hi j hj
      exact fits_of (tsize_nonneg hP hj) (tsize_nonneg hP hi) (by rw [if_pos rfl]; exact hs i hi j hj)
    obtain ⟨g', r1, _, _, r2⟩ := distChol_runs (dbg := dbg) (axis := .Col) D (tasksL_keeps lp) (m := m) (m' := m1)
      (g := ⟨st, fun _ _ => 0, fun _ _ _ => none⟩)
      ⟨Clean.init _ _, hsh, fun r hr => init_RB D rfl hr (hst r hr) (fun i hi j hj oi oj => hmat r hr i hi j hj oi oj)⟩ hloc
    exact r1.alwaysEnds (fun r hr i hi j hj oi oj => (r2 r hr).mat i hi j hj oi oj)
  | Upper =>
    have D := hP.ok false
    have hsh : ShapedG P.row false P.nt (swapT m) := by
      intro i hi j hj
      exact fits_of (tsize_nonneg hP hj) (tsize_nonneg hP hi) (by rw [if_neg (by simp)]; exact hs j hj i hi)
    have hsim := cholU_swap lp P.nt m
    rw [show cholU lp P.nt m = some m1 from hloc, Option.map_some] at hsim
    obtain ⟨g', r1, _, _, r2⟩ := distChol_runs (dbg := dbg) (axis := .Row) D (tasksU_keeps lp) (m := swapT m) (m' := swapT m1)
      (g := ⟨st, fun _ _ => 0, fun _ _ _ => none⟩)
      ⟨Clean.init _ _, hsh, fun r hr => init_RB D rfl hr (hst r hr) (fun i hi j hj oi oj => hmat r hr j hj i hi oj oi)⟩ hsim.symm
    exact r1.alwaysEnds (fun r hr i hi j hj oi oj => (r2 r hr).mat j hj i hi oj oi)

/-- The construction of the workspaces never fails. -/
theorem C30_workspaces_created {P : Params2} (hP : SquareDist P) (u : Uplo) {r : Coord2} (hr : r ∈ P.ranks) (mat : Coord2 → Blk K) :
    ∃ x, distCholeskyInit u (P.on r) mat = some x := by
  have D := hP.ok true
  have key : ∀ axis, ∃ x, distCholInit axis (P.on r) mat = some x := by
    intro axis
    have pC := D.plainAt axis.orth hr
    have pT := D.plainAt axis hr
    unfold distCholInit
    simp only [P.on_get]
    obtain ⟨v, c1, c2⟩ := panel_create (K := K) pC (tallOf axis)
      ((P.get axis).onRank (r.get axis)).dist.tileSize
    obtain ⟨vT, d1, d2⟩ := panel_create (K := K) pT (tallOf axis)
      ((P.get axis.orth).onRank (r.get axis.orth)).dist.tileSize
    have htr : VPanel.transposeDist ((P.get axis).onRank (r.get axis)).dist = (P.at' axis r).dist := pT.transpose
    rw [htr, d1]
    rw [show VPanel.create _ ((P.get axis.orth).onRank (r.get axis.orth)).dist _ = some v from c1]
    exact ⟨_, rfl⟩
  cases u
  · exact key .Col
  · exact key .Row

/-- The collectives of one iteration. -/
theorem distChol_sigs {P : Params2} (hP : SquareDist P) (dbg : Bool) (t : CholTasks K) (axis : Coord) {c : Chan}
    {r q : Coord2} (hr : r ∈ P.ranks) (hq : q ∈ P.ranks) (h1 : c.has r = true) (h2 : c.has q = true) :
    sigs c (distChol dbg t axis (P.on r)) = sigs c (distChol dbg t axis (P.on q)) := by
  have D := hP.ok true
  have hn : ∀ r, (P.on r).col.nrTiles = (P.nt : Int) := fun r => D.nr .Col
  unfold distChol
  rw [hn, hn, sigs_flatMap, sigs_flatMap]
  refine List.flatMap_congr fun k hk => ?_
  obtain ⟨k0, k1⟩ := mem_irange.1 hk
  unfold distCholStep
  simp only [sigs_append, sigs_locs, List.nil_append]
  by_cases hl : k + 1 = P.nt
  · simp [hl]
  · simp only [hl, if_false, sigs_append, sigs_locs, List.nil_append, List.append_nil]
    have e2 := bcastPanels_sigs (K := K) (axis := axis) (D.plain _) dbg ((P.get axis).dist.rank_global_tile k) (CholState.panel k)
      (CholState.panelT k) (s := k + 1) (e := P.nt) (sT := k + 1) (eT := P.nt - 1) (by omega) (by omega) hr hq h1 h2
    have e1 : ∀ r ∈ P.ranks, sigs c (if ((P.on r).get axis).rank_global_tile k = ((P.on r).get axis).rank then
        bcastPanel dbg axis.orth (P.on r) (((P.on r).get axis.orth).rank_global_tile k) (CholState.panelT k) k (k + 1) else
        ([] : List (Instr (CholState K) (Blk K)))) =
        if (P.get axis).dist.rank_global_tile k = r.get axis then if (P.get axis.orth).grid ≤ 1 then [] else
          (irange k (k + 1)).flatMap fun t => if (P.get axis).dist.rank_global_tile t = r.get axis then
            if panelChan axis.orth r = c then [.bcast ((P.get axis.orth).dist.rank_global_tile k)] else [] else [] else [] := by
      intro r hr
      have := bcastPanel_sigs (K := K) (P := P) (axis := axis.orth) (by rw [orth_orth]; exact (D.plain _).toTiled) hr dbg
        ((P.get axis.orth).dist.rank_global_tile k) (CholState.panelT k) (s := k) (e := k + 1) k0 (by omega) c
      rw [orth_orth] at this
      simp only [P.on_get]
      by_cases hT : (P.get axis).dist.rank_global_tile k = r.get axis
      · rw [if_pos (show ((P.get axis).onRank (r.get axis)).dist.rank_global_tile k =
          ((P.get axis).onRank (r.get axis)).dist.rank from hT), if_pos hT]
        exact this
      · rw [if_neg (show ¬ ((P.get axis).onRank (r.get axis)).dist.rank_global_tile k =
          ((P.get axis).onRank (r.get axis)).dist.rank from hT), if_neg hT]
        rfl
    have e3 : sigs c (if ((P.on r).get axis).rank_global_tile k = ((P.on r).get axis).rank then
        bcastPanel dbg axis.orth (P.on r) (((P.on r).get axis.orth).rank_global_tile k) (CholState.panelT k) k (k + 1) else
        ([] : List (Instr (CholState K) (Blk K)))) = sigs c (if ((P.on q).get axis).rank_global_tile k = ((P.on q).get axis).rank then
        bcastPanel dbg axis.orth (P.on q) (((P.on q).get axis.orth).rank_global_tile k) (CholState.panelT k) k (k + 1) else
        ([] : List (Instr (CholState K) (Blk K)))) := by
      rw [e1 r hr, e1 q hq]
      rcases chan_mem (axis := axis) h1 with (rfl | rfl) | n1
      · have n1 : ∀ r', ¬ panelChan axis.orth r' = panelChan axis r := fun r' h => chan_ne axis r r' h.symm
        rw [irange_succ (Int.le_refl k), irange_self]
        simp [n1]
      · have hqr := (chan_has axis.orth r q).1 h2
        have e1 : panelChan axis.orth q = panelChan axis.orth r := chan_eq axis.orth hqr
        rw [orth_orth] at hqr
        simp only [e1, hqr]
      · rw [irange_succ (Int.le_refl k), irange_self]
        simp [n1]
    rw [e3]
    congr 1
    simp only [P.on_get]
    exact e2

/-- C30.  All members of each row and column communicator perform the same sequence of collectives. -/
theorem C30_same_collectives {P : Params2} (hP : SquareDist P) (dbg : Bool) (lp : Lapack K) (u : Uplo) :
    SameCollectives P.ranks (fun r => distCholesky dbg lp u (P.on r)) := by
  intro c r hr q hq h1 h2
  cases u
  · exact distChol_sigs hP dbg _ _ hr hq h1 h2
  · exact distChol_sigs hP dbg _ _ hr hq h1 h2

/-- C30 with C29: the distributed factorization of a positive definite matrix always succeeds and the processes hold the
Cholesky factor (lower variant). -/
theorem C30_distributed_factor_lower {lp : Lapack K} {pos : K → Prop} (hl : LapackSpec lp pos) (hp : Positive pos)
    {P : Params2} (hP : SquareDist P) (dbg : Bool) {m : Tiles K}
    (hs : Shaped m P.row.tileSizes P.row.tileSizes P.nt P.nt) {A L : Nat → Nat → K}
    (hA : HoldsOn m P.row.tileSizes P.row.tileSizes P.nt P.nt A fun r c => c ≤ r)
    (hL : IsChol pos .Lower (tileStart P.row.tileSizes P.nt) A L)
    {mat : Coord2 → Coord2 → Blk K} (hmat : ∀ r ∈ P.ranks, HoldsTiles P P.nt P.nt r m (mat r))
    {st : Coord2 → CholState K} (hst : ∀ r ∈ P.ranks, distCholeskyInit .Lower (P.on r) (mat r) = some (st r)) :
    AlwaysEnds (Conf.init (fun r => if r ∈ P.ranks then distCholesky dbg lp .Lower (P.on r) else []) st) fun fin =>
      ∃ m1, (∀ r ∈ P.ranks, HoldsTiles P P.nt P.nt r m1 (fin r).mat) ∧
        HoldsOn m1 P.row.tileSizes P.row.tileSizes P.nt P.nt L (fun r c => c ≤ r) ∧
        ∀ U, HoldsOn m P.row.tileSizes P.row.tileSizes P.nt P.nt U (fun r c => r < c) →
          HoldsOn m1 P.row.tileSizes P.row.tileSizes P.nt P.nt U (fun r c => r < c) := by
  obtain ⟨m1, h1, h2⟩ := C29_cholesky_lower_succeeds hl hp hs hA hL
  obtain ⟨n, f, a1, a2, a3⟩ := C30_distributed_cholesky hP dbg lp .Lower hs h1 hmat hst
  exact ⟨n, f, a1, ⟨m1, a2, h2, (C29_cholesky_lower hl hp hs hA h1).2.2⟩, a3⟩

/-- C30 with C29, upper variant. -/
theorem C30_distributed_factor_upper {lp : Lapack K} {pos : K → Prop} (hl : LapackSpec lp pos) (hp : Positive pos)
    {P : Params2} (hP : SquareDist P) (dbg : Bool) {m : Tiles K}
    (hs : Shaped m P.row.tileSizes P.row.tileSizes P.nt P.nt) {A U : Nat → Nat → K}
    (hA : HoldsOn m P.row.tileSizes P.row.tileSizes P.nt P.nt A fun r c => r ≤ c)
    (hU : IsChol pos .Upper (tileStart P.row.tileSizes P.nt) A U)
    {mat : Coord2 → Coord2 → Blk K} (hmat : ∀ r ∈ P.ranks, HoldsTiles P P.nt P.nt r m (mat r))
    {st : Coord2 → CholState K} (hst : ∀ r ∈ P.ranks, distCholeskyInit .Upper (P.on r) (mat r) = some (st r)) :
    AlwaysEnds (Conf.init (fun r => if r ∈ P.ranks then distCholesky dbg lp .Upper (P.on r) else []) st) fun fin =>
      ∃ m1, (∀ r ∈ P.ranks, HoldsTiles P P.nt P.nt r m1 (fin r).mat) ∧
        HoldsOn m1 P.row.tileSizes P.row.tileSizes P.nt P.nt U (fun r c => r ≤ c) ∧
        ∀ L, HoldsOn m P.row.tileSizes P.row.tileSizes P.nt P.nt L (fun r c => c < r) →
          HoldsOn m1 P.row.tileSizes P.row.tileSizes P.nt P.nt L (fun r c => c < r) := by
  obtain ⟨m1, h1, h2⟩ := C29_cholesky_upper_succeeds hl hp hs hA hU
  obtain ⟨n, f, a1, a2, a3⟩ := C30_distributed_cholesky hP dbg lp .Upper hs h1 hmat hst
  exact ⟨n, f, a1, ⟨m1, a2, h2, (C29_cholesky_upper hl hp hs hA h1).2.2⟩, a3⟩

/-- Every matrix can be distributed. -/
theorem HoldsTiles.ofMatrix {P : Params2} (hr : Tiled P.row) (hc : Tiled P.col) (m : Tiles K) {r : Coord2} (h : r ∈ P.ranks) (nr nc : Nat) :
    HoldsTiles P nr nc r m (fun l => m (((P.at' .Row r).dist.global_tile_from_local_tile l.row).toNat,
      ((P.at' .Col r).dist.global_tile_from_local_tile l.col).toNat)) := by
  intro i hi j hj oi oj
  have pr : Tiled (P.at' .Row r) := Params2.tiled (c := .Row) hr h
  have pc : Tiled (P.at' .Col r) := Params2.tiled (c := .Col) hc h
  have e1 : (P.at' .Row r).dist.global_tile_from_local_tile ((P.at' .Row r).dist.local_tile_from_global_tile i) = i :=
    pr.valid.wf.cyc.local_global (by omega) oi.symm
  have e2 : (P.at' .Col r).dist.global_tile_from_local_tile ((P.at' .Col r).dist.local_tile_from_global_tile j) = j :=
    pc.valid.wf.cyc.local_global (by omega) oj.symm
  dsimp only
  rw [e1, e2]
  rfl

/- Non-vacuity: the matrix `L Lᵀ`, `L = [[1,0,0],[2,3,0],[4,5,6]]`, in tiles of 2 x 2, on a 2 x 3 grid whose process
(1, 2) holds the first tile. -/
section example_
private def exP : Params2 := ⟨⟨3, 2, 2, 2, 0, 1, 0⟩, ⟨3, 2, 2, 3, 0, 2, 0⟩⟩
private def exL : Nat → Nat → ℚ
  | 0, 0 => 1
  | 1, 0 => 2
  | 1, 1 => 3
  | 2, 0 => 4
  | 2, 1 => 5
  | 2, 2 => 6
  | _, _ => 0
private def exA (r c : Nat) : ℚ := ∑ l ∈ Finset.range 3, exL r l * exL c l
private def exM : Tiles ℚ := fun z => ⟨exP.row.tileSizes z.1, exP.row.tileSizes z.2,
  fun r c => exA (tileStart exP.row.tileSizes z.1 + r) (tileStart exP.row.tileSizes z.2 + c)⟩

private theorem exChol : IsChol posQ .Lower (tileStart exP.row.tileSizes exP.nt) exA exL := by
  rw [show tileStart exP.row.tileSizes exP.nt = 3 by decide]
  refine ⟨?_, ?_⟩
  · intro i hi
    interval_cases i <;> (unfold posQ; simp [exL])
  · intro r hr c hc
    interval_cases r <;> interval_cases c <;> simp [exA, exL, Finset.sum_range_succ]

/-- The hypotheses are met, with six processes and two tiles per dimension. -/
example : SquareDist exP ∧ exP.ranks.length = 6 ∧ exP.nt = 2 := by decide

example : ∃ (mat : Coord2 → Coord2 → Blk ℚ) (st : Coord2 → CholState ℚ),
    (∀ r ∈ exP.ranks, distCholeskyInit .Lower (exP.on r) (mat r) = some (st r)) ∧
    AlwaysEnds (Conf.init (fun r => if r ∈ exP.ranks then distCholesky true (lapackOf posQ) .Lower (exP.on r) else []) st) fun fin =>
      ∃ m1, (∀ r ∈ exP.ranks, HoldsTiles exP 2 2 r m1 (fin r).mat) ∧
        HoldsOn m1 exP.row.tileSizes exP.row.tileSizes 2 2 exL (fun r c => c ≤ r) := by
  have hP : SquareDist exP := by decide
  have hst := fun r (hr : r ∈ exP.ranks) => C30_workspaces_created (K := ℚ) hP .Lower hr
    (fun l => exM (((exP.at' .Row r).dist.global_tile_from_local_tile l.row).toNat,
      ((exP.at' .Col r).dist.global_tile_from_local_tile l.col).toNat))
  choose st' hst' using hst
  obtain ⟨v, _, _⟩ := panel_create (K := ℚ) hP.row true 0
  obtain ⟨n, f, a1, ⟨m1, a2, a3, _⟩, a4⟩ := C30_distributed_factor_lower (lapack_spec posQ) positiveQ hP true (m := exM)
    (fun _ _ _ _ => ⟨rfl, rfl⟩) (A := exA) (fun _ _ _ _ _ _ _ _ _ => rfl) exChol
    (mat := fun r l => exM (((exP.at' .Row r).dist.global_tile_from_local_tile l.row).toNat,
      ((exP.at' .Col r).dist.global_tile_from_local_tile l.col).toNat))
    (fun r hr => HoldsTiles.ofMatrix hP.row hP.col exM hr _ _)
    (st := fun r => if h : r ∈ exP.ranks then st' r h else ⟨fun _ => ⟨0, 0, fun _ _ => 0⟩, fun _ => v, fun _ => v⟩)
    (fun r hr => by rw [dif_pos hr]; exact hst' r hr)
  exact ⟨_, _, fun r hr => by rw [dif_pos hr]; exact hst' r hr, n, f, a1, ⟨m1, a2, a3⟩, a4⟩
end example_

end DLAF
