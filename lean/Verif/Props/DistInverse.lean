import Verif.Lemmas.DistInverse
import Verif.Props.DistMultiplication
import Verif.Props.Inverse
/-
C58: the distributed triangular inverse.

The program of every process is that of Model/DistInverse.lean; the machine is that of Model/Spmd.lean.
-/
namespace DLAF
variable {K : Type*} [Field K] [StarRing K]

/-- The axis of the first panel. -/
def triAxis : Uplo → Coord
  | .Lower => .Row
  | .Upper => .Col

section
variable {P : Params2}

/-- Workspaces of one more kind. -/
theorem sq_panels (hD : SquareDist P) {r : Coord2} (hr : r ∈ P.ranks) (c : Coord) : ∃ v : Bool → VPanel K, mkPanels c (P.on r) = some v ∧
    ∀ b, PanelIs (P.at' c.orth r) (isTall c) P.row.tile P.row.tile 0 (P.at' c.orth r).dist.nrTiles (fun _ => none) (v b) := by
  obtain ⟨v, h1, h2⟩ := panel_create (K := K) (hD.plainAt c.orth hr) (isTall c) P.row.tile
  refine ⟨fun _ => v, ?_, fun _ => h2⟩
  have e : ((P.on r).get c).tileSize = P.row.tile := by
    cases c
    · rfl
    · exact hD.tile.symm
  unfold mkPanels
  rw [e, P.on_at, h1]
  rfl

/-- The state of the processes at the call. -/
theorem triInit_idle (hD : SquareDist P) (u : Uplo) {r : Coord2} (hr : r ∈ P.ranks) (a : Coord2 → Blk K) :
    ∃ x, distTriInvInit u (P.on r) a = some x ∧ DIdle (sqEnv P (triA (triAxis u))).E r (fun _ => a) x := by
  obtain ⟨vc, c1, c2⟩ := sq_panels (K := K) hD hr .Col
  obtain ⟨vr, r1, r2⟩ := sq_panels (K := K) hD hr .Row
  cases u
  · unfold distTriInvInit
    rw [c1, r1]
    refine ⟨_, rfl, rfl, fun n b => ?_⟩
    rcases n with _ | n
    · exact ⟨0, _, fun _ => rfl, fun _ => rfl, le_refl _, r2 b⟩
    · exact ⟨0, _, fun _ => rfl, fun _ => rfl, le_refl _, c2 b⟩
  · unfold distTriInvInit
    rw [c1, r1]
    refine ⟨_, rfl, rfl, fun n b => ?_⟩
    rcases n with _ | n
    · exact ⟨0, _, fun _ => rfl, fun _ => rfl, le_refl _, c2 b⟩
    · exact ⟨0, _, fun _ => rfl, fun _ => rfl, le_refl _, r2 b⟩

/-- The construction of the workspaces never fails. -/
theorem C58_workspaces_created (hD : SquareDist P) (u : Uplo) {r : Coord2} (hr : r ∈ P.ranks) (a : Coord2 → Blk K) :
    ∃ x, distTriInvInit u (P.on r) a = some x := by
  obtain ⟨x, h, _⟩ := triInit_idle hD u hr a
  exact ⟨x, h⟩

/-- Tiles of a square matrix held by the processes, and idle workspaces. -/
theorem sq_idle (hD : SquareDist P) {A : Nat → PanKind} {a : Tiles K} {ma : Coord2 → Coord2 → Blk K} (hma : ∀ r ∈ P.ranks, HoldsTiles P P.nt P.nt r a (ma r))
    {st : Coord2 → DSt K} (hst : ∀ r ∈ P.ranks, DIdle (sqEnv P A).E r (fun _ => ma r) (st r)) :
    VIdle (sqEnv P A) (set1 (fun _ => a) 0 a) ⟨st, fun _ _ => 0, fun _ _ _ => none⟩ := by
  refine ⟨Clean.init _ _, fun r hr => ?_⟩
  have x2 := hst r hr
  have hm := x2.mat
  refine ⟨by rw [hm]; exact x2, fun n z hz => ?_⟩
  show (st r).mat n z = _
  rw [hm]
  have hn : P.col.ntn = P.nt := by
    have := hD.nrTiles .Col
    show P.col.dist.nrTiles.toNat = _
    have e : P.col.dist.nrTiles = P.nt := this
    omega
  have hc := hma r hr
  rw [show HoldsTiles P P.nt P.nt r a (ma r) = HoldsTiles P P.row.ntn P.col.ntn r a (ma r) by rw [hn]; rfl] at hc
  have e := LView.of_holds hD.row hD.col hr hc z.row z.col hz.1.1 hz.1.2 hz.2.1 hz.2.2
  show ma r z = set1 (fun _ => a) 0 a n _
  rw [show set1 (fun _ : Nat => a) 0 a n = a from by unfold set1; split <;> rfl]
  exact e

/-- What the processes hold when the workspaces are idle. -/
theorem sq_holds (hD : SquareDist P) {A : Nat → PanKind} {M : Nat → Tiles K} {g : Glob (DSt K) (Blk K)} (hg : VIdle (sqEnv P A) M g) {r : Coord2} (hr : r ∈ P.ranks) (n : Nat) :
    HoldsTiles P P.nt P.nt r (M n) ((g.st r).mat n) := by
  have hn : P.col.ntn = P.nt := by
    have := hD.nrTiles .Col
    show P.col.dist.nrTiles.toNat = _
    have e : P.col.dist.nrTiles = P.nt := this
    omega
  rw [show HoldsTiles P P.nt P.nt r (M n) ((g.st r).mat n) = HoldsTiles P P.row.ntn P.col.ntn r (M n) ((g.st r).mat n) by rw [hn]; rfl]
  refine LView.holds hD.row hD.col hr fun i j h1 h2 h3 h4 => ?_
  exact (hg.all r hr).2 n ⟨i, j⟩ ⟨⟨h1, h2⟩, h3, h4⟩

/-- The program of the processes and the local algorithm. -/
theorem distTri_runs (hD : SquareDist P) (lp : Lapack K) (u : Uplo) (d : Diag) (dbg : Bool) {m0 : Nat → Tiles K} {a a' : Tiles K} (ha : P.Fits a)
    (h : triangular_inverse lp u d P.nt a = some a') {g : Glob (DSt K) (Blk K)} (hg : VIdle (sqEnv P (triA (triAxis u))) (set1 m0 0 a) g) :
    ∃ g', Runs (fun r => if r ∈ P.ranks then distTriangularInverse lp u d dbg (P.on r) else []) g g' ∧
      VIdle (sqEnv P (triA (triAxis u))) (set1 m0 0 a') g' ∧ P.Fits a' := by
  cases u
  · exact triInv_runs (ax := .Row) (f1 := lp.tileTrsm .Right .Lower .NoTrans d (-1)) (f2 := lp.tileTrsm .Left .Lower .NoTrans d 1) (fd := lp.tileTrtri .Lower d)
      hD (tileTrsm_shape _ _ _ _ _ _) (tileTrsm_shape _ _ _ _ _ _) (fun _ _ e => tileTrtri_shape _ _ _ e) ha h hg
  · exact triInv_runs (ax := .Col) (f1 := lp.tileTrsm .Left .Upper .NoTrans d (-1)) (f2 := lp.tileTrsm .Right .Upper .NoTrans d 1) (fd := lp.tileTrtri .Upper d)
      hD (tileTrsm_shape _ _ _ _ _ _) (tileTrsm_shape _ _ _ _ _ _) (fun _ _ e => tileTrtri_shape _ _ _ e) ha h hg

/-- C58.  For every grid, source ranks, matrix and tile size, both triangles, unit or non-unit diagonal, and every nonsingular triangular matrix, under
every schedule of the processes: the call ends without abort or deadlock, and every process then holds its tiles of a matrix whose triangle is the inverse of the
triangular matrix and whose other elements are those of the input. -/
theorem C58_distributed_triangular_inverse {lp : Lapack K} {pos : K → Prop} (hl : LapackSpec lp pos) (hp : Positive pos) (hD : SquareDist P)
    (u : Uplo) (d : Diag) (dbg : Bool) {a : Tiles K} (ha : Shaped a P.row.tileSizes P.row.tileSizes P.nt P.nt) {A : Nat → Nat → K}
    (hA : HoldsOn a P.row.tileSizes P.row.tileSizes P.nt P.nt A fun _ _ => True) (hn : NonsingE d (tileStart P.row.tileSizes P.nt) A)
    {ma : Coord2 → Coord2 → Blk K} (hma : ∀ r ∈ P.ranks, HoldsTiles P P.nt P.nt r a (ma r))
    {st : Coord2 → DSt K} (hst : ∀ r ∈ P.ranks, distTriInvInit u (P.on r) (ma r) = some (st r)) :
    AlwaysEnds (Conf.init (fun r => if r ∈ P.ranks then distTriangularInverse lp u d dbg (P.on r) else []) st) fun fin =>
      ∃ a' W, (∀ r ∈ P.ranks, HoldsTiles P P.nt P.nt r a' ((fin r).mat 0)) ∧ Shaped a' P.row.tileSizes P.row.tileSizes P.nt P.nt ∧
        HoldsOn a' P.row.tileSizes P.row.tileSizes P.nt P.nt W (fun _ _ => True) ∧
        (∀ x < tileStart P.row.tileSizes P.nt, ∀ y < tileStart P.row.tileSizes P.nt, ∑ l ∈ Finset.range (tileStart P.row.tileSizes P.nt),
          triE u d A x l * triE u d W l y = if x = y then 1 else 0) ∧
        ∀ x y, ¬ inTri u d x y → W x y = A x y := by
  obtain ⟨a', W, h1, h2, h3, h4, h5⟩ := C33_triangular_inverse hl hp u d ha hA hn
  obtain ⟨g', r1, i1, -⟩ := distTri_runs hD lp u d dbg ha h1 (sq_idle hD (A := triA (triAxis u)) hma fun r hr => by
    obtain ⟨x, x1, x2⟩ := triInit_idle hD u hr (ma r)
    have hx : x = st r := Option.some.inj (x1.symm.trans (hst r hr))
    exact hx ▸ x2)
  refine r1.alwaysEnds ⟨a', W, fun r hr => ?_, h2, h3, h4, h5⟩
  have := sq_holds hD i1 hr 0
  rw [set1_same] at this
  exact this

/-- C58.  The distributed call computes tile by tile what the local call computes on one process: whenever the local one returns, so does the distributed
one, under every schedule, with the same tiles. -/
theorem C58_same_as_local (hD : SquareDist P) (lp : Lapack K) (u : Uplo) (d : Diag) (dbg : Bool) {a a' : Tiles K}
    (ha : Shaped a P.row.tileSizes P.row.tileSizes P.nt P.nt) (h : triangular_inverse lp u d P.nt a = some a')
    {ma : Coord2 → Coord2 → Blk K} (hma : ∀ r ∈ P.ranks, HoldsTiles P P.nt P.nt r a (ma r))
    {st : Coord2 → DSt K} (hst : ∀ r ∈ P.ranks, distTriInvInit u (P.on r) (ma r) = some (st r)) :
    AlwaysEnds (Conf.init (fun r => if r ∈ P.ranks then distTriangularInverse lp u d dbg (P.on r) else []) st) fun fin =>
      ∀ r ∈ P.ranks, HoldsTiles P P.nt P.nt r a' ((fin r).mat 0) := by
  obtain ⟨g', r1, i1, -⟩ := distTri_runs hD lp u d dbg ha h (sq_idle hD (A := triA (triAxis u)) hma fun r hr => by
    obtain ⟨x, x1, x2⟩ := triInit_idle hD u hr (ma r)
    have hx : x = st r := Option.some.inj (x1.symm.trans (hst r hr))
    exact hx ▸ x2)
  refine r1.alwaysEnds fun r hr => ?_
  have := sq_holds hD i1 hr 0
  rw [set1_same] at this
  exact this

theorem triInv_same (hD : SquareDist P) (dbg : Bool) (ax : Coord) (f1 f2 : Blk K → Blk K → Option (Blk K)) (fd : Blk K → Option (Blk K)) :
    SameCollectives P.ranks (fun r => triInv dbg ax f1 f2 fd (P.on r)) := by
  intro c r hr q hq h1 h2
  beta_reduce
  unfold triInv
  have n1 : ∀ r, (P.on r).col.nrTiles = P.nt := fun r => hD.nrTiles .Col
  rw [sigs_flatMap, sigs_flatMap, n1, n1]
  refine List.flatMap_congr fun k hk => ?_
  rw [List.mem_reverse, mem_irange] at hk
  have e1 : ∀ r, triIt (P.on r) k = P.nt - 1 - k := fun r => by unfold triIt; rw [n1]
  have e2 : ∀ r c t, ((P.on r).get c).rank_global_tile t = (P.get c).dist.rank_global_tile t := fun r c t => by rw [P.on_at]; rfl
  have e3 : ∀ r c, ((P.on r).get c).nrTiles = P.nt := fun r c => by rw [P.on_at]; exact hD.nrTiles c
  unfold triInvStep
  simp only [sigs_append, sigs_locs, List.append_nil, n1, e1, e2, e3]
  congr 1
  · by_cases hl : k < (P.nt : Int) - 1
    · rw [if_pos hl, if_pos hl]
      simp only [sigs_append, sigs_locs, List.nil_append]
      exact bcastPanel_same (hD.plain ax.orth).toTiled dbg _ _ (le_refl _) (by omega) hr hq h1 h2
    · rw [if_neg hl, if_neg hl]
  · by_cases hl : k > 0
    · rw [if_pos hl, if_pos hl]
      simp only [sigs_append, sigs_locs, List.nil_append]
      exact bcastPanel_same (hD.plain ax.orth.orth).toTiled dbg _ _ hk.1 (by omega) hr hq h1 h2
    · rw [if_neg hl, if_neg hl]

/-- C58.  All members of each row and column communicator perform the same sequence of collectives. -/
theorem C58_same_collectives (hD : SquareDist P) (lp : Lapack K) (u : Uplo) (d : Diag) (dbg : Bool) :
    SameCollectives P.ranks (fun r => distTriangularInverse lp u d dbg (P.on r)) := by
  cases u
  · exact triInv_same hD dbg .Row _ _ _
  · exact triInv_same hD dbg .Col _ _ _
end

/- Non-vacuity: a 5 x 5 matrix in tiles of 2 x 2 on a 2 x 3 grid, with other values outside of the triangle. -/
section example_
private def exP : Params2 := ⟨⟨5, 2, 2, 2, 0, 1, 0⟩, ⟨5, 2, 2, 3, 0, 2, 0⟩⟩
private def exA : Nat → Nat → ℚ := fun r c => r + 2 * c + 1
private def exM : Tiles ℚ := fun z => ⟨exP.row.tileSizes z.1, exP.row.tileSizes z.2,
  fun r c => exA (tileStart exP.row.tileSizes z.1 + r) (tileStart exP.row.tileSizes z.2 + c)⟩

example : SquareDist exP ∧ exP.ranks.length = 6 ∧ exP.nt = 3 := by decide

example (u : Uplo) (d : Diag) : ∃ (st : Coord2 → DSt ℚ),
    AlwaysEnds (Conf.init (fun r => if r ∈ exP.ranks then distTriangularInverse (lapackOf posQ) u d true (exP.on r) else []) st)
      fun fin => ∃ a' W, (∀ r ∈ exP.ranks, HoldsTiles exP 3 3 r a' ((fin r).mat 0)) ∧ HoldsOn a' exP.row.tileSizes exP.row.tileSizes 3 3 W (fun _ _ => True) ∧
        ∀ x < 5, ∀ y < 5, ∑ l ∈ Finset.range 5, triE u d exA x l * triE u d W l y = if x = y then 1 else 0 := by
  have hP : SquareDist exP := by decide
  have h5 : tileStart exP.row.tileSizes exP.nt = 5 := by decide
  let ma : Coord2 → Coord2 → Blk ℚ := fun r l => exM (((exP.at' .Row r).dist.global_tile_from_local_tile l.row).toNat,
      ((exP.at' .Col r).dist.global_tile_from_local_tile l.col).toNat)
  have hst := fun r (hr : r ∈ exP.ranks) => C58_workspaces_created (K := ℚ) hP u hr (ma r)
  choose st' hst' using hst
  obtain ⟨v, _, _⟩ := panel_create (K := ℚ) hP.row true 0
  obtain ⟨n, f, a1, ⟨a', W, a2, -, a3, a4, -⟩, a5⟩ := C58_distributed_triangular_inverse (lapack_spec posQ) positiveQ hP u d true (a := exM)
    (fun _ _ _ _ => ⟨rfl, rfl⟩) (A := exA) (fun _ _ _ _ _ _ _ _ _ => rfl) (Or.inr fun i _ => by
      show (i : ℚ) + 2 * i + 1 ≠ 0
      positivity) (ma := ma)
    (fun r hr => HoldsTiles.ofMatrix hP.row hP.col exM hr _ _)
    (st := fun r => if h : r ∈ exP.ranks then st' r h else ⟨fun _ _ => ⟨0, 0, fun _ _ => 0⟩, fun _ _ => v⟩)
    (fun r hr => by rw [dif_pos hr]; exact hst' r hr)
  rw [h5] at a4
  exact ⟨_, n, f, a1, ⟨a', W, a2, a3, a4⟩, a5⟩
end example_

end DLAF
