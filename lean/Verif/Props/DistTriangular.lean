import Verif.Lemmas.DistTriangularChain
import Verif.Props.Triangular
/-
C55: the distributed triangular multiplication.

The program of every process is that of Model/DistTriangular.lean; the machine is that of Model/Spmd.lean.
-/
namespace DLAF
variable {K : Type*} [Field K] [StarRing K]

namespace TriAlg
variable {t : TriAlg K} {PA PB : Params2}

theorem fitA_of (h : TriDist t.axis.orth PA PB) {a : Tiles K} (ha : Shaped a PA.row.tileSizes PA.col.tileSizes PA.row.ntn PA.col.ntn) :
    t.FitA PA (lineT t.axis a) := by
  have hn : PA.row.ntn = PA.col.ntn := by unfold Params.ntn; rw [show PA.row.dist.nrTiles = PA.col.dist.nrTiles from h.nr_eq .Row .Col]
  have hpos : ∀ c : Coord, ∀ i < (PA.get t.axis).ntn, 0 ≤ (PA.get c).dist.global_tile_size_of i := by
    intro c i hi
    have := (h.plainA c).size_pos (t := (i : Int)) (by omega) (by rw [h.nr_eq c t.axis]; unfold Params.ntn at hi; omega)
    omega
  intro i hi k hk
  refine fits_of (hpos _ k hk) (hpos _ i hi) ?_
  revert hi hk
  cases t.axis
  · intro hi hk
    show (a (k, i)).rows = PA.row.tileSizes k ∧ (a (k, i)).cols = PA.col.tileSizes i
    exact ha k hk i (by rw [← hn]; exact hi)
  · intro hi hk
    show (a (i, k)).rows = PA.row.tileSizes i ∧ (a (i, k)).cols = PA.col.tileSizes k
    exact ha i (by rw [hn]; exact hi) k hk

theorem fitB_of (h : TriDist t.axis.orth PA PB) {b : Tiles K} (hb : Shaped b PB.row.tileSizes PB.col.tileSizes PB.row.ntn PB.col.ntn) :
    t.FitB PA PB (lineT t.axis b) := by
  have hn : (PB.get t.axis.orth).ntn = (PA.get t.axis).ntn := by unfold Params.ntn; rw [h.lines, h.nr_eq t.axis.orth t.axis]
  have hs : ∀ i : Nat, (PA.get t.axis).dist.global_tile_size_of i = (PB.get t.axis.orth).dist.global_tile_size_of i := by
    intro i; rw [h.lines, h.size_eq t.axis.orth t.axis]
  intro i hi j hj
  have p1 := (h.plainA t.axis).size_pos (t := (i : Int)) (by omega) (by unfold Params.ntn at hi; omega)
  have p2 := (h.plainB t.axis).size_pos (t := (j : Int)) (by omega) (by unfold Params.ntn at hj; omega)
  refine fits_of (by omega) (by omega) ?_
  rw [← hn] at hi
  rw [hs]
  revert hi hj
  cases t.axis
  · intro hi hj
    show (b (j, i)).rows = PB.row.tileSizes j ∧ (b (j, i)).cols = PB.col.tileSizes i
    exact hb j hj i hi
  · intro hi hj
    show (b (i, j)).rows = PB.row.tileSizes i ∧ (b (i, j)).cols = PB.col.tileSizes j
    exact hb i hi j hj

end TriAlg

theorem gemm_keeps {oa ob : BlasOp} {alpha beta : K} {a b c x : Blk K} (h : gemm oa ob alpha a b beta c = some x) : x.rows = c.rows ∧ x.cols = c.cols := by
  unfold gemm at h
  split at h
  · cases h; exact ⟨rfl, rfl⟩
  · cases h

theorem trmm_keeps {s : Side} {u : Uplo} {o : BlasOp} {d : Diag} {alpha : K} {a b x : Blk K} (h : trmm s u o d alpha a b = some x) :
    x.rows = b.rows ∧ x.cols = b.cols := by
  unfold trmm at h
  split at h
  · cases h; exact ⟨rfl, rfl⟩
  · cases h

omit [Field K] [StarRing K] in
theorem tileTrsm_keeps {lp : Lapack K} {s : Side} {u : Uplo} {o : BlasOp} {d : Diag} {alpha : K} {a b x : Blk K}
    (h : lp.tileTrsm s u o d alpha a b = some x) : x.rows = b.rows ∧ x.cols = b.cols := by
  unfold Lapack.tileTrsm at h
  split at h
  · cases h; exact ⟨rfl, rfl⟩
  · cases h

/-- The first value for `side = Left`, the second for `side = Right`. -/
def Side.pick (s : Side) (x y : Nat) : Nat :=
  match s with
  | .Left => x
  | .Right => y

theorem swapT_swapT {E : Type*} (m : Tiles E) : swapT (swapT m) = m := rfl

/-- The variants of the multiplication. -/
theorem distMultAlg_spec {s : Side} {u : Uplo} {d : Diag} {alpha : K} : ∃ t, distMultAlg s u .NoTrans d alpha = some t ∧ t.axis = s.lines.orth ∧
    t.linkFirst = true ∧ t.skipLast = false ∧ t.Keeps ∧
    ∀ (m n : Nat) (a b : Tiles K), ∃ js later, js.Nodup ∧ (∀ j, j ∈ js ↔ j < (s.pick n m)) ∧
      t.LaterOK (s.pick m n) later ∧
      (Mult.triangular_multiplication s u .NoTrans d alpha m n a b).map (lineT t.axis) =
        genMult (if t.up then upto 0 (s.pick m n) else downto (s.pick m n) 0) js later
          (fun k x => t.diag (lineT t.axis a (k, k)) x) (fun i k x y => t.upd (lineT t.axis a (i, k)) x y) (lineT t.axis b) := by
  have hdn : ∀ n : Nat, (downto n 0).Nodup := fun n => List.nodup_reverse.2 (upto_nodup _ _)
  have hsw : ∀ (ks js : List Nat) (later : Nat → List Nat) (T : Nat → Blk K → Option (Blk K)) (G : Nat → Nat → Blk K → Blk K → Option (Blk K))
      (b : Tiles K), (forM' ks b fun b k => forM' js b fun b i => do
        let b ← forM' (later k) b fun b j => b.write (i, j) (G j k (b (i, k)) (b (i, j)))
        b.write (i, k) (T k (b (i, k)))).map swapT = (forM' ks (swapT b) fun b k => forM' js b fun b j => do
        let b ← forM' (later k) b fun b i => b.write (i, j) (G i k (b (k, j)) (b (i, j)))
        b.write (k, j) (T k (b (k, j)))) := by
    intro ks js later T G b
    refine forM'_sim swapT _ _ ?_
    intro b k _
    refine forM'_sim swapT _ _ ?_
    intro b i _
    refine bind_sim swapT ?_ fun b => ?_
    · refine forM'_sim swapT _ _ ?_
      intro b j _
      rw [swapT_write]; rfl
    · rw [swapT_write]; rfl
  cases s <;> cases u <;> refine ⟨_, rfl, rfl, rfl, rfl, ⟨rfl, fun _ _ _ h => trmm_keeps h, fun _ _ _ _ h => gemm_keeps h⟩, fun m n a b => ?_⟩
  · refine ⟨upto 0 n, fun k => upto (k + 1) m, upto_nodup _ _, by simp [Side.pick], fun k hk => ⟨upto_nodup _ _, by simp, fun i hi => ?_⟩, ?_⟩
    · have hi' : i < m := hi
      simp only [if_true]; simp; omega
    · exact Option.map_id_apply ..
  · refine ⟨upto 0 n, fun k => upto 0 k, upto_nodup _ _, by simp [Side.pick], fun k hk => ⟨upto_nodup _ _, by simp, fun i hi => ?_⟩, ?_⟩
    · simp
    · exact Option.map_id_apply ..
  · refine ⟨upto 0 m, fun k => downto k 0, upto_nodup _ _, by simp [Side.pick], fun k hk => ⟨hdn _, by simp, fun i hi => ?_⟩, ?_⟩
    · simp
    · exact hsw (upto 0 n) (upto 0 m) (fun k => downto k 0) (fun k x => trmm .Right .Lower .NoTrans d alpha (a (k, k)) x)
        (fun j k x y => gemm .NoTrans .NoTrans alpha x (a (k, j)) 1 y) b
  · refine ⟨downto m 0, fun k => upto (k + 1) n, hdn _, by simp [Side.pick], fun k hk => ⟨upto_nodup _ _, by simp, fun i hi => ?_⟩, ?_⟩
    · have hi' : i < n := hi
      simp only [if_true]; simp; omega
    · exact hsw (downto n 0) (downto m 0) (fun k => upto (k + 1) n) (fun k x => trmm .Right .Upper .NoTrans d alpha (a (k, k)) x)
        (fun j k x y => gemm .NoTrans .NoTrans alpha x (a (k, j)) 1 y) b

omit [Field K] [StarRing K] in
theorem distTriInit_eq {s : Side} {t : TriAlg K} (h : t.axis = s.lines.orth) (da db : Distribution) (a b : Coord2 → Blk K) :
    distTriInit s da db a b = t.init da db a b := by
  unfold TriAlg.init
  rw [h]
  cases s <;> rfl

omit [Field K] [StarRing K] in
theorem side_lines_ntn {s : Side} {t : TriAlg K} {PA PB : Params2} (hD : TriDist t.axis.orth PA PB) (hax : t.axis = s.lines.orth) :
    s.pick PB.row.ntn PB.col.ntn = (PA.get t.axis).ntn := by
  have : (PB.get t.axis.orth).ntn = (PA.get t.axis).ntn := by unfold Params.ntn; rw [hD.lines, hD.nr_eq t.axis.orth t.axis]
  rw [← this, hax]
  cases s <;> rfl

omit [Field K] [StarRing K] in
theorem side_rhs_ntn {s : Side} {t : TriAlg K} {PB : Params2} (hax : t.axis = s.lines.orth) :
    s.pick PB.col.ntn PB.row.ntn = (PB.get t.axis).ntn := by
  rw [hax]
  cases s <;> rfl

/-- C55.  For every grid, source ranks and tile sizes, side and uplo, `op = NoTrans`, and all matrices whose tiles fit: under every schedule of
the processes the distributed multiplication ends without abort or deadlock; every process then holds its tiles of the matrix that the local
multiplication computes, and its tiles of `A` as before.  `junk` is the memory of the workspaces the code broadcasts without setting it. -/
theorem C55_distributed_multiplication (s : Side) (u : Uplo) (d : Diag) (alpha : K) {PA PB : Params2} (hD : TriDist s.lines PA PB) (dbg : Bool)
    (junk : Coord2 → Int → Nat → Nat → Nat → K) {a b b1 : Tiles K}
    (ha : Shaped a PA.row.tileSizes PA.col.tileSizes PA.row.ntn PA.col.ntn)
    (hb : Shaped b PB.row.tileSizes PB.col.tileSizes PB.row.ntn PB.col.ntn)
    (hloc : Mult.triangular_multiplication s u .NoTrans d alpha PB.row.ntn PB.col.ntn a b = some b1)
    {ma mb : Coord2 → Coord2 → Blk K} (hma : ∀ r ∈ PB.ranks, HoldsTiles PA PA.row.ntn PA.col.ntn r a (ma r))
    (hmb : ∀ r ∈ PB.ranks, HoldsTiles PB PB.row.ntn PB.col.ntn r b (mb r))
    {st : Coord2 → DSt K} (hst : ∀ r ∈ PB.ranks, distTriInit s (PA.on r) (PB.on r) (ma r) (mb r) = some (st r)) :
    AlwaysEnds (Conf.init (fun r => if r ∈ PB.ranks then distTriMult dbg (junk r) s u .NoTrans d alpha (PA.on r) (PB.on r) else []) st) fun fin =>
      ∀ r ∈ PB.ranks, HoldsTiles PB PB.row.ntn PB.col.ntn r b1 ((fin r).mat 1) ∧ (fin r).mat 0 = ma r := by
  obtain ⟨t, ht, hax, hlf, hsk, hkeep, H⟩ := distMultAlg_spec (s := s) (u := u) (d := d) (alpha := alpha)
  have hD' : TriDist t.axis.orth PA PB := by rw [hax, orth_orth]; exact hD
  obtain ⟨js, later, h1, h2, h3, h4⟩ := H PB.row.ntn PB.col.ntn a b
  rw [hloc, Option.map_some] at h4
  have hn := side_lines_ntn hD' hax
  have hm : s.pick PB.col.ntn PB.row.ntn = (PB.get t.axis).ntn := side_rhs_ntn hax
  rw [hn] at h3 h4
  rw [hm] at h2
  have hch := TriAlg.mult_chain (PA := PA) (PB := PB) (a := lineT t.axis a) (TriAlg.fitA_of hD' ha) hkeep hlf h1 h2 h3
    (if t.up then upto 0 (PA.get t.axis).ntn else downto (PA.get t.axis).ntn 0) _ _ (by
      intro k hk
      split at hk <;> simpa using hk) (TriAlg.fitB_of hD' hb) h4.symm
  have := TriAlg.prog_ends hD' dbg junk hch (by rw [hsk]; simp) hma hmb (st := st) (fun r hr => by rw [← distTriInit_eq hax]; exact hst r hr)
  unfold distTriMult
  rw [ht]
  exact this

/-- The construction of the workspaces never fails. -/
theorem C55_workspaces_created (s : Side) {PA PB : Params2} (hD : TriDist s.lines PA PB) {r : Coord2} (hr : r ∈ PB.ranks) (a b : Coord2 → Blk K) :
    ∃ x, distTriInit s (PA.on r) (PB.on r) a b = some x := by
  obtain ⟨t, ht, hax, _⟩ := distMultAlg_spec (K := K) (s := s) (u := .Lower) (d := .Unit) (alpha := 1)
  rw [distTriInit_eq hax]
  obtain ⟨x, h, _⟩ := TriAlg.init_idle (t := t) (PA := PA) (PB := PB) (by rw [hax, orth_orth]; exact hD) hr a b
  exact ⟨x, h⟩

theorem tileSizes_sq {P : Params2} (h : SquareDist P) : P.col.tileSizes = P.row.tileSizes ∧ P.col.ntn = P.row.ntn := by
  constructor
  · funext i
    unfold Params.tileSizes
    rw [h.row.tile_size_eq h.col h.size h.tile i]
  · unfold Params.ntn
    rw [h.row.nrTiles_eq h.col h.size h.tile]

/-- C55, the values, `side = Left`: `B` is overwritten with `alpha A B`, where `A` is the triangle of the matrix that `uplo` and `diag` select. -/
theorem C55_distributed_product_left (u : Uplo) (d : Diag) (alpha : K) {PA PB : Params2} (hD : TriDist .Row PA PB) (dbg : Bool)
    (junk : Coord2 → Int → Nat → Nat → Nat → K) {a b : Tiles K} {A B : Nat → Nat → K}
    (ha : Shaped a PA.row.tileSizes PA.col.tileSizes PA.row.ntn PA.col.ntn)
    (hb : Shaped b PB.row.tileSizes PB.col.tileSizes PB.row.ntn PB.col.ntn)
    (hA : HoldsOn a PA.row.tileSizes PA.col.tileSizes PA.row.ntn PA.col.ntn A (inTri u d))
    (hB : HoldsOn b PB.row.tileSizes PB.col.tileSizes PB.row.ntn PB.col.ntn B fun _ _ => True)
    {ma mb : Coord2 → Coord2 → Blk K} (hma : ∀ r ∈ PB.ranks, HoldsTiles PA PA.row.ntn PA.col.ntn r a (ma r))
    (hmb : ∀ r ∈ PB.ranks, HoldsTiles PB PB.row.ntn PB.col.ntn r b (mb r))
    {st : Coord2 → DSt K} (hst : ∀ r ∈ PB.ranks, distTriInit .Left (PA.on r) (PB.on r) (ma r) (mb r) = some (st r)) :
    AlwaysEnds (Conf.init (fun r => if r ∈ PB.ranks then distTriMult dbg (junk r) .Left u .NoTrans d alpha (PA.on r) (PB.on r) else []) st) fun fin =>
      (∀ r ∈ PB.ranks, (fin r).mat 0 = ma r) ∧
      ∃ b1, (∀ r ∈ PB.ranks, HoldsTiles PB PB.row.ntn PB.col.ntn r b1 ((fin r).mat 1)) ∧
        HoldsOn b1 PB.row.tileSizes PB.col.tileSizes PB.row.ntn PB.col.ntn
          (fun x y => alpha * ∑ l ∈ Finset.range (tileStart PB.row.tileSizes PB.row.ntn), triE u d A x l * B l y) (fun _ _ => True) := by
  obtain ⟨q1, q2⟩ := tileSizes_sq hD.a
  have hl : PB.row = PA.row := hD.lines
  have ha' := ha
  rw [q1, q2, ← hl] at ha' hA
  obtain ⟨b1, h1, _, h2⟩ := C32_triangular_left u .NoTrans d alpha ha' hb hA hB
  obtain ⟨n, f, e1, e2, e3⟩ := C55_distributed_multiplication .Left u d alpha hD dbg junk ha hb h1 hma hmb hst
  exact ⟨n, f, e1, ⟨fun r hr => (e2 r hr).2, b1, fun r hr => (e2 r hr).1, h2⟩, e3⟩

/-- C55, the values, `side = Right`: `B` is overwritten with `alpha B A`. -/
theorem C55_distributed_product_right (u : Uplo) (d : Diag) (alpha : K) {PA PB : Params2} (hD : TriDist .Col PA PB) (dbg : Bool)
    (junk : Coord2 → Int → Nat → Nat → Nat → K) {a b : Tiles K} {A B : Nat → Nat → K}
    (ha : Shaped a PA.row.tileSizes PA.col.tileSizes PA.row.ntn PA.col.ntn)
    (hb : Shaped b PB.row.tileSizes PB.col.tileSizes PB.row.ntn PB.col.ntn)
    (hA : HoldsOn a PA.row.tileSizes PA.col.tileSizes PA.row.ntn PA.col.ntn A (inTri u d))
    (hB : HoldsOn b PB.row.tileSizes PB.col.tileSizes PB.row.ntn PB.col.ntn B fun _ _ => True)
    {ma mb : Coord2 → Coord2 → Blk K} (hma : ∀ r ∈ PB.ranks, HoldsTiles PA PA.row.ntn PA.col.ntn r a (ma r))
    (hmb : ∀ r ∈ PB.ranks, HoldsTiles PB PB.row.ntn PB.col.ntn r b (mb r))
    {st : Coord2 → DSt K} (hst : ∀ r ∈ PB.ranks, distTriInit .Right (PA.on r) (PB.on r) (ma r) (mb r) = some (st r)) :
    AlwaysEnds (Conf.init (fun r => if r ∈ PB.ranks then distTriMult dbg (junk r) .Right u .NoTrans d alpha (PA.on r) (PB.on r) else []) st) fun fin =>
      (∀ r ∈ PB.ranks, (fin r).mat 0 = ma r) ∧
      ∃ b1, (∀ r ∈ PB.ranks, HoldsTiles PB PB.row.ntn PB.col.ntn r b1 ((fin r).mat 1)) ∧
        HoldsOn b1 PB.row.tileSizes PB.col.tileSizes PB.row.ntn PB.col.ntn
          (fun x y => alpha * ∑ l ∈ Finset.range (tileStart PB.col.tileSizes PB.col.ntn), B x l * triE u d A l y) (fun _ _ => True) := by
  obtain ⟨q1, q2⟩ := tileSizes_sq hD.a
  have hl : PB.col = PA.col := hD.lines
  have ha' := ha
  rw [← q1, ← q2, ← hl] at ha' hA
  obtain ⟨b1, h1, _, h2⟩ := C32_triangular_right u .NoTrans d alpha ha' hb hA hB
  obtain ⟨n, f, e1, e2, e3⟩ := C55_distributed_multiplication .Right u d alpha hD dbg junk ha hb h1 hma hmb hst
  exact ⟨n, f, e1, ⟨fun r hr => (e2 r hr).2, b1, fun r hr => (e2 r hr).1, h2⟩, e3⟩

omit [Field K] [StarRing K] in
theorem TriAlg.prog_same {t : TriAlg K} {PA PB : Params2} (h : TriDist t.axis.orth PA PB) (dbg : Bool) (junk : Coord2 → Int → Nat → Nat → Nat → K) :
    SameCollectives PB.ranks (fun r => t.prog dbg (junk r) (PA.on r) (PB.on r)) := by
  intro c r hr q hq h1 h2
  have hn := h.nr_eq t.axis.orth t.axis
  show sigs c (t.prog dbg (junk r) (PA.on r) (PB.on r)) = sigs c (t.prog dbg (junk q) (PA.on q) (PB.on q))
  unfold prog
  by_cases hz : PB.row.size = 0 ∨ PB.col.size = 0
  · rw [if_pos (show (PB.on r).row.size = 0 ∨ (PB.on r).col.size = 0 from hz), if_pos (show (PB.on q).row.size = 0 ∨ (PB.on q).col.size = 0 from hz)]
  rw [if_neg (show ¬ ((PB.on r).row.size = 0 ∨ (PB.on r).col.size = 0) from hz),
    if_neg (show ¬ ((PB.on q).row.size = 0 ∨ (PB.on q).col.size = 0) from hz)]
  simp only [Params2.on_get]
  show sigs c (List.flatMap _ (dirRange t.up 0 (PA.get t.axis).dist.nrTiles)) = sigs c (List.flatMap _ (dirRange t.up 0 (PA.get t.axis).dist.nrTiles))
  rw [sigs_flatMap, sigs_flatMap]
  refine List.flatMap_congr fun k hk => ?_
  rw [mem_dirRange] at hk
  have b1 : ∀ R : PRef (DSt K) K, sigs c (bcastPanel dbg t.axis (PA.on r) ((PA.get t.axis).dist.rank_global_tile k) R (if t.lower then k else 0)
        (PA.get t.axis.orth).dist.nrTiles) = sigs c (bcastPanel dbg t.axis (PA.on q) ((PA.get t.axis).dist.rank_global_tile k) R (if t.lower then k else 0)
        (PA.get t.axis.orth).dist.nrTiles) := fun R =>
    bcastPanel_same (h.plainA _).toTiled dbg _ _ (by split <;> omega) (by split <;> omega) (h.ranksA ▸ hr) (h.ranksA ▸ hq) h1 h2
  have b2 : ∀ R : PRef (DSt K) K, sigs c (bcastPanel dbg t.axis.orth (PB.on r) ((PA.get t.axis.orth).dist.rank_global_tile k) R 0
        (PB.get t.axis).dist.nrTiles) = sigs c (bcastPanel dbg t.axis.orth (PB.on q) ((PA.get t.axis.orth).dist.rank_global_tile k) R 0
        (PB.get t.axis).dist.nrTiles) := fun R =>
    bcastPanel_same (by rw [orth_orth]; exact (h.plainB _).toTiled) dbg _ _ (le_refl _) (h.plainB _).toTiled.nrTiles_nonneg hr hq h1 h2
  have i1 : t.iter (PA.on r) k = t.iter (PA.on q) k := by rw [iter_on, iter_on]
  have l1 : t.isLast (PA.on r) k = t.isLast (PA.on q) k := by unfold isLast; rw [Params2.on_get, Params2.on_get]; rfl
  unfold step rest
  rw [i1, l1]
  simp only [Params2.on_get, sigs_append, sigs_locs, List.nil_append, List.append_nil]
  congr 1
  · exact b1 _
  · split
    · rfl
    · simp only [sigs_append, sigs_locs]
      congr 2
      exact b2 _

/-- C55.  All members of each row and column communicator perform the same sequence of collectives. -/
theorem C55_same_collectives (s : Side) (u : Uplo) (o : BlasOp) (d : Diag) (alpha : K) {PA PB : Params2} (hD : TriDist s.lines PA PB) (dbg : Bool)
    (junk : Coord2 → Int → Nat → Nat → Nat → K) :
    SameCollectives PB.ranks (fun r => distTriMult dbg (junk r) s u o d alpha (PA.on r) (PB.on r)) := by
  unfold distTriMult
  cases ht : distMultAlg s u o d alpha with
  | none => intro c r _ q _ _ _; rfl
  | some t =>
    have ho : o = .NoTrans := by
      cases o
      · rfl
      all_goals (cases s <;> cases u <;> cases ht)
    subst ho
    obtain ⟨t', ht', hax, _⟩ := distMultAlg_spec (s := s) (u := u) (d := d) (alpha := alpha)
    rw [ht, Option.some.injEq] at ht'
    subst ht'
    exact TriAlg.prog_same (by rw [hax, orth_orth]; exact hD) dbg junk

/-- C55.  The transposed operations are not implemented: the call aborts on every process (no process can make a step, and none has finished). -/
theorem C55_transposed_aborts (s : Side) (u : Uplo) {o : BlasOp} (ho : o ≠ .NoTrans) (d : Diag) (alpha : K) {PA PB : Params2} (dbg : Bool)
    (junk : Coord2 → Int → Nat → Nat → Nat → K) (st : Coord2 → DSt K) {r : Coord2} (hr : r ∈ PB.ranks) :
    let c := Conf.init (fun r => if r ∈ PB.ranks then distTriMult dbg (junk r) s u o d alpha (PA.on r) (PB.on r) else []) st
    (∀ q, c.step q = none) ∧ ¬ c.Done := by
  have hn : distMultAlg s u o d alpha = none := by
    cases o
    · exact absurd rfl ho
    all_goals (cases s <;> cases u <;> rfl)
  have hp : ∀ q, distTriMult dbg (junk q) s u o d alpha (PA.on q) (PB.on q) = [.loc fun _ => none] := by
    intro q
    unfold distTriMult
    rw [hn]
  refine ⟨fun q => ?_, fun hd => ?_⟩
  · unfold Conf.step Conf.init
    dsimp only
    by_cases hq : q ∈ PB.ranks
    · rw [if_pos hq, hp]
      rfl
    · rw [if_neg hq]
  · have := hd r
    unfold Conf.init at this
    dsimp only at this
    rw [if_pos hr, hp] at this
    cases this

/- Non-vacuity: all variants, on 2 x 3 processes; `A` is 5 x 5 in tiles of 2 x 2. -/
section example_
private def exPA : Params2 := ⟨⟨5, 2, 2, 2, 0, 1, 0⟩, ⟨5, 2, 2, 3, 0, 2, 0⟩⟩
private def exPB : Side → Params2
  | .Left => ⟨⟨5, 2, 2, 2, 0, 1, 0⟩, ⟨7, 3, 3, 3, 0, 1, 0⟩⟩
  | .Right => ⟨⟨7, 3, 3, 2, 0, 0, 0⟩, ⟨5, 2, 2, 3, 0, 2, 0⟩⟩
private def exOf (P : Params2) (X : Nat → Nat → ℚ) : Tiles ℚ := fun z => ⟨P.row.tileSizes z.1, P.col.tileSizes z.2,
  fun r c => X (tileStart P.row.tileSizes z.1 + r) (tileStart P.col.tileSizes z.2 + c)⟩
private def exX : Nat → Nat → ℚ := fun r c => r + 2 * c + 1

private theorem exD (s : Side) : TriDist s.lines exPA (exPB s) := by
  cases s
  · exact ⟨by decide, by decide, by decide, rfl, rfl, rfl⟩
  · exact ⟨by decide, by decide, by decide, rfl, rfl, rfl⟩

example (u : Uplo) (d : Diag) (dbg : Bool) (junk : Coord2 → Int → Nat → Nat → Nat → ℚ) : ∃ st : Coord2 → DSt ℚ,
    AlwaysEnds (Conf.init (fun r => if r ∈ (exPB .Left).ranks then distTriMult dbg (junk r) .Left u .NoTrans d 3 (exPA.on r) ((exPB .Left).on r) else []) st)
      fun fin => ∃ b1, (∀ r ∈ (exPB .Left).ranks, HoldsTiles (exPB .Left) 3 3 r b1 ((fin r).mat 1)) ∧
        HoldsOn b1 (exPB .Left).row.tileSizes (exPB .Left).col.tileSizes 3 3
          (fun x y => 3 * ∑ l ∈ Finset.range (tileStart (exPB .Left).row.tileSizes 3), triE u d exX x l * exX l y) (fun _ _ => True) := by
  have hD := exD .Left
  let loc : (Params2) → Tiles ℚ → Coord2 → Coord2 → Blk ℚ := fun P m r l =>
    m (((P.at' .Row r).dist.global_tile_from_local_tile l.row).toNat, ((P.at' .Col r).dist.global_tile_from_local_tile l.col).toNat)
  have hst := fun r (hr : r ∈ (exPB .Left).ranks) => C55_workspaces_created (K := ℚ) .Left hD hr (loc exPA (exOf exPA exX) r)
    (loc (exPB .Left) (exOf (exPB .Left) exX) r)
  choose st' hst' using hst
  obtain ⟨v, _, _⟩ := panel_create (K := ℚ) hD.bRow true 0
  obtain ⟨n, f, e1, ⟨_, e2⟩, e3⟩ := C55_distributed_product_left u d (3 : ℚ) hD dbg junk (a := exOf exPA exX) (b := exOf (exPB .Left) exX) (A := exX) (B := exX)
    (fun _ _ _ _ => ⟨rfl, rfl⟩) (fun _ _ _ _ => ⟨rfl, rfl⟩) (fun _ _ _ _ _ _ _ _ _ => rfl) (fun _ _ _ _ _ _ _ _ _ => rfl)
    (fun r h => HoldsTiles.ofMatrix hD.a.row hD.a.col _ (by rw [show exPA.ranks = (exPB .Left).ranks by decide]; exact h) _ _)
    (fun r h => HoldsTiles.ofMatrix hD.bRow hD.bCol _ h _ _)
    (st := fun r => if h : r ∈ (exPB .Left).ranks then st' r h else ⟨fun _ _ => ⟨0, 0, fun _ _ => 0⟩, fun _ _ => v⟩)
    (fun r hr => by rw [dif_pos hr]; exact hst' r hr)
  exact ⟨_, n, f, e1, e2, e3⟩

example (u : Uplo) (d : Diag) (dbg : Bool) (junk : Coord2 → Int → Nat → Nat → Nat → ℚ) : ∃ st : Coord2 → DSt ℚ,
    AlwaysEnds (Conf.init (fun r => if r ∈ (exPB .Right).ranks then distTriMult dbg (junk r) .Right u .NoTrans d 3 (exPA.on r) ((exPB .Right).on r) else []) st)
      fun fin => ∃ b1, (∀ r ∈ (exPB .Right).ranks, HoldsTiles (exPB .Right) 3 3 r b1 ((fin r).mat 1)) ∧
        HoldsOn b1 (exPB .Right).row.tileSizes (exPB .Right).col.tileSizes 3 3
          (fun x y => 3 * ∑ l ∈ Finset.range (tileStart (exPB .Right).col.tileSizes 3), exX x l * triE u d exX l y) (fun _ _ => True) := by
  have hD := exD .Right
  let loc : (Params2) → Tiles ℚ → Coord2 → Coord2 → Blk ℚ := fun P m r l =>
    m (((P.at' .Row r).dist.global_tile_from_local_tile l.row).toNat, ((P.at' .Col r).dist.global_tile_from_local_tile l.col).toNat)
  have hst := fun r (hr : r ∈ (exPB .Right).ranks) => C55_workspaces_created (K := ℚ) .Right hD hr (loc exPA (exOf exPA exX) r)
    (loc (exPB .Right) (exOf (exPB .Right) exX) r)
  choose st' hst' using hst
  obtain ⟨v, _, _⟩ := panel_create (K := ℚ) hD.bRow true 0
  obtain ⟨n, f, e1, ⟨_, e2⟩, e3⟩ := C55_distributed_product_right u d (3 : ℚ) hD dbg junk (a := exOf exPA exX) (b := exOf (exPB .Right) exX) (A := exX) (B := exX)
    (fun _ _ _ _ => ⟨rfl, rfl⟩) (fun _ _ _ _ => ⟨rfl, rfl⟩) (fun _ _ _ _ _ _ _ _ _ => rfl) (fun _ _ _ _ _ _ _ _ _ => rfl)
    (fun r h => HoldsTiles.ofMatrix hD.a.row hD.a.col _ (by rw [show exPA.ranks = (exPB .Right).ranks by decide]; exact h) _ _)
    (fun r h => HoldsTiles.ofMatrix hD.bRow hD.bCol _ h _ _)
    (st := fun r => if h : r ∈ (exPB .Right).ranks then st' r h else ⟨fun _ _ => ⟨0, 0, fun _ _ => 0⟩, fun _ _ => v⟩)
    (fun r hr => by rw [dif_pos hr]; exact hst' r hr)
  exact ⟨_, n, f, e1, e2, e3⟩
end example_

end DLAF
