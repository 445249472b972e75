import Verif.Lemmas.DistMultiplication
import Verif.Props.Multiplication
import Verif.Props.DistCholesky
/-
C54: the distributed general multiplication.

The program of every process is that of Model/DistMultiplication.lean; the machine is that of Model/Spmd.lean.
-/
namespace DLAF
variable {K : Type*} [Field K] [StarRing K] [DecidableEq K]

omit [DecidableEq K] in
/-- The tiles of `C` after `k` updates. -/
def accT (alpha beta : K) (a b c : Tiles K) : Nat → Tiles K
  | 0 => c
  | k + 1 => fun z => ⟨(c z).rows, (c z).cols, fun r q => alpha * ((a (z.1, k)).mul (b (k, z.2))).e r q +
      (if k = 0 then beta else 1) * (accT alpha beta a b c k z).e r q⟩

omit [DecidableEq K] in
theorem accT_shape (alpha beta : K) (a b c : Tiles K) (k : Nat) (z : Nat × Nat) :
    (accT alpha beta a b c k z).rows = (c z).rows ∧ (accT alpha beta a b c k z).cols = (c z).cols := by
  cases k <;> exact ⟨rfl, rfl⟩

omit [DecidableEq K] in
theorem accT_step {rs cs ks : Nat → Nat} {m n k : Nat} {a b c : Tiles K} (alpha beta : K)
    (ha : Shaped a rs ks m k) (hb : Shaped b ks cs k n) (hc : Shaped c rs cs m n) {l : Nat} (hl : l < k) {i j : Nat} (hi : i < m) (hj : j < n) :
    gemm .NoTrans .NoTrans alpha (a (i, l)) (b (l, j)) (if l = 0 then beta else 1) (accT alpha beta a b c l (i, j)) =
      some (accT alpha beta a b c (l + 1) (i, j)) := by
  have hal := ha i hi l hl
  have hbl := hb l hl j hj
  have hcl := hc i hi j hj
  have hs := accT_shape alpha beta a b c l (i, j)
  rw [gemm_some]
  · rw [hs.1, hs.2]
    rfl
  · rw [hs.1, hs.2]
    exact ⟨hal.1.trans hcl.1.symm, hbl.2.trans hcl.2.symm, hal.2.trans hbl.1.symm⟩

/-- The result of the local algorithm. -/
theorem genNN_tiles {rs cs ks : Nat → Nat} {m n k : Nat} {a b c : Tiles K} (alpha beta : K)
    (ha : Shaped a rs ks m k) (hb : Shaped b ks cs k n) (hc : Shaped c rs cs m n) :
    ∃ c1, genNN alpha m n k a b beta c = some c1 ∧ ∀ i < m, ∀ j < n, c1 (i, j) =
      if k = 0 then if beta ≠ 1 then blkScal beta (c (i, j)) else c (i, j) else accT alpha beta a b c k (i, j) := by
  unfold genNN
  by_cases hk : k = 0
  · subst hk
    rw [if_pos rfl]
    by_cases hbeta : beta = 1
    · rw [if_neg (not_not.2 hbeta)]
      exact ⟨c, rfl, fun i _ j _ => by rw [if_pos rfl, if_neg (not_not.2 hbeta)]⟩
    · rw [if_pos hbeta]
      rw [tiles2d_nested (m := m) c fun c z => c.write z (some (blkScal beta (c z)))]
      obtain ⟨c1, h1, h2, -⟩ := tiles2d_loop (m := m) (n := n) (c0 := c)
        (b := fun c z => c.write z (some (blkScal beta (c z)))) (Q := fun z x => x = blkScal beta (c z)) (by
          intro z _ s hs
          refine ⟨_, rfl, ?_, ?_⟩
          · simp [hs]
          · intro y hy; simp [hy])
      refine ⟨c1, h1, fun i hi j hj => ?_⟩
      rw [if_pos rfl, if_pos hbeta, h2 i hi j hj]
  · rw [if_neg hk]
    rw [tiles2d_nested (m := m) c fun c z => forM' (upto 0 k) c fun c l =>
      c.write z (gemm .NoTrans .NoTrans alpha (a (z.1, l)) (b (l, z.2)) (if l = 0 then beta else 1) (c z))]
    obtain ⟨c1, h1, h2, -⟩ := tiles2d_loop (m := m) (n := n) (c0 := c)
      (b := fun c z => forM' (upto 0 k) c fun c l =>
        c.write z (gemm .NoTrans .NoTrans alpha (a (z.1, l)) (b (l, z.2)) (if l = 0 then beta else 1) (c z)))
      (Q := fun z x => x = accT alpha beta a b c k z) (by
      rintro ⟨i, j⟩ hz s hs
      rw [mem_tiles2d] at hz
      obtain ⟨hi, hj⟩ := hz
      simp only at hi hj ⊢
      obtain ⟨s', g1, g2, g3⟩ := forM'_inv (n := k) (b := fun c l =>
          c.write (i, j) (gemm .NoTrans .NoTrans alpha (a (i, l)) (b (l, j)) (if l = 0 then beta else 1) (c (i, j))))
        (fun l s' => s' (i, j) = accT alpha beta a b c l (i, j) ∧ ∀ y, y ≠ (i, j) → s' y = s y) (by
          rintro l hl s' ⟨g1, g2⟩
          rw [g1, accT_step alpha beta ha hb hc hl hi hj]
          refine ⟨_, rfl, by simp, ?_⟩
          intro y hy
          simp only [hy, if_false]
          exact g2 y hy) (s := s) ⟨hs, fun _ _ => rfl⟩
      exact ⟨s', g1, g2, g3⟩)
    refine ⟨c1, h1, fun i hi j hj => ?_⟩
    rw [if_neg hk]
    exact h2 i hi j hj

/-- The state of the processes at the call. -/
theorem genInit_idle {PA PB PC : Params2} (hD : MulDist PA PB PC) (hne : ¬ (PC.row.size = 0 ∨ PC.col.size = 0)) {r : Coord2} (hr : r ∈ PC.ranks) {a b c : Coord2 → Blk K} {x : DSt K}
    (hx : distGenInit (PA.on r) (PB.on r) a b c = some x) :
    DIdle (genEnv PA PB PC) r (fun n => if n = 0 then a else if n = 1 then b else c) x := by
  have hE := genEnv_ok hD
  have pA := hE.crd 0 hr
  have pB := hE.crd 1 hr
  have hA0 : 0 ≤ PA.row.size := hD.aRow.valid.1
  have hB0 : 0 ≤ PB.col.size := hD.bCol.valid.1
  have hAs : PA.row.size = PC.row.size := by rw [hD.rows]
  have hBs : PB.col.size = PC.col.size := by rw [hD.cols]
  obtain ⟨v, c1, c2⟩ := panel_create_tiled (K := K) pA true PA.col.tile (Or.inr (show 0 < PA.row.size by omega))
  obtain ⟨w, d1, d2⟩ := panel_create_tiled (K := K) pB false PB.row.tile (Or.inr (show 0 < PB.col.size by omega))
  unfold distGenInit mkPanels at hx
  have e1 : VPanel.create (K := K) (isTall .Col) ((PA.on r).get Coord.Col.orth) ((PA.on r).get .Col).tileSize = some v := c1
  have e2 : VPanel.create (K := K) (isTall .Row) ((PB.on r).get Coord.Row.orth) ((PB.on r).get .Row).tileSize = some w := d1
  rw [e1, e2] at hx
  simp only [Option.map_some, Option.bind_some, Option.some.injEq] at hx
  subst hx
  refine ⟨rfl, fun n b => ?_⟩
  rcases n with _ | n
  · exact ⟨0, _, fun _ => rfl, fun _ => rfl, le_refl _, c2⟩
  · refine ⟨0, _, fun _ => rfl, fun _ => rfl, le_refl _, d2⟩

/-- The matrices at the call. -/
theorem genInit_mat {PA PB : Params2} {r : Coord2} {a b c : Coord2 → Blk K} {x : DSt K} (hx : distGenInit (PA.on r) (PB.on r) a b c = some x) :
    x.mat = fun n => if n = 0 then a else if n = 1 then b else c := by
  unfold distGenInit at hx
  cases h1 : mkPanels (K := K) .Col (PA.on r) with
  | none => rw [h1] at hx; cases hx
  | some v =>
    cases h2 : mkPanels (K := K) .Row (PB.on r) with
    | none => rw [h1, h2] at hx; cases hx
    | some w =>
      rw [h1, h2] at hx
      simp only [Option.map_some, Option.bind_some, Option.some.injEq] at hx
      rw [← hx]

/-- The construction of the workspaces never fails. -/
theorem C54_workspaces_created {PA PB PC : Params2} (hD : MulDist PA PB PC) {r : Coord2} (hr : r ∈ PC.ranks) (a b c : Coord2 → Blk K) :
    ∃ x, distGenInit (PA.on r) (PB.on r) a b c = some x := by
  have hE := genEnv_ok hD
  obtain ⟨v, c1⟩ := panel_create_some (K := K) (hE.crd 0 hr) true PA.col.tile
  obtain ⟨w, d1⟩ := panel_create_some (K := K) (hE.crd 1 hr) false PB.row.tile
  unfold distGenInit mkPanels
  have e1 : VPanel.create (K := K) (isTall .Col) ((PA.on r).get Coord.Col.orth) ((PA.on r).get .Col).tileSize = some v := c1
  have e2 : VPanel.create (K := K) (isTall .Row) ((PB.on r).get Coord.Row.orth) ((PB.on r).get .Row).tileSize = some w := d1
  rw [e1, e2]
  exact ⟨_, rfl⟩

theorem ntn_zero {p : Params} (hp : Tiled p) : p.size = 0 ↔ p.ntn = 0 := by
  have h0 := hp.nrTiles_nonneg
  unfold Params.ntn
  constructor
  · intro h
    by_contra hc
    have := hp.valid.wf.size_pos_of (by omega)
    have : 0 < p.size := this
    omega
  · intro h
    by_contra hc
    have hs : 0 ≤ p.size := hp.valid.1
    have := hp.valid.wf.nrTiles_pos (show 0 < p.dist.size from by show 0 < p.size; omega)
    omega

/-- A complete run of the distributed multiplication, from any state between collectives. -/
theorem gen_runs {PA PB PC : Params2} (hD : MulDist PA PB PC) (dbg : Bool) (alpha beta : K) {a b c c1 : Tiles K}
    (ha : Shaped a PA.row.tileSizes PA.col.tileSizes PA.row.ntn PA.col.ntn)
    (hb : Shaped b PB.row.tileSizes PB.col.tileSizes PB.row.ntn PB.col.ntn)
    (hc : Shaped c PC.row.tileSizes PC.col.tileSizes PC.row.ntn PC.col.ntn)
    (hloc : generalMatrix .NoTrans .NoTrans alpha PC.row.ntn PC.col.ntn PA.col.ntn a b beta c = some c1)
    {ma mb mc : Coord2 → Coord2 → Blk K} (hma : ∀ r ∈ PC.ranks, HoldsTiles PA PA.row.ntn PA.col.ntn r a (ma r))
    (hmb : ∀ r ∈ PC.ranks, HoldsTiles PB PB.row.ntn PB.col.ntn r b (mb r))
    (hmc : ∀ r ∈ PC.ranks, HoldsTiles PC PC.row.ntn PC.col.ntn r c (mc r))
    {g0 : Glob (DSt K) (Blk K)} (hcl : Clean PC.ranks g0)
    (hst : ∀ r ∈ PC.ranks, distGenInit (PA.on r) (PB.on r) (ma r) (mb r) (mc r) = some (g0.st r)) :
    ∃ g', Runs (fun r => if r ∈ PC.ranks then distGenNN dbg alpha beta (PA.on r) (PB.on r) (PC.on r) else []) g0 g' ∧ Clean PC.ranks g' ∧
      ∀ r ∈ PC.ranks, HoldsTiles PC PC.row.ntn PC.col.ntn r c1 ((g'.st r).mat 2) ∧
        HoldsTiles PA PA.row.ntn PA.col.ntn r a ((g'.st r).mat 0) ∧ HoldsTiles PB PB.row.ntn PB.col.ntn r b ((g'.st r).mat 1) := by
  have hE := genEnv_ok hD
  have hPA : PA.ranks = PC.ranks := hE.ranks 0
  have hPB : PB.ranks = PC.ranks := hE.ranks 1
  have hpcr : Tiled PC.row := hD.rows ▸ hD.aRow
  have hpcc : Tiled PC.col := hD.cols ▸ hD.bCol
  have hnAB : PA.col.dist.nrTiles = PB.row.dist.nrTiles := hD.aCol.nrTiles_eq hD.bRow hD.size hD.tile hD.inner
  have hkAB : PB.row.ntn = PA.col.ntn := by unfold Params.ntn; rw [hnAB]
  have hts : PB.row.tileSizes = PA.col.tileSizes := by
    funext i
    unfold Params.tileSizes
    rw [hD.aCol.tile_size_eq hD.bRow hD.size hD.tile hD.inner i]
  have ha' : Shaped a PC.row.tileSizes PA.col.tileSizes PC.row.ntn PA.col.ntn := by rw [← hD.rows]; exact ha
  have hb' : Shaped b PA.col.tileSizes PC.col.tileSizes PA.col.ntn PC.col.ntn := by rw [← hD.cols, ← hkAB, ← hts]; exact hb
  obtain ⟨c1', hc1', htile⟩ := genNN_tiles alpha beta ha' hb' hc
  have hcc : c1' = c1 := by
    have : genNN alpha PC.row.ntn PC.col.ntn PA.col.ntn a b beta c = some c1 := hloc
    rw [hc1'] at this
    exact Option.some.inj this
  subst hcc
  let V : Tiles K → (Nat → Coord2 → Blk K) → Coord2 → Prop := fun c m r =>
    LView PA .Col r a (m 0) ∧ LView PB .Col r b (m 1) ∧ LView PC .Col r c (m 2)
  let M0 : Coord2 → Nat → Coord2 → Blk K := fun r n => if n = 0 then ma r else if n = 1 then mb r else mc r
  have hV0 : ∀ r ∈ PC.ranks, V c (M0 r) r := fun r hr =>
    ⟨.of_holds hD.aRow hD.aCol (hPA ▸ hr) (hma r hr), .of_holds hD.bRow hD.bCol (hPB ▸ hr) (hmb r hr), .of_holds hpcr hpcc hr (hmc r hr)⟩
  by_cases hz : PC.row.size = 0 ∨ PC.col.size = 0
  · have hz' : ∀ i < PC.row.ntn, ∀ j < PC.col.ntn, False := by
      intro i hi j hj
      rcases hz with h | h
      · have := (ntn_zero hpcr).1 h; omega
      · have := (ntn_zero hpcc).1 h; omega
    have hprog : (fun r => if r ∈ PC.ranks then distGenNN dbg alpha beta (PA.on r) (PB.on r) (PC.on r) else []) = fun _ => [] := by
      funext r
      unfold distGenNN
      rw [if_pos (show (PC.on r).row.size = 0 ∨ (PC.on r).col.size = 0 from hz), ite_self]
    rw [hprog]
    refine ⟨g0, Runs.nil (fun _ => rfl) g0, hcl, fun r hr => ?_⟩
    rw [show (g0.st r).mat = M0 r from genInit_mat (hst r hr)]
    obtain ⟨v1, v2, v3⟩ := hV0 r hr
    exact ⟨fun i hi j hj => (hz' i hi j hj).elim, v1.holds hD.aRow hD.aCol (hPA ▸ hr), v2.holds hD.bRow hD.bCol (hPB ▸ hr)⟩
  have hI0 : GIdle (genEnv PA PB PC) M0 g0 := ⟨hcl, fun r hr => genInit_idle hD hz hr (hst r hr)⟩
  suffices H : ∃ g' M', Runs (fun r => if r ∈ PC.ranks then distGenNN dbg alpha beta (PA.on r) (PB.on r) (PC.on r) else []) g0 g' ∧
      GIdle (genEnv PA PB PC) M' g' ∧ ∃ c2, (∀ i < PC.row.ntn, ∀ j < PC.col.ntn, c2 (i, j) = c1' (i, j)) ∧ ∀ r ∈ PC.ranks, V c2 (M' r) r by
    obtain ⟨g', M', h1, h2, c2, h3, h4⟩ := H
    refine ⟨g', h1, h2.clean, fun r hr => ?_⟩
    have hm := (h2.all r hr).mat
    obtain ⟨v1, v2, v3⟩ := h4 r hr
    rw [hm]
    refine ⟨?_, v1.holds hD.aRow hD.aCol (hPA ▸ hr), v2.holds hD.bRow hD.bCol (hPB ▸ hr)⟩
    intro i hi j hj oi oj
    rw [v3.holds hpcr hpcc hr i hi j hj oi oj, h3 i hi j hj]
  unfold distGenNN
  by_cases hk : PA.col.ntn = 0
  · have hk' : ∀ r, (PA.on r).col.nrTiles = 0 := fun r => by
      show PA.col.dist.nrTiles = 0
      have := hD.aCol.nrTiles_nonneg
      unfold Params.ntn at hk
      omega
    by_cases hbeta : beta = 1
    · refine ⟨g0, M0, ?_, hI0, c, fun i hi j hj => ?_, hV0⟩
      · refine Runs.nil (fun r => ?_) _
        rw [if_neg (show ¬ ((PC.on r).row.size = 0 ∨ (PC.on r).col.size = 0) from hz), if_pos (hk' r), if_neg (not_not.2 hbeta), ite_self]
      · rw [htile i hi j hj, if_pos hk, if_neg (not_not.2 hbeta)]
    · let zs : Coord2 → List Coord2 := fun r => (irange 0 (PC.at' .Col r).dist.localNrTiles).flatMap fun j =>
        (irange 0 (PC.at' .Row r).dist.localNrTiles).map fun i => (⟨j, i⟩ : Coord2)
      let pos : Coord2 → Coord2 := fun z => ⟨z.col, z.row⟩
      let c2 : Tiles K := fun z => blkScal beta (c z)
      let M' : Coord2 → Nat → Coord2 → Blk K := fun r => set1 (M0 r) 2 fun z => if z ∈ (zs r).map pos then blkScal beta (M0 r 2 z) else M0 r 2 z
      obtain ⟨g', r1, i1⟩ := GStep.iter (E := genEnv PA PB PC) (w := false) (M := M0) (M' := M')
        (p := fun r => ((zs r).map fun z => DSt.task 2 (pos z) fun c => some (blkScal beta c)).map Instr.loc) (by
          intro ss se hss
          refine ⟨fun r => ⟨M' r, fun n => ⟨(genEnv PA PB PC).tile n, ss r n, se r n, fun _ => none⟩⟩, GStep.locals hE fun r hr => ?_,
            fun r hr => ⟨rfl, fun n => ?_⟩⟩
          · refine (LStep.tasks (n := 2) (zs r) _ pos (fun z => blkScal beta (M0 r 2 z)) ?_ ?_).to ?_
            · refine (prodRange_nodup _ _).map fun x y h => ?_
              obtain ⟨x1, x2⟩ := x
              obtain ⟨y1, y2⟩ := y
              simp only [pos, Coord2.mk.injEq] at h ⊢
              exact ⟨h.2, h.1⟩
            · intro z hz' m hm _
              refine .one fun x hx => ?_
              obtain ⟨x', e, h⟩ := hx.task (n := 2) (idx := pos z) (f := fun c => some (blkScal beta c)) (v := blkScal beta (M0 r 2 (pos z)))
                (by rw [Abs.setMat_same, hm])
              refine ⟨x', e, ?_⟩
              rw [Abs.setMat_same] at h
              unfold Abs.setMat at h ⊢
              dsimp only at h ⊢
              rw [set1_set1] at h
              exact h
            · rfl
          · exact ⟨rfl, rfl, hss r hr n⟩) hI0
      refine ⟨g', M', r1.congr fun r => ?_, i1, c2, fun i hi j hj => ?_, fun r hr => ?_⟩
      · rw [if_neg (show ¬ ((PC.on r).row.size = 0 ∨ (PC.on r).col.size = 0) from hz), if_pos (hk' r), if_pos hbeta]
        by_cases hr : r ∈ PC.ranks
        · rw [if_pos hr, if_pos (show r ∈ (genEnv PA PB PC).G from hr), flatMap_map_pair, List.map_map]
          rfl
        · rw [if_neg hr, if_neg (show ¬ r ∈ (genEnv PA PB PC).G from hr)]
      · rw [htile i hi j hj, if_pos hk, if_pos hbeta]
      · obtain ⟨v1, v2, v3⟩ := hV0 r hr
        refine ⟨v1, v2, fun i j hi hi' hj hj' => ?_⟩
        show (if _ then _ else _) = _
        rw [if_pos]
        · show blkScal beta (M0 r 2 (tileAt .Col i j)) = blkScal beta (c _)
          rw [v3 i j hi hi' hj hj']
        · exact List.mem_map.2 ⟨⟨j, i⟩, mem_prodRange.2 ⟨⟨hj, hj'⟩, hi, hi'⟩, rfl⟩
  · obtain ⟨g', r1, M', i1, i2⟩ := Runs.range (p := fun t r => if r ∈ PC.ranks then genStep dbg alpha beta (PA.on r) (PB.on r) (PC.on r) t else [])
      (s := 0) (e := PA.col.dist.nrTiles) hD.aCol.nrTiles_nonneg
      (fun t g => ∃ M, GIdle (genEnv PA PB PC) M g ∧ ∀ r ∈ PC.ranks, V (accT alpha beta a b c t.toNat) (M r) r) (g := g0) ⟨M0, hI0, hV0⟩ (by
        rintro t h0 h1 g ⟨M, hg, hv⟩
        obtain ⟨k, rfl⟩ : ∃ k : Nat, t = k := ⟨t.toNat, by omega⟩
        have hk1 : k < PA.col.ntn := by unfold Params.ntn; omega
        obtain ⟨g', M', q1, q2, q3⟩ := gen_step (dbg := dbg) (alpha := alpha) (beta := beta) hD hk1 (c := accT alpha beta a b c k)
          (c' := accT alpha beta a b c (k + 1)) ha hb (fun i hi j hj => accT_step alpha beta ha' hb' hc hk1 hi hj) hv hg
        refine ⟨g', q1, M', q2, ?_⟩
        rw [show ((k : Int) + 1).toNat = k + 1 by omega]
        exact q3)
    refine ⟨g', M', r1.congr fun r => ?_, i1, _, fun i hi j hj => ?_, i2⟩
    · by_cases hr : r ∈ PC.ranks
      · have hk' : ¬ (PA.on r).col.nrTiles = 0 := by
          show ¬ PA.col.dist.nrTiles = 0
          unfold Params.ntn at hk
          omega
        simp only [if_pos hr]
        rw [if_neg (show ¬ ((PC.on r).row.size = 0 ∨ (PC.on r).col.size = 0) from hz), if_neg hk']
        rfl
      · simp [hr]
    · rw [htile i hi j hj, if_neg hk]

/-- C54.  For every grid, source ranks and tile sizes, and all matrices whose tiles fit: under every schedule of the processes the
distributed multiplication ends without abort or deadlock; every process then holds its tiles of the matrix the local multiplication
computes, and its tiles of `A` and `B` as before. -/
theorem C54_distributed_general {PA PB PC : Params2} (hD : MulDist PA PB PC) (dbg : Bool) (alpha beta : K) {a b c c1 : Tiles K}
    (ha : Shaped a PA.row.tileSizes PA.col.tileSizes PA.row.ntn PA.col.ntn)
    (hb : Shaped b PB.row.tileSizes PB.col.tileSizes PB.row.ntn PB.col.ntn)
    (hc : Shaped c PC.row.tileSizes PC.col.tileSizes PC.row.ntn PC.col.ntn)
    (hloc : generalMatrix .NoTrans .NoTrans alpha PC.row.ntn PC.col.ntn PA.col.ntn a b beta c = some c1)
    {ma mb mc : Coord2 → Coord2 → Blk K} (hma : ∀ r ∈ PC.ranks, HoldsTiles PA PA.row.ntn PA.col.ntn r a (ma r))
    (hmb : ∀ r ∈ PC.ranks, HoldsTiles PB PB.row.ntn PB.col.ntn r b (mb r))
    (hmc : ∀ r ∈ PC.ranks, HoldsTiles PC PC.row.ntn PC.col.ntn r c (mc r))
    {st : Coord2 → DSt K} (hst : ∀ r ∈ PC.ranks, distGenInit (PA.on r) (PB.on r) (ma r) (mb r) (mc r) = some (st r)) :
    AlwaysEnds (Conf.init (fun r => if r ∈ PC.ranks then distGenNN dbg alpha beta (PA.on r) (PB.on r) (PC.on r) else []) st) fun fin =>
      ∀ r ∈ PC.ranks, HoldsTiles PC PC.row.ntn PC.col.ntn r c1 ((fin r).mat 2) ∧
        HoldsTiles PA PA.row.ntn PA.col.ntn r a ((fin r).mat 0) ∧ HoldsTiles PB PB.row.ntn PB.col.ntn r b ((fin r).mat 1) := by
  obtain ⟨g', h1, h2, h3⟩ := gen_runs hD dbg alpha beta ha hb hc hloc hma hmb hmc (g0 := ⟨st, fun _ _ => 0, fun _ _ _ => none⟩)
    (Clean.init _ _) hst
  exact h1.alwaysEnds h3

/-- C54 with C32: the processes hold `alpha A B + beta C`. -/
theorem C54_distributed_product {PA PB PC : Params2} (hD : MulDist PA PB PC) (dbg : Bool) (alpha beta : K) {a b c : Tiles K}
    (ha : Shaped a PA.row.tileSizes PA.col.tileSizes PA.row.ntn PA.col.ntn)
    (hb : Shaped b PB.row.tileSizes PB.col.tileSizes PB.row.ntn PB.col.ntn)
    (hc : Shaped c PC.row.tileSizes PC.col.tileSizes PC.row.ntn PC.col.ntn) {A B C : Nat → Nat → K}
    (hA : HoldsOn a PA.row.tileSizes PA.col.tileSizes PA.row.ntn PA.col.ntn A fun _ _ => True)
    (hB : HoldsOn b PB.row.tileSizes PB.col.tileSizes PB.row.ntn PB.col.ntn B fun _ _ => True)
    (hC : HoldsOn c PC.row.tileSizes PC.col.tileSizes PC.row.ntn PC.col.ntn C fun _ _ => True)
    {ma mb mc : Coord2 → Coord2 → Blk K} (hma : ∀ r ∈ PC.ranks, HoldsTiles PA PA.row.ntn PA.col.ntn r a (ma r))
    (hmb : ∀ r ∈ PC.ranks, HoldsTiles PB PB.row.ntn PB.col.ntn r b (mb r))
    (hmc : ∀ r ∈ PC.ranks, HoldsTiles PC PC.row.ntn PC.col.ntn r c (mc r))
    {st : Coord2 → DSt K} (hst : ∀ r ∈ PC.ranks, distGenInit (PA.on r) (PB.on r) (ma r) (mb r) (mc r) = some (st r)) :
    AlwaysEnds (Conf.init (fun r => if r ∈ PC.ranks then distGenNN dbg alpha beta (PA.on r) (PB.on r) (PC.on r) else []) st) fun fin =>
      ∃ c1, (∀ r ∈ PC.ranks, HoldsTiles PC PC.row.ntn PC.col.ntn r c1 ((fin r).mat 2)) ∧
        HoldsOn c1 PC.row.tileSizes PC.col.tileSizes PC.row.ntn PC.col.ntn
          (fun x y => alpha * ∑ l ∈ Finset.range (tileStart PA.col.tileSizes PA.col.ntn), A x l * B l y + beta * C x y) (fun _ _ => True) := by
  have hnAB : PA.col.dist.nrTiles = PB.row.dist.nrTiles := hD.aCol.nrTiles_eq hD.bRow hD.size hD.tile hD.inner
  have hkAB : PB.row.ntn = PA.col.ntn := by unfold Params.ntn; rw [hnAB]
  have hts : PB.row.tileSizes = PA.col.tileSizes := by
    funext i
    unfold Params.tileSizes
    rw [hD.aCol.tile_size_eq hD.bRow hD.size hD.tile hD.inner i]
  obtain ⟨c1, h1, _, h2⟩ := C32_general (m := PC.row.ntn) (n := PC.col.ntn) (k := PA.col.ntn) (rs := PC.row.tileSizes) (cs := PC.col.tileSizes)
    (ks := PA.col.tileSizes) alpha beta (by rw [← hD.rows]; exact ha) (by rw [← hD.cols, ← hkAB, ← hts]; exact hb) hc
    (by rw [← hD.rows]; exact hA) (by rw [← hD.cols, ← hkAB, ← hts]; exact hB) hC
  obtain ⟨n, f, a1, a2, a3⟩ := C54_distributed_general hD dbg alpha beta ha hb hc h1 hma hmb hmc hst
  exact ⟨n, f, a1, ⟨c1, fun r hr => (a2 r hr).1, h2⟩, a3⟩

omit [Field K] [StarRing K] [DecidableEq K] in
/-- The collectives of the broadcast of a panel are the same on all members. -/
theorem bcastPanel_same {S : Type*} {P : Params2} {axis : Coord} (hP : Tiled (P.get axis.orth)) (dbg : Bool) (root : Int) (R : PRef S K) {s e : Int}
    (hs : 0 ≤ s) (hse : s ≤ e) {c : Chan} {r q : Coord2} (hr : r ∈ P.ranks) (hq : q ∈ P.ranks) (h1 : c.has r = true) (h2 : c.has q = true) :
    sigs c (bcastPanel dbg axis (P.on r) root R s e) = sigs c (bcastPanel dbg axis (P.on q) root R s e) := by
  rw [bcastPanel_sigs hP hr dbg root R hs hse, bcastPanel_sigs hP hq dbg root R hs hse]
  rcases chan_mem (axis := axis) h1 with (rfl | rfl) | n1
  · have hqr := (chan_has axis r q).1 h2
    rw [chan_eq axis hqr, hqr]
  · have n1 : ∀ r', ¬ panelChan axis r' = panelChan axis.orth r := fun r' h => chan_ne axis r' r h
    simp [n1]
  · simp [n1]

/-- C54.  All members of each row and column communicator perform the same sequence of collectives. -/
theorem C54_same_collectives {PA PB PC : Params2} (hD : MulDist PA PB PC) (dbg : Bool) (alpha beta : K) :
    SameCollectives PC.ranks (fun r => distGenNN dbg alpha beta (PA.on r) (PB.on r) (PC.on r)) := by
  have hE := genEnv_ok hD
  have hPA : PA.ranks = PC.ranks := hE.ranks 0
  have hPB : PB.ranks = PC.ranks := hE.ranks 1
  intro c r hr q hq h1 h2
  show sigs c (distGenNN dbg alpha beta (PA.on r) (PB.on r) (PC.on r)) = sigs c (distGenNN dbg alpha beta (PA.on q) (PB.on q) (PC.on q))
  unfold distGenNN
  by_cases hz : PC.row.size = 0 ∨ PC.col.size = 0
  · rw [if_pos (show (PC.on r).row.size = 0 ∨ (PC.on r).col.size = 0 from hz), if_pos (show (PC.on q).row.size = 0 ∨ (PC.on q).col.size = 0 from hz)]
  rw [if_neg (show ¬ ((PC.on r).row.size = 0 ∨ (PC.on r).col.size = 0) from hz),
    if_neg (show ¬ ((PC.on q).row.size = 0 ∨ (PC.on q).col.size = 0) from hz)]
  by_cases hk : PA.col.dist.nrTiles = 0
  · rw [if_pos (show (PA.on r).col.nrTiles = 0 from hk), if_pos (show (PA.on q).col.nrTiles = 0 from hk)]
    have key : ∀ r, sigs c ((irange 0 (PC.on r).col.localNrTiles).flatMap fun j => (irange 0 (PC.on r).row.localNrTiles).map fun i =>
        (Instr.loc (DSt.task 2 ⟨i, j⟩ fun c => some (blkScal beta c)) : Instr (DSt K) (Blk K))) = [] := by
      intro r
      rw [sigs_flatMap]
      refine List.flatMap_eq_nil_iff.2 fun j _ => ?_
      rw [show ((irange 0 (PC.on r).row.localNrTiles).map fun i => (Instr.loc (DSt.task 2 ⟨i, j⟩ fun c => some (blkScal beta c)) :
        Instr (DSt K) (Blk K))) = (((irange 0 (PC.on r).row.localNrTiles).map fun i => DSt.task (K := K) 2 ⟨i, j⟩ fun c => some (blkScal beta c)).map Instr.loc)
          by rw [List.map_map]; rfl]
      exact sigs_locs _ _
    split
    · rw [key, key]
    · rfl
  · rw [if_neg (show ¬ (PA.on r).col.nrTiles = 0 from hk), if_neg (show ¬ (PA.on q).col.nrTiles = 0 from hk), sigs_flatMap, sigs_flatMap]
    refine List.flatMap_congr fun k hk => ?_
    unfold genStep
    simp only [sigs_append, sigs_locs, List.nil_append]
    congr 1
    congr 1
    · congr 1
      · exact bcastPanel_same (axis := .Col) hD.aRow dbg _ _ (le_refl _) hD.aRow.nrTiles_nonneg (hPA ▸ hr) (hPA ▸ hq) h1 h2
      · exact bcastPanel_same (axis := .Row) hD.bCol dbg _ _ (le_refl _) hD.bCol.nrTiles_nonneg (hPB ▸ hr) (hPB ▸ hq) h1 h2

/-! ### The source ranks are not checked -/

section source_ranks
/-- What `multipliable` (util_matrix.h:133-154) and `equal_process_grid` check for matrices without offset: sizes, tile sizes and grids. -/
def Multipliable (PA PB PC : Params2) : Prop :=
  PA.row.size = PC.row.size ∧ PA.col.size = PB.row.size ∧ PB.col.size = PC.col.size ∧
  PA.row.tile = PC.row.tile ∧ PA.col.tile = PB.row.tile ∧ PB.col.tile = PC.col.tile ∧
  PA.row.grid = PC.row.grid ∧ PB.row.grid = PC.row.grid ∧ PA.col.grid = PC.col.grid ∧ PB.col.grid = PC.col.grid

instance (PA PB PC : Params2) : Decidable (Multipliable PA PB PC) := by unfold Multipliable; infer_instance

/- On a grid of 2 x 1 processes: `A` (2 x 1) starts on process 0, `C` (2 x 1) on process 1. -/
private def qA : Params2 := ⟨⟨2, 1, 1, 2, 0, 0, 0⟩, ⟨1, 1, 1, 1, 0, 0, 0⟩⟩
private def qB : Params2 := ⟨⟨1, 1, 1, 2, 0, 0, 0⟩, ⟨1, 1, 1, 1, 0, 0, 0⟩⟩
private def qC : Params2 := ⟨⟨2, 1, 1, 2, 0, 1, 0⟩, ⟨1, 1, 1, 1, 0, 0, 0⟩⟩
private def qM (f : Nat → ℚ) : Tiles ℚ := fun z => ⟨1, 1, fun _ _ => f z.1⟩

/-- The preconditions that are checked do not suffice: with `A = (1, 2)ᵀ`, `B = (1)`, `C = (0, 0)ᵀ`, where `A` and `C` start on
different processes, all preconditions hold, and the multiplication `C = A B` ends with `(2, 1)ᵀ`. -/
theorem C54_source_ranks_not_checked : ∃ (PA PB PC : Params2) (a b c : Tiles ℚ) (st : Coord2 → DSt ℚ), Multipliable PA PB PC ∧
    Plain PA.row ∧ Plain PA.col ∧ Plain PB.row ∧ Plain PB.col ∧ Plain PC.row ∧ Plain PC.col ∧
    Shaped a PA.row.tileSizes PA.col.tileSizes PA.row.ntn PA.col.ntn ∧ Shaped b PB.row.tileSizes PB.col.tileSizes PB.row.ntn PB.col.ntn ∧
    Shaped c PC.row.tileSizes PC.col.tileSizes PC.row.ntn PC.col.ntn ∧
    (∃ ma mb mc : Coord2 → Coord2 → Blk ℚ, ∀ r ∈ PC.ranks, HoldsTiles PA PA.row.ntn PA.col.ntn r a (ma r) ∧ HoldsTiles PB PB.row.ntn PB.col.ntn r b (mb r) ∧
      HoldsTiles PC PC.row.ntn PC.col.ntn r c (mc r) ∧ distGenInit (PA.on r) (PB.on r) (ma r) (mb r) (mc r) = some (st r)) ∧
    AlwaysEnds (Conf.init (fun r => if r ∈ PC.ranks then distGenNN true 1 0 (PA.on r) (PB.on r) (PC.on r) else []) st) fun fin =>
      ∀ c1, (∀ r ∈ PC.ranks, HoldsTiles PC PC.row.ntn PC.col.ntn r c1 ((fin r).mat 2)) →
        c1 (0, 0) ≠ ⟨1, 1, fun _ _ => 1⟩ ∧ (c1 (0, 0)).e 0 0 = 2 ∧ (c1 (1, 0)).e 0 0 = 1 := by
  have hD : MulDist qA qB qA := by decide
  let fA : Nat → ℚ := fun i => if i = 0 then 1 else 2
  let loc : (Params2) → Tiles ℚ → Coord2 → Coord2 → Blk ℚ := fun P m r l =>
    m (((P.at' .Row r).dist.global_tile_from_local_tile l.row).toNat, ((P.at' .Col r).dist.global_tile_from_local_tile l.col).toNat)
  have hst := fun r (hr : r ∈ qA.ranks) => C54_workspaces_created (K := ℚ) hD hr (loc qA (qM fA) r) (loc qB (qM fun _ => 1) r)
    (loc qC (qM fun _ => 0) r)
  choose st' hst' using hst
  obtain ⟨v, _⟩ := panel_create_some (K := ℚ) hD.aRow true 0
  let st : Coord2 → DSt ℚ := fun r => if h : r ∈ qA.ranks then st' r h else ⟨fun _ _ => ⟨0, 0, fun _ _ => 0⟩, fun _ _ => v⟩
  have hsA : Shaped (qM fA) qA.row.tileSizes qA.col.tileSizes qA.row.ntn qA.col.ntn := by
    intro i hi j hj
    have hi' : i < 2 := hi
    have hj' : j < 1 := hj
    interval_cases i <;> interval_cases j <;> exact ⟨by decide, by decide⟩
  have hsB : Shaped (qM fun _ => 1) qB.row.tileSizes qB.col.tileSizes qB.row.ntn qB.col.ntn := by
    intro i hi j hj
    have hi' : i < 1 := hi
    have hj' : j < 1 := hj
    interval_cases i <;> interval_cases j <;> exact ⟨by decide, by decide⟩
  have hsC : Shaped (qM fun _ => 0) qC.row.tileSizes qC.col.tileSizes qC.row.ntn qC.col.ntn := by
    intro i hi j hj
    have hi' : i < 2 := hi
    have hj' : j < 1 := hj
    interval_cases i <;> interval_cases j <;> exact ⟨by decide, by decide⟩
  have hsC' : Shaped (qM fun _ => 0) qA.row.tileSizes qA.col.tileSizes qA.row.ntn qA.col.ntn := by
    intro i hi j hj
    have hi' : i < 2 := hi
    have hj' : j < 1 := hj
    interval_cases i <;> interval_cases j <;> exact ⟨by decide, by decide⟩
  have hr : qC.ranks = qA.ranks := by decide
  have hC0 : ∀ r ∈ qA.ranks, HoldsTiles qA 2 1 r (qM fun _ => 0) (loc qC (qM fun _ => 0) r) := fun r _ i _ j _ _ _ => rfl
  refine ⟨qA, qB, qC, qM fA, qM fun _ => 1, qM fun _ => 0, st, by decide, by decide, by decide, by decide, by decide, by decide, by decide,
    hsA, hsB, hsC, ⟨loc qA (qM fA), loc qB (qM fun _ => 1), loc qC (qM fun _ => 0), fun r h => ?_⟩, ?_⟩
  · rw [hr] at h
    refine ⟨HoldsTiles.ofMatrix hD.aRow hD.aCol _ h _ _, HoldsTiles.ofMatrix hD.bRow hD.bCol _ (by rw [show qB.ranks = qA.ranks by decide]; exact h) _ _,
      HoldsTiles.ofMatrix (by decide) (by decide) _ (by rw [hr]; exact h) _ _, ?_⟩
    show _ = some (dite _ _ _)
    rw [dif_pos h]
    exact hst' r h
  · obtain ⟨n, f, a1, ⟨c1, a2, a3⟩, a4⟩ := C54_distributed_product hD true (1 : ℚ) 0 (a := qM fA) (b := qM fun _ => 1) (c := qM fun _ => 0)
      (A := fun i _ => fA i) (B := fun _ _ => 1) (C := fun _ _ => 0) hsA hsB hsC'
      (by
        intro i hi j hj r hr q hq _
        have hi' : i < 2 := hi
        have hj' : j < 1 := hj
        interval_cases i <;> interval_cases j <;> (
          have h1 : r < 1 := hr
          have h2 : q < 1 := hq
          interval_cases r <;> interval_cases q <;> rfl))
      (fun _ _ _ _ _ _ _ _ _ => rfl) (fun _ _ _ _ _ _ _ _ _ => rfl)
      (ma := loc qA (qM fA)) (mb := loc qB (qM fun _ => 1)) (mc := loc qC (qM fun _ => 0))
      (fun r h => HoldsTiles.ofMatrix hD.aRow hD.aCol _ h _ _)
      (fun r h => HoldsTiles.ofMatrix hD.bRow hD.bCol _ (by rw [show qB.ranks = qA.ranks by decide]; exact h) _ _)
      hC0 (st := st) (fun r h => by
        show _ = some (dite _ _ _)
        rw [dif_pos h]
        exact hst' r h)
    have hprog : (fun r => if r ∈ qC.ranks then distGenNN true (1 : ℚ) 0 (qA.on r) (qB.on r) (qC.on r) else []) =
        fun r => if r ∈ qA.ranks then distGenNN true (1 : ℚ) 0 (qA.on r) (qB.on r) (qA.on r) else [] := by
      funext r
      rw [hr]
      by_cases h : r ∈ qA.ranks
      · rw [if_pos h, if_pos h]
        have h' : r = ⟨0, 0⟩ ∨ r = ⟨1, 0⟩ := by
          have : qA.ranks = [⟨0, 0⟩, ⟨1, 0⟩] := by decide
          rw [this] at h
          simpa using h
        rcases h' with rfl | rfl <;> rfl
      · rw [if_neg h, if_neg h]
    rw [hprog]
    refine ⟨n, f, a1, fun d hd => ?_, a4⟩
    have e0 : c1 (0, 0) = d (1, 0) := by
      have x1 := a2 ⟨0, 0⟩ (by decide) 0 (by decide) 0 (by decide) (by decide) (by decide)
      have x2 := hd ⟨0, 0⟩ (by decide) 1 (by decide) 0 (by decide) (by decide) (by decide)
      rw [← x1, ← x2]
      rfl
    have e1 : c1 (1, 0) = d (0, 0) := by
      have x1 := a2 ⟨1, 0⟩ (by decide) 1 (by decide) 0 (by decide) (by decide) (by decide)
      have x2 := hd ⟨1, 0⟩ (by decide) 0 (by decide) 0 (by decide) (by decide) (by decide)
      rw [← x1, ← x2]
      rfl
    have v0 := a3 0 (by decide) 0 (by decide) 0 (by decide) 0 (by decide) trivial
    have v1 := a3 1 (by decide) 0 (by decide) 0 (by decide) 0 (by decide) trivial
    rw [e0] at v0
    rw [e1] at v1
    have w0 : (d (1, 0)).e 0 0 = 1 := by
      rw [v0]
      show (1 : ℚ) * ∑ l ∈ Finset.range 1, (1 : ℚ) * 1 + 0 * 0 = 1
      simp
    have w1 : (d (0, 0)).e 0 0 = 2 := by
      rw [v1]
      show (1 : ℚ) * ∑ l ∈ Finset.range 1, (2 : ℚ) * 1 + 0 * 0 = 2
      simp
    refine ⟨fun hc => ?_, w1, w0⟩
    rw [hc] at w1
    norm_num at w1
end source_ranks

/- Non-vacuity: 3 x 5 times 5 x 4, in tiles of 2 x 2, on a 2 x 3 grid; the three matrices start on different processes where they may. -/
section example_
private def exPA : Params2 := ⟨⟨3, 2, 2, 2, 0, 1, 0⟩, ⟨5, 2, 2, 3, 0, 2, 0⟩⟩
private def exPB : Params2 := ⟨⟨5, 2, 2, 2, 0, 0, 0⟩, ⟨4, 2, 2, 3, 0, 1, 0⟩⟩
private def exPC : Params2 := ⟨⟨3, 2, 2, 2, 0, 1, 0⟩, ⟨4, 2, 2, 3, 0, 1, 0⟩⟩
private def exOf (P : Params2) (X : Nat → Nat → ℚ) : Tiles ℚ := fun z => ⟨P.row.tileSizes z.1, P.col.tileSizes z.2,
  fun r c => X (tileStart P.row.tileSizes z.1 + r) (tileStart P.col.tileSizes z.2 + c)⟩
private def exX : Nat → Nat → ℚ := fun r c => r + 2 * c + 1

example : MulDist exPA exPB exPC ∧ exPC.ranks.length = 6 ∧ exPC.row.ntn = 2 ∧ exPC.col.ntn = 2 ∧ exPA.col.ntn = 3 := by decide

example : ∃ (st : Coord2 → DSt ℚ),
    AlwaysEnds (Conf.init (fun r => if r ∈ exPC.ranks then distGenNN true (3 : ℚ) 5 (exPA.on r) (exPB.on r) (exPC.on r) else []) st) fun fin =>
      ∃ c1, (∀ r ∈ exPC.ranks, HoldsTiles exPC 2 2 r c1 ((fin r).mat 2)) ∧
        HoldsOn c1 exPC.row.tileSizes exPC.col.tileSizes 2 2
          (fun x y => 3 * ∑ l ∈ Finset.range (tileStart exPA.col.tileSizes 3), exX x l * exX l y + 5 * exX x y) (fun _ _ => True) := by
  have hD : MulDist exPA exPB exPC := by decide
  let loc : (Params2) → Tiles ℚ → Coord2 → Coord2 → Blk ℚ := fun P m r l =>
    m (((P.at' .Row r).dist.global_tile_from_local_tile l.row).toNat, ((P.at' .Col r).dist.global_tile_from_local_tile l.col).toNat)
  have hst := fun r (hr : r ∈ exPC.ranks) => C54_workspaces_created (K := ℚ) hD hr (loc exPA (exOf exPA exX) r) (loc exPB (exOf exPB exX) r)
    (loc exPC (exOf exPC exX) r)
  choose st' hst' using hst
  obtain ⟨v, _⟩ := panel_create_some (K := ℚ) hD.aRow true 0
  exact ⟨_, C54_distributed_product hD true (3 : ℚ) 5 (a := exOf exPA exX) (b := exOf exPB exX) (c := exOf exPC exX) (A := exX) (B := exX) (C := exX)
    (fun _ _ _ _ => ⟨rfl, rfl⟩) (fun _ _ _ _ => ⟨rfl, rfl⟩) (fun _ _ _ _ => ⟨rfl, rfl⟩)
    (fun _ _ _ _ _ _ _ _ _ => rfl) (fun _ _ _ _ _ _ _ _ _ => rfl) (fun _ _ _ _ _ _ _ _ _ => rfl)
    (fun r h => HoldsTiles.ofMatrix hD.aRow hD.aCol _ (by rw [show exPA.ranks = exPC.ranks by decide]; exact h) _ _)
    (fun r h => HoldsTiles.ofMatrix hD.bRow hD.bCol _ (by rw [show exPB.ranks = exPC.ranks by decide]; exact h) _ _)
    (fun r h => HoldsTiles.ofMatrix (by decide) (by decide) _ h _ _)
    (st := fun r => if h : r ∈ exPC.ranks then st' r h else ⟨fun _ _ => ⟨0, 0, fun _ _ => 0⟩, fun _ _ => v⟩)
    (fun r hr => by rw [dif_pos hr]; exact hst' r hr)⟩
end example_

/- Non-vacuity: the same product of sub-matrices that start inside a tile and at different tiles of the parent matrices. -/
section example_offset
private def exOA : Params2 := ⟨⟨3, 2, 2, 2, 0, 1, 1⟩, ⟨5, 2, 2, 3, 0, 2, 3⟩⟩
private def exOB : Params2 := ⟨⟨5, 2, 2, 2, 0, 0, 1⟩, ⟨4, 2, 2, 3, 0, 1, 7⟩⟩
private def exOC : Params2 := ⟨⟨3, 2, 2, 2, 0, 1, 1⟩, ⟨4, 2, 2, 3, 0, 1, 7⟩⟩

example : MulDist exOA exOB exOC ∧ exOC.ranks.length = 6 ∧ exOC.row.ntn = 2 ∧ exOC.col.ntn = 3 ∧ exOA.col.ntn = 3 ∧
    exOA.col.tileSizes 0 = 1 ∧ exOC.row.tileSizes 0 = 1 ∧ exOC.row.tileSizes 1 = 2 ∧ exOC.col.tileSizes 2 = 1 := by decide

example : ∃ (st : Coord2 → DSt ℚ),
    AlwaysEnds (Conf.init (fun r => if r ∈ exOC.ranks then distGenNN true (3 : ℚ) 5 (exOA.on r) (exOB.on r) (exOC.on r) else []) st) fun fin =>
      ∃ c1, (∀ r ∈ exOC.ranks, HoldsTiles exOC 2 3 r c1 ((fin r).mat 2)) ∧
        HoldsOn c1 exOC.row.tileSizes exOC.col.tileSizes 2 3
          (fun x y => 3 * ∑ l ∈ Finset.range (tileStart exOA.col.tileSizes 3), exX x l * exX l y + 5 * exX x y) (fun _ _ => True) := by
  have hD : MulDist exOA exOB exOC := by decide
  let loc : (Params2) → Tiles ℚ → Coord2 → Coord2 → Blk ℚ := fun P m r l =>
    m (((P.at' .Row r).dist.global_tile_from_local_tile l.row).toNat, ((P.at' .Col r).dist.global_tile_from_local_tile l.col).toNat)
  have hst := fun r (hr : r ∈ exOC.ranks) => C54_workspaces_created (K := ℚ) hD hr (loc exOA (exOf exOA exX) r) (loc exOB (exOf exOB exX) r)
    (loc exOC (exOf exOC exX) r)
  choose st' hst' using hst
  obtain ⟨v, _⟩ := panel_create_some (K := ℚ) hD.aRow true 0
  exact ⟨_, C54_distributed_product hD true (3 : ℚ) 5 (a := exOf exOA exX) (b := exOf exOB exX) (c := exOf exOC exX) (A := exX) (B := exX) (C := exX)
    (fun _ _ _ _ => ⟨rfl, rfl⟩) (fun _ _ _ _ => ⟨rfl, rfl⟩) (fun _ _ _ _ => ⟨rfl, rfl⟩)
    (fun _ _ _ _ _ _ _ _ _ => rfl) (fun _ _ _ _ _ _ _ _ _ => rfl) (fun _ _ _ _ _ _ _ _ _ => rfl)
    (fun r h => HoldsTiles.ofMatrix hD.aRow hD.aCol _ (by rw [show exOA.ranks = exOC.ranks by decide]; exact h) _ _)
    (fun r h => HoldsTiles.ofMatrix hD.bRow hD.bCol _ (by rw [show exOB.ranks = exOC.ranks by decide]; exact h) _ _)
    (fun r h => HoldsTiles.ofMatrix (by decide) (by decide) _ h _ _)
    (st := fun r => if h : r ∈ exOC.ranks then st' r h else ⟨fun _ _ => ⟨0, 0, fun _ _ => 0⟩, fun _ _ => v⟩)
    (fun r hr => by rw [dif_pos hr]; exact hst' r hr)⟩
end example_offset

end DLAF
