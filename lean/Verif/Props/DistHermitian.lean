import Verif.Lemmas.DistHermitian
import Verif.Props.DistMultiplication
import Verif.Props.DistSolver
/-
C57: the distributed Hermitian multiplication.

The program of every process is that of Model/DistHermitian.lean; the machine is that of Model/Spmd.lean.
-/
namespace DLAF
variable {K : Type*} [Field K] [StarRing K]

/-- The tiles of `C` after `k` iterations. -/
def hermT (alpha beta : K) (m : Nat) (a b c : Tiles K) : Nat → Tiles K
  | 0 => c
  | k + 1 => hermNext alpha (hermBeta beta k) m a b k (hermT alpha beta m a b c k)

theorem hermT_shape (alpha beta : K) (m : Nat) (a b c : Tiles K) (k : Nat) (z : Nat × Nat) :
    (hermT alpha beta m a b c k z).rows = (c z).rows ∧ (hermT alpha beta m a b c k z).cols = (c z).cols := by
  induction k with
  | zero => exact ⟨rfl, rfl⟩
  | succ k ih =>
    show (hermNext _ _ _ _ _ _ _ z).rows = _ ∧ (hermNext _ _ _ _ _ _ _ z).cols = _
    unfold hermNext
    split
    · exact ih
    · split <;> exact ih

/-- The values of the tiles of `C` after `k` iterations. -/
theorem hermT_values {rs : Nat → Nat} {m : Nat} {a b c : Tiles K} (alpha beta : K)
    (ha : Shaped a rs rs m m) {A : Nat → Nat → K}
    (hA : HoldsOn a rs rs m m A fun r c => c ≤ r) {j : Nat} : ∀ k ≤ m, ∀ i < m, ∀ r < rs i, ∀ q,
      (hermT alpha beta m a b c k (i, j)).e r q = if k = 0 then (c (i, j)).e r q else
        alpha * (∑ t ∈ Finset.range (if i < k then m else k), ∑ e ∈ Finset.range (rs t),
          hermE .Lower A (tileStart rs i + r) (tileStart rs t + e) * (b (t, j)).e e q) + beta * (c (i, j)).e r q := by
  have K1 : ∀ i < m, ∀ l < i, ∀ r < rs i, ∀ q, ((a (i, l)).mul (b (l, j))).e r q = ∑ e ∈ Finset.range (rs l),
      hermE .Lower A (tileStart rs i + r) (tileStart rs l + e) * (b (l, j)).e e q := by
    intro i hi l hl r hr q
    have hal := ha i hi l (by omega)
    simp only [Blk.mul, hal.2]
    refine Finset.sum_congr rfl fun e he => ?_
    rw [Finset.mem_range] at he
    have := tile_lt_of rs (r := e) (c := r) hl he
    rw [hA i hi l (by omega) r hr e he (by omega)]
    simp only [hermE]
    rw [if_pos (by omega)]
  have K2 : ∀ i < m, ∀ r < rs i, ∀ q, (((a (i, i)).herm .Lower).mul (b (i, j))).e r q = ∑ e ∈ Finset.range (rs i),
      hermE .Lower A (tileStart rs i + r) (tileStart rs i + e) * (b (i, j)).e e q := by
    intro i hi r hr q
    have hal := ha i hi i hi
    simp only [Blk.mul, Blk.herm, hal.2]
    refine Finset.sum_congr rfl fun e he => ?_
    rw [Finset.mem_range] at he
    simp only [hermE, decide_eq_true_eq, Nat.add_le_add_iff_left]
    by_cases h : e ≤ r
    · rw [if_pos h, if_pos h, hA i hi i hi r hr e he (by omega)]
    · rw [if_neg h, if_neg h, hA i hi i hi e he r hr (by omega)]
  have K3 : ∀ i < m, ∀ l < m, i < l → ∀ r < rs i, ∀ q, (((a (l, i)).op .ConjTrans).mul (b (l, j))).e r q = ∑ e ∈ Finset.range (rs l),
      hermE .Lower A (tileStart rs i + r) (tileStart rs l + e) * (b (l, j)).e e q := by
    intro i hi l hl hil r hr q
    have hal := ha l hl i hi
    simp only [Blk.mul, Blk.op, hal.1]
    refine Finset.sum_congr rfl fun e he => ?_
    rw [Finset.mem_range] at he
    have := tile_lt_of rs (r := r) (c := e) hil hr
    rw [hA l hl i hi e he r hr (by omega)]
    simp only [hermE]
    rw [if_neg (by omega)]
  intro k
  induction k with
  | zero => intro _ i hi r hr q; rw [if_pos rfl]; rfl
  | succ k ih =>
    intro hk i hi r hr q
    have ih' := ih (by omega) i hi r hr q
    rw [if_neg (by omega)]
    show (hermNext _ _ _ _ _ _ _ (i, j)).e r q = _
    obtain ⟨P, hP⟩ : ∃ P : Nat → K, P = fun t => ∑ e ∈ Finset.range (rs t),
      hermE .Lower A (tileStart rs i + r) (tileStart rs t + e) * (b (t, j)).e e q := ⟨_, rfl⟩
    have hPt : ∀ t, ∑ e ∈ Finset.range (rs t), hermE .Lower A (tileStart rs i + r) (tileStart rs t + e) * (b (t, j)).e e q = P t := by
      intro t; rw [hP]
    simp only [hPt] at ih' ⊢
    -- the value before, scaled
    have hprev : k ≤ i → hermBeta beta k * (hermT alpha beta m a b c k (i, j)).e r q = alpha * ∑ t ∈ Finset.range k, P t + beta * (c (i, j)).e r q := by
      intro hki
      unfold hermBeta
      rw [ih']
      by_cases h0 : k = 0
      · subst h0
        rw [if_pos (by simp), if_pos rfl]
        simp
      · rw [if_neg (by omega), if_neg h0, if_neg (by omega), one_mul]
    unfold hermNext
    dsimp only
    by_cases h1 : i < k
    · rw [if_pos h1, ih', if_neg (by omega), if_pos h1, if_pos (by omega)]
    rw [if_neg h1]
    by_cases h2 : i = k
    · subst h2
      rw [if_pos rfl, if_pos (by omega)]
      dsimp only
      rw [hprev (le_refl _), K2 i hi r hr q, hPt]
      have e3 : ∑ l ∈ Finset.Ioo i m, (((a (l, i)).op .ConjTrans).mul (b (l, j))).e r q = ∑ l ∈ Finset.Ioo i m, P l := by
        refine Finset.sum_congr rfl fun l hl => ?_
        rw [Finset.mem_Ioo] at hl
        rw [K3 i hi l hl.2 hl.1 r hr q, hPt]
      rw [e3]
      have hsplit : ∑ t ∈ Finset.range m, P t = ∑ t ∈ Finset.range i, P t + P i + ∑ t ∈ Finset.Ioo i m, P t := by
        rw [← Finset.sum_range_succ, Finset.range_eq_Ico, Finset.range_eq_Ico, ← Finset.sum_Ico_consecutive P (Nat.zero_le (i + 1)) (show i + 1 ≤ m by omega)]
        congr 1
      rw [hsplit]
      ring
    · rw [if_neg h2, if_neg (by omega)]
      dsimp only
      rw [hprev (by omega), K1 i hi k (by omega) r hr q, hPt, Finset.sum_range_succ]
      ring

section
variable {PA PB PC : Params2}

/-- The state of the processes at the call. -/
theorem hermInit_idle (hD : HermDist PA PB PC) {r : Coord2} (hr : r ∈ PC.ranks) (a b c : Coord2 → Blk K) :
    ∃ x, distHermInit (PA.on r) (PB.on r) (PC.on r) a b c = some x ∧
      DIdle (hermEnv PA PB PC).E r (fun n => if n = 0 then a else if n = 1 then b else c) x := by
  have hE := (hermEnv_ok hD).env
  have pA := hE.crdP (by rfl) 0 hr
  have pB := hE.crdP (by rfl) 1 hr
  have pC := hE.crdP (by rfl) 2 hr
  obtain ⟨u, a1, a2⟩ := panel_create (K := K) pA true PA.col.tile
  obtain ⟨v, b1, b2⟩ := panel_create (K := K) pB false PA.row.tile
  obtain ⟨w, c1, c2⟩ := panel_create (K := K) pC false PA.row.tile
  have e1 : VPanel.create (K := K) (isTall .Col) ((PA.on r).get Coord.Col.orth) ((PA.on r).get .Col).tileSize = some u := a1
  have e2 : VPanel.create (K := K) (isTall .Row) ((PB.on r).get Coord.Row.orth) ((PB.on r).get .Row).tileSize = some v := by
    rw [show ((PB.on r).get .Row).tileSize = PA.row.tile from by show PB.row.tile = _; rw [hD.rowB]]
    exact b1
  have e3 : VPanel.create (K := K) (isTall .Row) ((PC.on r).get Coord.Row.orth) ((PC.on r).get .Row).tileSize = some w := by
    rw [show ((PC.on r).get .Row).tileSize = PA.row.tile from by show PC.row.tile = _; rw [hD.rowC]]
    exact c1
  unfold distHermInit mkPanels
  rw [e1, e2, e3]
  refine ⟨_, rfl, rfl, fun n bb => ?_⟩
  rcases n with _ | _ | n
  · exact ⟨0, _, fun _ => rfl, fun _ => rfl, le_refl _, a2⟩
  · exact ⟨0, _, fun _ => rfl, fun _ => rfl, le_refl _, b2⟩
  · have hpd : (hermEnv PA PB PC).E.crd (n + 2) r = (hermEnv PA PB PC).E.crd 2 r := by
      unfold DEnv.crd hermEnv
      simp
    refine ⟨0, _, fun _ => rfl, fun _ => rfl, le_refl _, ?_⟩
    rw [hpd]
    have ht : (hermEnv PA PB PC).E.tile (n + 2) = PA.row.tile := rfl
    rw [ht]
    exact c2

/-- The construction of the workspaces never fails. -/
theorem C57_workspaces_created (hD : HermDist PA PB PC) {r : Coord2} (hr : r ∈ PC.ranks) (a b c : Coord2 → Blk K) :
    ∃ x, distHermInit (PA.on r) (PB.on r) (PC.on r) a b c = some x := by
  obtain ⟨x, h, _⟩ := hermInit_idle hD hr a b c
  exact ⟨x, h⟩

/-- C57.  For every grid, source ranks, matrix and tile sizes, and all matrices whose tiles fit, under every schedule of the processes: the
multiplication by the Hermitian matrix whose lower triangle is stored in `A` ends without abort or deadlock, every process then holds its tiles of
`alpha A B + beta C`, and its tiles of `A` and `B` as before.  Nothing is assumed about the strictly upper triangle of `A`. -/
theorem C57_distributed_hermitian (hD : HermDist PA PB PC) (dbg : Bool) (alpha beta : K) {a b c : Tiles K}
    (ha : Shaped a PA.row.tileSizes PA.row.tileSizes PA.row.ntn PA.row.ntn)
    (hb : Shaped b PA.row.tileSizes PB.col.tileSizes PA.row.ntn PB.col.ntn)
    (hc : Shaped c PA.row.tileSizes PB.col.tileSizes PA.row.ntn PB.col.ntn) {A B C : Nat → Nat → K}
    (hA : HoldsOn a PA.row.tileSizes PA.row.tileSizes PA.row.ntn PA.row.ntn A fun r c => c ≤ r)
    (hB : HoldsOn b PA.row.tileSizes PB.col.tileSizes PA.row.ntn PB.col.ntn B fun _ _ => True)
    (hC : HoldsOn c PA.row.tileSizes PB.col.tileSizes PA.row.ntn PB.col.ntn C fun _ _ => True)
    {ma mb mc : Coord2 → Coord2 → Blk K} (hma : ∀ r ∈ PC.ranks, HoldsTiles PA PA.row.ntn PA.col.ntn r a (ma r))
    (hmb : ∀ r ∈ PC.ranks, HoldsTiles PB PB.row.ntn PB.col.ntn r b (mb r))
    (hmc : ∀ r ∈ PC.ranks, HoldsTiles PC PC.row.ntn PC.col.ntn r c (mc r))
    {st : Coord2 → DSt K} (hst : ∀ r ∈ PC.ranks, distHermInit (PA.on r) (PB.on r) (PC.on r) (ma r) (mb r) (mc r) = some (st r)) :
    AlwaysEnds (Conf.init (fun r => if r ∈ PC.ranks then distHermitian .Left .Lower dbg alpha beta (PA.on r) (PB.on r) (PC.on r) else []) st) fun fin =>
      ∃ c1, (∀ r ∈ PC.ranks, HoldsTiles PC PC.row.ntn PC.col.ntn r c1 ((fin r).mat 2) ∧
          HoldsTiles PA PA.row.ntn PA.col.ntn r a ((fin r).mat 0) ∧ HoldsTiles PB PB.row.ntn PB.col.ntn r b ((fin r).mat 1)) ∧
        Shaped c1 PC.row.tileSizes PC.col.tileSizes PC.row.ntn PC.col.ntn ∧
        HoldsOn c1 PC.row.tileSizes PC.col.tileSizes PC.row.ntn PC.col.ntn
          (fun x y => alpha * ∑ l ∈ Finset.range (tileStart PA.row.tileSizes PA.row.ntn), hermE .Lower A x l * B l y + beta * C x y)
          (fun _ _ => True) := by
  have hV := hermEnv_ok hD
  have hpcr : Plain PC.row := by rw [hD.rowC]; exact hD.aRow
  have hpcc : Plain PC.col := by rw [hD.col]; exact hD.bCol
  have hpbr : Plain PB.row := by rw [hD.rowB]; exact hD.aRow
  let m0 : Nat → Tiles K := fun n => if n = 0 then a else if n = 1 then b else c
  let T : Nat → Tiles K := hermT alpha beta PA.row.ntn a b c
  let g0 : Glob (DSt K) (Blk K) := ⟨st, fun _ _ => 0, fun _ _ _ => none⟩
  have hi0 : VIdle (hermEnv PA PB PC) (set1 m0 2 c) g0 := by
    refine ⟨Clean.init _ _, fun r hr => ?_⟩
    obtain ⟨x, x1, x2⟩ := hermInit_idle hD hr (ma r) (mb r) (mc r)
    have hx : x = st r := Option.some.inj (x1.symm.trans (hst r hr))
    subst hx
    have hm := x2.mat
    refine ⟨by rw [hm]; exact x2, fun n z hz => ?_⟩
    show (st r).mat n z = _
    rw [hm]
    rcases n with _ | _ | n
    · exact LView.of_holds hD.aRow hD.aCol (by rw [hD.ranksA]; exact hr) (hma r hr) z.row z.col hz.1.1 hz.1.2 hz.2.1 hz.2.2
    · exact LView.of_holds hpbr hD.bCol (by rw [hD.ranksB]; exact hr) (hmb r hr) z.row z.col hz.1.1 hz.1.2 hz.2.1 hz.2.2
    · have := LView.of_holds hpcr hpcc hr (hmc r hr) z.row z.col hz.1.1 hz.1.2 hz.2.1 hz.2.2
      rcases n with _ | n
      · exact this
      · exact this
  have hshape : ∀ k, Shaped (T k) PA.row.tileSizes PB.col.tileSizes PA.row.ntn PB.col.ntn := by
    intro k i hi j hj
    have := hermT_shape alpha beta PA.row.ntn a b c k (i, j)
    exact ⟨this.1.trans (hc i hi j hj).1, this.2.trans (hc i hi j hj).2⟩
  have hend : ∃ g', Runs (fun r => if r ∈ PC.ranks then distHermitian .Left .Lower dbg alpha beta (PA.on r) (PB.on r) (PC.on r) else []) g0 g' ∧
      ∃ k, k = (if PA.row.ntn = 0 ∨ PB.col.ntn = 0 then 0 else PA.row.ntn) ∧ VIdle (hermEnv PA PB PC) (set1 m0 2 (T k)) g' := by
    have hz : (PB.row.size = 0 ∨ PB.col.size = 0) ↔ (PA.row.ntn = 0 ∨ PB.col.ntn = 0) := by
      rw [hD.rowB, ntn_zero hD.aRow.toTiled, ntn_zero hD.bCol.toTiled]
    by_cases h0 : PB.row.size = 0 ∨ PB.col.size = 0
    · refine ⟨g0, Runs.nil (fun r => ?_) _, 0, by rw [if_pos (hz.1 h0)], hi0⟩
      show (if _ then distHermLL _ _ _ _ _ _ else _) = _
      unfold distHermLL
      rw [if_pos (show (PB.on r).row.size = 0 ∨ (PB.on r).col.size = 0 from h0), ite_self]
    · have hn : PA.col.dist.nrTiles = PA.row.dist.nrTiles := hD.aCol.nrTiles_eq hD.aRow hD.size hD.tile
      obtain ⟨g', r1, i1⟩ := Runs.range (p := fun t r => if r ∈ PC.ranks then hermStep dbg alpha beta (PA.on r) (PB.on r) (PC.on r) t else [])
        (s := 0) (e := PA.col.dist.nrTiles) hD.aCol.nrTiles_nonneg
        (fun t g => VIdle (hermEnv PA PB PC) (set1 m0 2 (T t.toNat)) g) (g := g0) hi0 (by
          intro t h0 h1 g hg
          obtain ⟨k, rfl⟩ : ∃ k : Nat, t = k := ⟨t.toNat, by omega⟩
          have hk : k < PA.row.ntn := by unfold Params.ntn; omega
          obtain ⟨g', q1, q2⟩ := herm_step (dbg := dbg) (alpha := alpha) (beta := beta) (m := m0) (c := T k) (l := k)
            ⟨hD, ha, hb, hshape k, hk⟩ hg
          refine ⟨g', q1, ?_⟩
          rw [show ((k : Int) + 1).toNat = k + 1 by omega]
          exact q2)
      refine ⟨g', r1.congr fun r => ?_, PA.row.ntn, by rw [if_neg (fun h => h0 (hz.2 h))], ?_⟩
      · by_cases hr : r ∈ PC.ranks
        · simp only [if_pos hr]
          show distHermLL _ _ _ _ _ _ = _
          unfold distHermLL
          rw [if_neg (show ¬ ((PB.on r).row.size = 0 ∨ (PB.on r).col.size = 0) from h0)]
          rfl
        · simp [hr]
      · rw [hn] at i1
        exact i1
  obtain ⟨g', r1, k, hk, hg⟩ := hend
  refine r1.alwaysEnds ⟨T k, fun r hr => ?_, ?_, ?_⟩
  · have hv := (hg.all r hr).2
    refine ⟨LView.holds hpcr hpcc hr ?_, LView.holds hD.aRow hD.aCol (by rw [hD.ranksA]; exact hr) ?_,
      LView.holds hpbr hD.bCol (by rw [hD.ranksB]; exact hr) ?_⟩
    · intro i j h1 h2 h3 h4
      exact hv 2 ⟨i, j⟩ ⟨⟨h1, h2⟩, h3, h4⟩
    · intro i j h1 h2 h3 h4
      exact hv 0 ⟨i, j⟩ ⟨⟨h1, h2⟩, h3, h4⟩
    · intro i j h1 h2 h3 h4
      exact hv 1 ⟨i, j⟩ ⟨⟨h1, h2⟩, h3, h4⟩
  · rw [hD.rowC, hD.col]; exact hshape k
  · rw [hD.rowC, hD.col]
    intro i hi j hj r hr q hq _
    have hk' : k = PA.row.ntn := by rw [hk, if_neg (by omega)]
    rw [hk']
    rw [hermT_values alpha beta ha hA PA.row.ntn (le_refl _) i hi r hr q, if_neg (by omega), if_pos hi, hC i hi j hj r hr q hq trivial]
    beta_reduce
    rw [sum_tiles]
    congr 2
    refine Finset.sum_congr rfl fun l hl => ?_
    rw [Finset.mem_range] at hl
    refine Finset.sum_congr rfl fun e he => ?_
    rw [Finset.mem_range] at he
    rw [hB l hl j hj e he q hq trivial]

/-- C57.  All members of each row and column communicator perform the same sequence of collectives. -/
theorem C57_same_collectives (hD : HermDist PA PB PC) (dbg : Bool) (alpha beta : K) :
    SameCollectives PC.ranks (fun r => distHermitian .Left .Lower dbg alpha beta (PA.on r) (PB.on r) (PC.on r)) := by
  intro c r hr q hq h1 h2
  show sigs c (distHermLL dbg alpha beta (PA.on r) (PB.on r) (PC.on r)) = sigs c (distHermLL dbg alpha beta (PA.on q) (PB.on q) (PC.on q))
  unfold distHermLL
  by_cases hz : PB.row.size = 0 ∨ PB.col.size = 0
  · rw [if_pos (show (PB.on r).row.size = 0 ∨ (PB.on r).col.size = 0 from hz), if_pos (show (PB.on q).row.size = 0 ∨ (PB.on q).col.size = 0 from hz)]
  rw [if_neg (show ¬ ((PB.on r).row.size = 0 ∨ (PB.on r).col.size = 0) from hz),
    if_neg (show ¬ ((PB.on q).row.size = 0 ∨ (PB.on q).col.size = 0) from hz), sigs_flatMap, sigs_flatMap]
  have hpcc : Plain PC.col := by rw [hD.col]; exact hD.bCol
  refine List.flatMap_congr fun k hk => ?_
  rw [mem_irange] at hk
  have hn : PA.col.dist.nrTiles = PA.row.dist.nrTiles := hD.aCol.nrTiles_eq hD.aRow hD.size hD.tile
  have hk2 : k < PA.col.dist.nrTiles := hk.2
  have l1 : ∀ (f g h : DSt K → Option (DSt K)), sigs (V := Blk K) c [.loc f, .loc g, .loc h] = [] := fun _ _ _ => rfl
  have hred : sigs c (if k < PA.col.dist.nrTiles - 1 then hermBelow dbg alpha beta (PA.on r) (PC.on r) k else []) =
      sigs c (if k < PA.col.dist.nrTiles - 1 then hermBelow dbg alpha beta (PA.on q) (PC.on q) k else []) := by
    by_cases hl : k < PA.col.dist.nrTiles - 1
    · rw [if_pos hl, if_pos hl]
      unfold hermBelow
      simp only [sigs_append, sigs_locs, List.nil_append, List.append_nil]
      exact reducePanel_same (axis := .Row) hpcc dbg _ _ (le_refl _) hpcc.nrTiles_nonneg hr hq h1 h2
    · rw [if_neg hl, if_neg hl]
  unfold hermStep
  simp only [sigs_append, sigs_locs, List.nil_append, List.append_nil, l1]
  congr 1
  · congr 1
    · exact bcastPanel_same (axis := .Col) hD.aRow.toTiled dbg _ _ hk.1 (by show k ≤ PA.row.dist.nrTiles; omega)
        (by rw [hD.ranksA]; exact hr) (by rw [hD.ranksA]; exact hq) h1 h2
    · exact bcastPanel_same (axis := .Row) hD.bCol.toTiled dbg _ _ (le_refl _) hD.bCol.nrTiles_nonneg
        (by rw [hD.ranksB]; exact hr) (by rw [hD.ranksB]; exact hq) h1 h2

/-- C57.  The other variants abort on every process, whatever the matrices. -/
theorem C57_unimplemented (s : Side) (u : Uplo) (h : ¬ (s = .Left ∧ u = .Lower)) (dbg : Bool) (alpha beta : K) (da db dc : Distribution) :
    distHermitian s u dbg alpha beta da db dc = [.loc fun _ => none] := by
  cases s <;> cases u <;> first | rfl | exact absurd ⟨rfl, rfl⟩ h
end

/- Non-vacuity: A is 5 x 5, B and C are 5 x 4, in tiles of 2 x 2, on a 2 x 3 grid; A and B start in different columns of the grid. -/
section example_
private def exPA : Params2 := ⟨⟨5, 2, 2, 2, 0, 1, 0⟩, ⟨5, 2, 2, 3, 0, 2, 0⟩⟩
private def exPB : Params2 := ⟨⟨5, 2, 2, 2, 0, 1, 0⟩, ⟨4, 2, 2, 3, 0, 1, 0⟩⟩
private def exOf (P : Params2) (X : Nat → Nat → ℚ) : Tiles ℚ := fun z => ⟨P.row.tileSizes z.1, P.col.tileSizes z.2,
  fun r c => X (tileStart P.row.tileSizes z.1 + r) (tileStart P.col.tileSizes z.2 + c)⟩
private def exX : Nat → Nat → ℚ := fun r c => r + 2 * c + 1

private theorem exD : HermDist exPA exPB exPB := ⟨by decide, by decide, by decide, rfl, rfl, rfl, rfl, rfl, rfl⟩
example : exPB.ranks.length = 6 ∧ exPB.row.ntn = 3 ∧ exPB.col.ntn = 2 := by decide

/- The strictly upper part of `A` holds other values than the Hermitian matrix. -/
example : ∃ (st : Coord2 → DSt ℚ),
    AlwaysEnds (Conf.init (fun r => if r ∈ exPB.ranks then distHermitian .Left .Lower true (3 : ℚ) 5 (exPA.on r) (exPB.on r) (exPB.on r) else []) st)
      fun fin => ∃ c1, (∀ r ∈ exPB.ranks, HoldsTiles exPB 3 2 r c1 ((fin r).mat 2)) ∧
        HoldsOn c1 exPB.row.tileSizes exPB.col.tileSizes 3 2
          (fun x y => 3 * ∑ l ∈ Finset.range (tileStart exPA.row.tileSizes 3), (if l ≤ x then exX x l else exX l x) * exX l y + 5 * exX x y)
          (fun _ _ => True) := by
  have hD := exD
  have hts : exPA.col.tileSizes = exPA.row.tileSizes := rfl
  let loc : (Params2) → Tiles ℚ → Coord2 → Coord2 → Blk ℚ := fun P m r l =>
    m (((P.at' .Row r).dist.global_tile_from_local_tile l.row).toNat, ((P.at' .Col r).dist.global_tile_from_local_tile l.col).toNat)
  have hst := fun r (hr : r ∈ exPB.ranks) => C57_workspaces_created (K := ℚ) hD hr (loc exPA (exOf exPA exX) r) (loc exPB (exOf exPB exX) r)
    (loc exPB (exOf exPB exX) r)
  choose st' hst' using hst
  obtain ⟨v, _, _⟩ := panel_create (K := ℚ) hD.aRow true 0
  obtain ⟨n, f, a1, ⟨c1, a2, _, a3⟩, a4⟩ := C57_distributed_hermitian hD true (3 : ℚ) 5 (a := exOf exPA exX) (b := exOf exPB exX) (c := exOf exPB exX)
    (A := exX) (B := exX) (C := exX)
    (fun _ _ _ _ => ⟨rfl, by rw [← hts]; rfl⟩) (fun _ _ _ _ => ⟨rfl, rfl⟩) (fun _ _ _ _ => ⟨rfl, rfl⟩)
    (by rw [show HoldsOn (exOf exPA exX) exPA.row.tileSizes exPA.row.tileSizes = HoldsOn (exOf exPA exX) exPA.row.tileSizes exPA.col.tileSizes by rw [hts]]
        exact fun _ _ _ _ _ _ _ _ _ => rfl) (fun _ _ _ _ _ _ _ _ _ => rfl) (fun _ _ _ _ _ _ _ _ _ => rfl)
    (fun r h => HoldsTiles.ofMatrix hD.aRow hD.aCol _ (by rw [show exPA.ranks = exPB.ranks by decide]; exact h) _ _)
    (fun r h => HoldsTiles.ofMatrix (by decide) (by decide) _ h _ _)
    (fun r h => HoldsTiles.ofMatrix (by decide) (by decide) _ h _ _)
    (st := fun r => if h : r ∈ exPB.ranks then st' r h else ⟨fun _ _ => ⟨0, 0, fun _ _ => 0⟩, fun _ _ => v⟩)
    (fun r hr => by rw [dif_pos hr]; exact hst' r hr)
  refine ⟨_, n, f, a1, ⟨c1, fun r hr => (a2 r hr).1, ?_⟩, a4⟩
  intro i hi j hj r hr q hq _
  rw [a3 i hi j hj r hr q hq trivial]
  rfl
end example_

end DLAF
