import Verif.Model.DistMultiplication
import Verif.Lemmas.DistView
/- The distributed general multiplication. -/
namespace DLAF
variable {K : Type*}

/-- The panels of the general multiplication. -/
def genEnv (PA PB PC : Params2) : DEnv where
  G := PC.ranks
  pd := fun n => if n = 0 then PA else PB
  axis := fun n => if n = 0 then .Col else .Row
  tall := fun n => if n = 0 then true else false
  tile := fun n => if n = 0 then PA.col.tile else PB.row.tile
  freeS := fun _ => false
  freeE := fun _ => false
  ranged := false

theorem genEnv_ok {PA PB PC : Params2} (h : MulDist PA PB PC) : (genEnv PA PB PC).OK := by
  refine ⟨fun n c => ?_, fun n => ?_, fun n => ?_, fun h => by simp [genEnv] at h⟩
  · unfold genEnv
    dsimp only
    split <;> cases c
    · exact h.aRow
    · exact h.aCol
    · exact h.bRow
    · exact h.bCol
  · unfold genEnv
    dsimp only
    split
    · exact ranks_congr (by rw [h.rows]) h.gridCol
    · exact ranks_congr h.gridRow (by rw [h.cols])
  · unfold genEnv
    dsimp only
    have := h.aCol.tile_pos
    have := h.bRow.tile_pos
    split <;> omega

section
variable [Field K] [StarRing K]
variable {PA PB PC : Params2} {alpha beta : K} {dbg : Bool}

theorem mem_prodRange {a b : Int} {z : Coord2} : z ∈ (irange 0 a).flatMap (fun i => (irange 0 b).map fun j => (⟨i, j⟩ : Coord2)) ↔
    (0 ≤ z.row ∧ z.row < a) ∧ (0 ≤ z.col ∧ z.col < b) := by
  simp only [List.mem_flatMap, List.mem_map, mem_irange]
  constructor
  · rintro ⟨i, hi, j, hj, rfl⟩; exact ⟨hi, hj⟩
  · rintro ⟨hi, hj⟩; exact ⟨z.row, hi, z.col, hj, rfl⟩

theorem prodRange_nodup (a b : Int) : ((irange 0 a).flatMap (fun i => (irange 0 b).map fun j => (⟨i, j⟩ : Coord2))).Nodup := by
  rw [List.nodup_flatMap]
  refine ⟨fun i _ => (irange_nodup 0 b).map fun x y h => by simpa using h, ?_⟩
  refine (irange_nodup 0 a).imp ?_
  intro x y hxy z h1 h2
  rw [List.mem_map] at h1 h2
  obtain ⟨p, _, rfl⟩ := h1
  obtain ⟨q, _, h⟩ := h2
  exact hxy (by simpa using (congrArg Coord2.row h).symm)

theorem flatMap_map_pair {α : Type*} (xs ys : List Int) (f : Int → Int → α) :
    (xs.flatMap fun i => ys.map fun j => f i j) = (xs.flatMap fun i => ys.map fun j => (⟨i, j⟩ : Coord2)).map fun z => f z.row z.col := by
  rw [List.map_flatMap]
  simp only [List.map_map]
  rfl

/-- One iteration. -/
theorem gen_step (hD : MulDist PA PB PC) {k : Nat} (hk : k < PA.col.ntn) {a b c c' : Tiles K}
    (ha : Shaped a PA.row.tileSizes PA.col.tileSizes PA.row.ntn PA.col.ntn)
    (hb : Shaped b PB.row.tileSizes PB.col.tileSizes PB.row.ntn PB.col.ntn)
    (hstep : ∀ i < PC.row.ntn, ∀ j < PC.col.ntn,
      gemm .NoTrans .NoTrans alpha (a (i, k)) (b (k, j)) (if k = 0 then beta else 1) (c (i, j)) = some (c' (i, j)))
    {M : Coord2 → Nat → Coord2 → Blk K}
    (hM : ∀ r ∈ PC.ranks, LView PA .Col r a (M r 0) ∧ LView PB .Col r b (M r 1) ∧ LView PC .Col r c (M r 2))
    {g : Glob (DSt K) (Blk K)} (hg : GIdle (genEnv PA PB PC) M g) :
    ∃ g' M', Runs (fun r => if r ∈ PC.ranks then genStep dbg alpha beta (PA.on r) (PB.on r) (PC.on r) k else []) g g' ∧
      GIdle (genEnv PA PB PC) M' g' ∧
      ∀ r ∈ PC.ranks, LView PA .Col r a (M' r 0) ∧ LView PB .Col r b (M' r 1) ∧ LView PC .Col r c' (M' r 2) := by
  have hE := genEnv_ok hD
  have hG : (genEnv PA PB PC).G = PC.ranks := rfl
  have hPA : PA.ranks = PC.ranks := hE.ranks 0
  have hPB : PB.ranks = PC.ranks := hE.ranks 1
  have hrow := hD.rows
  have hcol := hD.cols
  have hpcr : Tiled PC.row := hrow ▸ hD.aRow
  have hpcc : Tiled PC.col := hcol ▸ hD.bCol
  have hkA : (k : Int) < PA.col.dist.nrTiles := by unfold Params.ntn at hk; omega
  have hnAB : PA.col.dist.nrTiles = PB.row.dist.nrTiles := hD.aCol.nrTiles_eq hD.bRow hD.size hD.tile hD.inner
  have hkB : (k : Int) < PB.row.dist.nrTiles := by omega
  have hksz : PA.col.dist.global_tile_size_of k = PB.row.dist.global_tile_size_of k := hD.aCol.tile_size_eq hD.bRow hD.size hD.tile hD.inner k
  have hkpos := hD.aCol.size_pos (t := (k : Int)) (by omega) hkA
  have hkle := hD.aCol.size_le (t := (k : Int)) (by omega) hkA
  have hoA := (hD.aCol.valid.wf.cyc.rank_range (t := (k : Int)) (by omega))
  have hoB := (hD.bRow.valid.wf.cyc.rank_range (t := (k : Int)) (by omega))
  -- the panels
  let kz := PA.col.dist.global_tile_size_of k
  let WA : Int → Blk K := fun t => a (t.toNat, k)
  let WB : Int → Blk K := fun t => b (k, t.toNat)
  have hWA : ∀ t, 0 ≤ t → t < PA.row.dist.nrTiles → VPanel.fits true (WA t) kz (PA.row.dist.global_tile_size_of t) = true := by
    intro t h0 h1
    have hp := hD.aRow.size_pos h0 h1
    have := ha t.toNat (by unfold Params.ntn; omega) k hk
    unfold Params.tileSizes at this
    rw [show ((t.toNat : Nat) : Int) = t by omega] at this
    unfold VPanel.fits
    simp only [if_true, Bool.and_eq_true, decide_eq_true_eq]
    show (((a (t.toNat, k)).rows : Nat) : Int) = _ ∧ (((a (t.toNat, k)).cols : Nat) : Int) = _
    rw [this.1, this.2]
    show _ ∧ _ = PA.col.dist.global_tile_size_of k
    omega
  have hWB : ∀ t, 0 ≤ t → t < PB.col.dist.nrTiles → VPanel.fits false (WB t) kz (PB.col.dist.global_tile_size_of t) = true := by
    intro t h0 h1
    have hp := hD.bCol.size_pos h0 h1
    have := hb k (by unfold Params.ntn; omega) t.toNat (by unfold Params.ntn; omega)
    unfold Params.tileSizes at this
    rw [show ((t.toNat : Nat) : Int) = t by omega] at this
    unfold VPanel.fits
    simp only [Bool.false_eq_true, if_false, Bool.and_eq_true, decide_eq_true_eq]
    show (((b (k, t.toNat)).rows : Nat) : Int) = _ ∧ (((b (k, t.toNat)).cols : Nat) : Int) = _
    rw [this.1, this.2]
    show _ = PA.col.dist.global_tile_size_of k ∧ _
    omega
  have hqA : ∀ r ∈ PC.ranks, Tiled (PA.at' .Row r) ∧ Tiled (PA.at' .Col r) := fun r hr =>
    ⟨Params2.tiled (c := .Row) hD.aRow (hPA ▸ hr), Params2.tiled (c := .Col) hD.aCol (hPA ▸ hr)⟩
  have hqB : ∀ r ∈ PC.ranks, Tiled (PB.at' .Row r) ∧ Tiled (PB.at' .Col r) := fun r hr =>
    ⟨Params2.tiled (c := .Row) hD.bRow (hPB ▸ hr), Params2.tiled (c := .Col) hD.bCol (hPB ▸ hr)⟩
  have hrA : ∀ r, PA.at' .Row r = PC.at' .Row r := fun r => by
    show (PA.row).onRank _ = (PC.row).onRank _
    rw [hrow]
  have hcB : ∀ r, PB.at' .Col r = PC.at' .Col r := fun r => by
    show (PB.col).onRank _ = (PC.col).onRank _
    rw [hcol]
  let new : Coord2 → Coord2 → Blk K := fun r z => c' (((PC.at' .Row r).gl z.row).toNat, ((PC.at' .Col r).gl z.col).toNat)
  let zs : Coord2 → List Coord2 := fun r => (irange 0 (PC.at' .Row r).dist.localNrTiles).flatMap fun i =>
    (irange 0 (PC.at' .Col r).dist.localNrTiles).map fun j => (⟨i, j⟩ : Coord2)
  let M' : Coord2 → Nat → Coord2 → Blk K := fun r => set1 (M r) 2 fun z => if z ∈ zs r then new r z else M r 2 z
  have hviews : ∀ r ∈ PC.ranks, LView PA .Col r a (M' r 0) ∧ LView PB .Col r b (M' r 1) ∧ LView PC .Col r c' (M' r 2) := by
    intro r hr
    obtain ⟨v1, v2, v3⟩ := hM r hr
    refine ⟨v1, v2, ?_⟩
    intro i j hi hi' hj hj'
    show (if _ then _ else _) = _
    rw [if_pos (mem_prodRange.2 ⟨⟨hi, hi'⟩, hj, hj'⟩)]
    rfl
  refine ?_
  obtain ⟨g', h1, h2⟩ := GStep.iter (E := genEnv PA PB PC) (w := rrIdx k) (M := M) (M' := M')
    (p := fun r => genStep dbg alpha beta (PA.on r) (PB.on r) (PC.on r) k) (by
      intro ss se hss
      let rest : Coord2 → Nat → PanD K := fun r n => ⟨(genEnv PA PB PC).tile n, ss r n, se r n, fun _ => none⟩
      let nA := PA.row.dist.nrTiles
      let nB := PB.col.dist.nrTiles
      let fA : Coord2 → Int → Option (Blk K) := fun r => content (PA.at' .Row r) 0 nA WA
      let fB : Coord2 → Int → Option (Blk K) := fun r => content (PB.at' .Col r) 0 nB WB
      let rA := PA.col.dist.rank_global_tile k
      let rB := PB.row.dist.rank_global_tile k
      let A1 : Coord2 → Abs K := fun r => Abs.of (M r) (rest r)
        [⟨kz, 0, nA, if r.col = rA then fA r else fun _ => none⟩, ⟨kz, 0, nB, if r.row = rB then fB r else fun _ => none⟩]
      let A2 : Coord2 → Abs K := fun r => Abs.of (M r) (rest r) [⟨kz, 0, nA, fA r⟩, ⟨kz, 0, nB, if r.row = rB then fB r else fun _ => none⟩]
      let A3 : Coord2 → Abs K := fun r => Abs.of (M r) (rest r) [⟨kz, 0, nA, fA r⟩, ⟨kz, 0, nB, fB r⟩]
      let A4 : Coord2 → Abs K := fun r => Abs.of (M' r) (rest r) [⟨kz, 0, nA, fA r⟩, ⟨kz, 0, nB, fB r⟩]
      let A5 : Coord2 → Abs K := fun r => Abs.of (M' r) (rest r) [⟨PA.col.tile, 0, nA, fun _ => none⟩, ⟨PB.row.tile, 0, nB, fun _ => none⟩]
      have hstart : ∀ r ∈ PC.ranks, (⟨M r, fun n => rest r n⟩ : Abs K) =
          Abs.of (M r) (rest r) [⟨PA.col.tile, 0, nA, fun _ => none⟩, ⟨PB.row.tile, 0, nB, fun _ => none⟩] := by
        intro r hr
        unfold Abs.of
        congr 1
        funext n
        obtain ⟨_, s1, s2⟩ := hss r hr n
        rcases n with _ | _ | n
        · show rest r 0 = _
          show (⟨_, ss r 0, se r 0, _⟩ : PanD K) = _
          rw [s1 rfl, s2 rfl]
          rfl
        · show rest r 1 = _
          show (⟨_, ss r 1, se r 1, _⟩ : PanD K) = _
          rw [s1 rfl, s2 rfl]
          rfl
        · rfl
      have G1 : GStep (genEnv PA PB PC) (rrIdx k) (fun r => (genPrep dbg (PA.on r) (PB.on r) (PC.on r) k).map Instr.loc)
          (fun r => ⟨M r, fun n => rest r n⟩) A1 := by
        refine GStep.locals hE fun r hr => ?_
        rw [hG] at hr
        rw [hstart r hr]
        obtain ⟨v1, v2, v3⟩ := hM r hr
        unfold genPrep
        dsimp only
        have hdim : LStep (genEnv PA PB PC) r (rrIdx k) (if (k : Int) = 0 ∨ (k : Int) = (PA.on r).col.nrTiles - 1 then
            [(DSt.panel 0 (k : Int)).upd fun v => v.setDim dbg ((PA.on r).col.global_tile_size_of k),
             (DSt.panel 1 (k : Int)).upd fun v => v.setDim dbg ((PA.on r).col.global_tile_size_of k)] else [])
            (Abs.of (M r) (rest r) [⟨PA.col.tile, 0, nA, fun _ => none⟩, ⟨PB.row.tile, 0, nB, fun _ => none⟩])
            (Abs.of (M r) (rest r) [⟨kz, 0, nA, fun _ => none⟩, ⟨kz, 0, nB, fun _ => none⟩]) := by
          refine .ite (fun _ => ?_) (fun h => ?_)
          · refine LStep.cons (b := Abs.of (M r) (rest r) [⟨kz, 0, nA, fun _ => none⟩, ⟨PB.row.tile, 0, nB, fun _ => none⟩]) ?_ ?_
            · exact (LStep.setDim (n := 0) hkpos hkle.1 rfl).to (Abs.of2_0 _ _ _ _ _)
            · refine (LStep.setDim (n := 1) hkpos ?_ rfl).to (Abs.of2_1 _ _ _ _ _)
              show PA.col.dist.global_tile_size_of k ≤ PB.row.tile
              rw [← hD.tile]
              exact hkle.1
          · refine (LStep.nil _).to ?_
            have : kz = PA.col.tile := hkle.2 (fun hc => h (Or.inl hc)) (by
              by_contra hc
              exact h (Or.inr (by show (k : Int) = PA.col.dist.nrTiles - 1; omega)))
            rw [this, ← hD.tile]
        refine (hdim.append (b := Abs.of (M r) (rest r) [⟨kz, 0, nA, fun _ => none⟩, ⟨kz, 0, nB, fun _ => none⟩])
          (c := Abs.of (M r) (rest r) [⟨kz, 0, nA, if r.col = rA then fA r else fun _ => none⟩, ⟨kz, 0, nB, fun _ => none⟩]) ?_).append ?_
        · refine (LStep.linkLine (a := Abs.of (M r) (rest r) [⟨kz, 0, nA, fun _ => none⟩, ⟨kz, 0, nB, fun _ => none⟩]) hE (show r ∈ (genEnv PA PB PC).G from hr) (n := 0) (q := 0) (m := a) (k := k) (s := 0) (e := nA)
            (irange 0 (PC.on r).row.localNrTiles) v1 hkA (le_refl _) (le_refl _) hD.aRow.nrTiles_nonneg (le_refl _) (le_refl _)
            (irange_nodup _ _) ?_ rfl hWA ?_).to ?_
          · intro i
            rw [mem_irange]
            show _ ↔ (PA.at' .Row r).nx 0 ≤ i ∧ i < (PA.at' .Row r).nx nA
            have hp := (hqA r hr).1
            rw [hp.nx_zero, show (PA.at' .Row r).nx nA = (PA.at' .Row r).dist.localNrTiles from hp.nx_all, hrA r]
            rfl
          · exact eq_comm
          · exact (Abs.of2_0 _ _ _ _ _)
        · refine (LStep.linkLine (a := Abs.of (M r) (rest r) [⟨kz, 0, nA, if r.col = rA then fA r else fun _ => none⟩, ⟨kz, 0, nB, fun _ => none⟩]) hE (show r ∈ (genEnv PA PB PC).G from hr) (n := 1) (q := 1) (m := fun z => b (z.2, z.1)) (k := k)
            (s := 0) (e := nB) (irange 0 (PC.on r).col.localNrTiles) v2.swap hkB (le_refl _) (le_refl _) hD.bCol.nrTiles_nonneg (le_refl _)
            (le_refl _) (irange_nodup _ _) ?_ rfl hWB ?_).to ?_
          · intro i
            rw [mem_irange]
            show _ ↔ (PB.at' .Col r).nx 0 ≤ i ∧ i < (PB.at' .Col r).nx nB
            have hp := (hqB r hr).2
            rw [hp.nx_zero, show (PB.at' .Col r).nx nB = (PB.at' .Col r).dist.localNrTiles from hp.nx_all, hcB r]
            rfl
          · exact eq_comm
          · exact (Abs.of2_1 _ _ _ _ _)
      have G2 : GStep (genEnv PA PB PC) (rrIdx k) (fun r => bcastPanel dbg .Col (PA.on r) rA (DSt.panel 0 (k : Int)) 0 nA) A1 A2 := by
        refine (GStep.bcastAll hE 0 (dbg := dbg) (it := k) (root := rA) hoA (ax := kz) (s := 0) (e := nA) (Int.le_of_lt hkpos) (le_refl _)
          hD.aRow.nrTiles_nonneg (le_refl _) WA hWA (fun r _ => rfl)).to fun r _ => ?_
        exact (Abs.of2_0 _ _ _ _ _)
      have G3 : GStep (genEnv PA PB PC) (rrIdx k) (fun r => bcastPanel dbg .Row (PB.on r) rB (DSt.panel 1 (k : Int)) 0 nB) A2 A3 := by
        refine (GStep.bcastAll hE 1 (dbg := dbg) (it := k) (root := rB) hoB (ax := kz) (s := 0) (e := nB) (Int.le_of_lt hkpos) (le_refl _)
          hD.bCol.nrTiles_nonneg (le_refl _) WB hWB (fun r _ => rfl)).to fun r _ => ?_
        exact (Abs.of2_1 _ _ _ _ _)
      have G4 : GStep (genEnv PA PB PC) (rrIdx k) (fun r => (genUpdate dbg alpha beta (PC.on r) k).map Instr.loc) A3 A4 := by
        refine GStep.locals hE fun r hr => ?_
        rw [hG] at hr
        obtain ⟨v1, v2, v3⟩ := hM r hr
        unfold genUpdate
        rw [flatMap_map_pair]
        refine (LStep.tasks (n := 2) (zs r) _ id (new r) (by rw [List.map_id]; exact prodRange_nodup _ _) ?_).to ?_
        · intro z hz m hm _
          rw [mem_prodRange] at hz
          have qA := (hqA r hr).1
          have qB := (hqB r hr).2
          have qr : Tiled (PC.at' .Row r) := hrA r ▸ qA
          have qc : Tiled (PC.at' .Col r) := hcB r ▸ qB
          have gr0 := qr.gl_nonneg hz.1.1
          have gr1 : (PC.at' .Row r).gl z.row < PC.row.dist.nrTiles := qr.gl_lt hz.1.1 hz.1.2
          have gc0 := qc.gl_nonneg hz.2.1
          have gc1 : (PC.at' .Col r).gl z.col < PC.col.dist.nrTiles := qc.gl_lt hz.2.1 hz.2.2
          refine .one fun x hx => ?_
          have cA := qA.content_at (i := z.row) (s := 0) (e := nA) WA hz.1.1 (le_refl _) hD.aRow.nrTiles_nonneg (qA.gl_nonneg hz.1.1)
            (by rw [hrA r]; show _ < PA.row.dist.nrTiles; rw [hrow]; exact gr1)
          have cB := qB.content_at (i := z.col) (s := 0) (e := nB) WB hz.2.1 (le_refl _) hD.bCol.nrTiles_nonneg (qB.gl_nonneg hz.2.1)
            (by rw [hcB r]; show _ < PB.col.dist.nrTiles; rw [hcol]; exact gc1)
          obtain ⟨x1, e1, h1⟩ := hx.read hE hr (it := k) (n := 0) (dbg := dbg) (i := z.row) (Int.le_of_lt hkpos) (le_refl _) cA.2 cA.1
          obtain ⟨x2, e2, h2⟩ := h1.read hE hr (it := k) (n := 1) (dbg := dbg) (i := z.col) (Int.le_of_lt hkpos) (le_refl _) cB.2 cB.1
          have hstep' := hstep ((PC.at' .Row r).gl z.row).toNat (by unfold Params.ntn; omega) ((PC.at' .Col r).gl z.col).toNat
            (by unfold Params.ntn; omega)
          obtain ⟨x3, e3, h3⟩ := h2.task (n := 2) (idx := z) (f := fun c => gemm .NoTrans .NoTrans alpha (WA ((PA.at' .Row r).gl z.row))
            (WB ((PB.at' .Col r).gl z.col)) (if (k : Int) = 0 then beta else 1) c) (v := new r z) (by
              rw [Abs.setMat_same, show m z = M r 2 z from hm, show M r 2 z = _ from v3 z.row z.col hz.1.1 hz.1.2 hz.2.1 hz.2.2, hrA r, hcB r]
              rw [← hstep']
              congr 1
              simp)
          refine ⟨x3, ?_, ?_⟩
          · rw [e1, Option.bind_some, e2, Option.bind_some]
            exact e3
          · have : ((A3 r).setMat 2 m).setMat 2 (set1 (((A3 r).setMat 2 m).mat 2) z (new r z)) = (A3 r).setMat 2 (set1 m (id z) (new r (id z))) := by
              rw [Abs.setMat_same]
              unfold Abs.setMat
              dsimp only
              rw [set1_set1]
              rfl
            rw [← this]
            exact h3
        · simp only [List.map_id]
          rfl
      have G5 : GStep (genEnv PA PB PC) (rrIdx k) (fun r => List.map Instr.loc [fun s => (DSt.panel 0 (k : Int)).upd (fun v => some v.reset) s,
          fun s => (DSt.panel 1 (k : Int)).upd (fun v => some v.reset) s]) A4 A5 := by
        refine GStep.locals hE fun r hr => ?_
        refine LStep.cons (b := Abs.of (M' r) (rest r) [⟨PA.col.tile, 0, nA, fun _ => none⟩, ⟨kz, 0, nB, fB r⟩]) ?_ ?_
        · exact (LStep.reset (n := 0)).to (Abs.of2_0 _ _ _ _ _)
        · exact (LStep.reset (n := 1)).to (Abs.of2_1 _ _ _ _ _)
      refine ⟨A5, ((((G1.append G2).append G3).append G4).append G5).congr fun r _ => ?_, fun r hr => ⟨rfl, fun n => ?_⟩⟩
      · rfl
      · obtain ⟨s0, s1, s2⟩ := hss r hr n
        rcases n with _ | _ | n
        · exact ⟨rfl, rfl, le_refl _, fun _ => rfl, fun _ => rfl⟩
        · exact ⟨rfl, rfl, le_refl _, fun _ => rfl, fun _ => rfl⟩
        · exact ⟨rfl, rfl, s0, s1, s2⟩)
    hg
  exact ⟨g', M', h1, h2, hviews⟩
end
end DLAF
