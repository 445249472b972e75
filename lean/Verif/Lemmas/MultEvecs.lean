import Verif.Lemmas.RefRun
namespace DLAF
variable {K : Type*} [Field K] [StarRing K] [DecidableEq K]

theorem sub_on {P : Params2} (hr : P.row.Valid) (hc : P.col.Valid) {r : Coord2} (h : r ∈ P.ranks) {o n : Coord2} (ho : 0 ≤ o.row ∧ 0 ≤ o.col)
    (hn : 0 ≤ n.row ∧ 0 ≤ n.col) (hon : o.row + n.row ≤ P.row.size ∧ o.col + n.col ≤ P.col.size) :
    (P.on r).sub o n = some ((P.sub o n).on r) := by
  obtain ⟨vr, vc⟩ := Params2.at_valid hr hc h
  obtain ⟨d, hd⟩ := Option.isSome_iff_exists.1 ((C07_sub_accepts (pr := P.at' .Row r) (pc := P.at' .Col r) (o := o) (n := n)).2
    ⟨⟨ho.1, hn.1, hon.1⟩, ho.2, hn.2, hon.2⟩)
  have hd' : (P.on r).sub o n = some d := hd
  rw [hd']
  unfold Distribution.sub at hd
  split at hd
  · rw [vr.subBuild_eq ho.1 hn.1, vc.subBuild_eq ho.2 hn.2] at hd
    exact hd.symm
  · cases hd

/-- The three parts of a product. -/
theorem mulDist_sub {P : Params2} (hP : SquareDist P) (R C L m n k : Nat) :
    MulDist (P.sub ⟨R, L⟩ ⟨m, k⟩) (P.sub ⟨L, C⟩ ⟨k, n⟩) (P.sub ⟨R, C⟩ ⟨m, n⟩) := by
  have key : ∀ {p : Params}, Plain p → ∀ o l : Nat, Tiled (p.sub o l) := fun h o l => ⟨h.valid.sub (by omega) (by omega), h.block⟩
  refine ⟨key hP.row _ _, key hP.col _ _, key hP.row _ _, key hP.col _ _, rfl, rfl, rfl, hP.tile.symm, ?_, rfl, rfl⟩
  show (P.col.offset + L) % P.col.tile = (P.row.offset + L) % P.row.tile
  rw [hP.row.offset, hP.col.offset, hP.tile]

/-- The element-wise state of all processes. -/
structure EvHolds (P : Params2) (A0 A1 A2 : Nat → Nat → K) (g : Glob (DSt K × EvSt K) (Blk K)) : Prop where
  clean : Clean P.ranks g
  e0 : ∀ r ∈ P.ranks, HoldsLoc P r (g.st r).2.e0 A0
  e1 : ∀ r ∈ P.ranks, HoldsLoc P r (g.st r).2.e1 A1
  e2 : ∀ r ∈ P.ranks, HoldsLoc P r (g.st r).2.e2 A2

theorem gemmRef_runs {P : Params2} (hP : SquareDist P) (dbg : Bool) {R C L m n k : Nat} (hR : (R + m : Nat) ≤ P.row.size) (hC : (C + n : Nat) ≤ P.col.size)
    (hL : (L + k : Nat) ≤ P.row.size) {A0 A1 A2 : Nat → Nat → K} {g : Glob (DSt K × EvSt K) (Blk K)} (hg : EvHolds P A0 A1 A2 g) :
    ∃ g', Runs (fun r => if r ∈ P.ranks then gemmRef dbg (P.on r) ⟨R, L⟩ ⟨L, C⟩ ⟨R, C⟩ m n k else []) g g' ∧
      EvHolds P (winSet R C m n (fun x y => ∑ l ∈ Finset.range k, A1 (R + x) (L + l) * A2 (L + l) (C + y)) A0) A1 A2 g' ∧
      ∀ r ∈ P.ranks, (g'.st r).2.e1 = (g.st r).2.e1 ∧ (g'.st r).2.e2 = (g.st r).2.e2 := by
  have vr : P.row.Valid := hP.row.valid
  have vc : P.col.Valid := hP.col.valid
  have hsz := hP.size
  have hD := mulDist_sub hP R C L m n k
  set PA := P.sub ⟨R, L⟩ ⟨m, k⟩ with hPA
  set PB := P.sub ⟨L, C⟩ ⟨k, n⟩ with hPB
  set PC := P.sub ⟨R, C⟩ ⟨m, n⟩ with hPC
  have hG : PC.ranks = P.ranks := rfl
  have sa : ∀ r ∈ P.ranks, (P.on r).sub ⟨R, L⟩ ⟨m, k⟩ = some (PA.on r) := fun r h => sub_on vr vc h ⟨by dsimp only; omega, by dsimp only; omega⟩
    ⟨by dsimp only; omega, by dsimp only; omega⟩ ⟨by dsimp only; omega, by dsimp only; omega⟩
  have sb : ∀ r ∈ P.ranks, (P.on r).sub ⟨L, C⟩ ⟨k, n⟩ = some (PB.on r) := fun r h => sub_on vr vc h ⟨by dsimp only; omega, by dsimp only; omega⟩
    ⟨by dsimp only; omega, by dsimp only; omega⟩ ⟨by dsimp only; omega, by dsimp only; omega⟩
  have sc : ∀ r ∈ P.ranks, (P.on r).sub ⟨R, C⟩ ⟨m, n⟩ = some (PC.on r) := fun r h => sub_on vr vc h ⟨by dsimp only; omega, by dsimp only; omega⟩
    ⟨by dsimp only; omega, by dsimp only; omega⟩ ⟨by dsimp only; omega, by dsimp only; omega⟩
  -- the tiles
  let ma : Coord2 → Coord2 → Blk K := fun r => Ref.tiles (P.on r) ⟨R, L⟩ ⟨m, k⟩ (g.st r).2.e1
  let mb : Coord2 → Coord2 → Blk K := fun r => Ref.tiles (P.on r) ⟨L, C⟩ ⟨k, n⟩ (g.st r).2.e2
  let mc : Coord2 → Coord2 → Blk K := fun r => Ref.tiles (P.on r) ⟨R, C⟩ ⟨m, n⟩ (g.st r).2.e0
  have ba := refTiles_size vr vc (o := ⟨R, L⟩) (n := ⟨m, k⟩) ⟨by dsimp only; omega, by dsimp only; omega⟩
    ⟨by dsimp only; omega, by dsimp only; omega⟩ ⟨by dsimp only; omega, by dsimp only; omega⟩ fun r => (g.st r).2.e1
  have bb := refTiles_size vr vc (o := ⟨L, C⟩) (n := ⟨k, n⟩) ⟨by dsimp only; omega, by dsimp only; omega⟩
    ⟨by dsimp only; omega, by dsimp only; omega⟩ ⟨by dsimp only; omega, by dsimp only; omega⟩ fun r => (g.st r).2.e2
  have bc := refTiles_size vr vc (o := ⟨R, C⟩) (n := ⟨m, n⟩) ⟨by dsimp only; omega, by dsimp only; omega⟩
    ⟨by dsimp only; omega, by dsimp only; omega⟩ ⟨by dsimp only; omega, by dsimp only; omega⟩ fun r => (g.st r).2.e0
  have ea := refTiles_elem vr vc (o := ⟨R, L⟩) (n := ⟨m, k⟩) ⟨by dsimp only; omega, by dsimp only; omega⟩
    ⟨by dsimp only; omega, by dsimp only; omega⟩ ⟨by dsimp only; omega, by dsimp only; omega⟩ hg.e1
  have eb := refTiles_elem vr vc (o := ⟨L, C⟩) (n := ⟨k, n⟩) ⟨by dsimp only; omega, by dsimp only; omega⟩
    ⟨by dsimp only; omega, by dsimp only; omega⟩ ⟨by dsimp only; omega, by dsimp only; omega⟩ hg.e2
  have ec := refTiles_elem vr vc (o := ⟨R, C⟩) (n := ⟨m, n⟩) ⟨by dsimp only; omega, by dsimp only; omega⟩
    ⟨by dsimp only; omega, by dsimp only; omega⟩ ⟨by dsimp only; omega, by dsimp only; omega⟩ hg.e0
  rw [← hPA] at ba ea
  rw [← hPB] at bb eb
  rw [← hPC] at bc ec
  have hnAB : PA.col.dist.nrTiles = PB.row.dist.nrTiles := hD.aCol.nrTiles_eq hD.bRow hD.size hD.tile hD.inner
  have hkAB : PB.row.ntn = PA.col.ntn := by unfold Params.ntn; rw [hnAB]
  have hts : PB.row.tileSizes = PA.col.tileSizes := by
    funext i
    unfold Params.tileSizes
    rw [hD.aCol.tile_size_eq hD.bRow hD.size hD.tile hD.inner i]
  obtain ⟨c1, h1, h2, h3⟩ := C32_general (m := PC.row.ntn) (n := PC.col.ntn) (k := PA.col.ntn) (rs := PC.row.tileSizes) (cs := PC.col.tileSizes)
    (ks := PA.col.tileSizes) (1 : K) 0 (by rw [← hD.rows]; exact ba) (by rw [← hD.cols, ← hkAB, ← hts]; exact bb) bc
    (by rw [← hD.rows]; exact ea) (by rw [← hD.cols, ← hkAB, ← hts]; exact eb) ec
  have hk : tileStart PA.col.tileSizes PA.col.ntn = k := by
    have : ((tileStart PA.col.tileSizes PA.col.ntn : Nat) : Int) = PA.col.size := hD.aCol.valid.tileStart_all
    have e : PA.col.size = k := rfl
    omega
  rw [hk] at h3
  -- open
  have hne : Nonempty (DSt K) := ⟨(g.st ⟨0, 0⟩).1⟩
  choose! st' hst' using fun r (hr : r ∈ PC.ranks) => C54_workspaces_created (K := K) hD hr (ma r) (mb r) (mc r)
  let g1 : Glob (DSt K × EvSt K) (Blk K) := { g with st := fun r => if r ∈ P.ranks then (st' r, (g.st r).2) else g.st r }
  have r1 : Runs (fun r => if r ∈ P.ranks then ([.loc fun s => (distGenInit (PA.on r) (PB.on r) (Ref.tiles (P.on r) ⟨R, L⟩ ⟨m, k⟩ s.2.e1)
      (Ref.tiles (P.on r) ⟨L, C⟩ ⟨k, n⟩ s.2.e2) (Ref.tiles (P.on r) ⟨R, C⟩ ⟨m, n⟩ s.2.e0)).map fun g => (g, s.2)] : List (Instr (DSt K × EvSt K) (Blk K))) else []) g g1 :=
    Runs.loc P.ranks_nodup _ (fun r => (st' r, (g.st r).2)) (fun r => rfl) fun r hr => by
      show (distGenInit (PA.on r) (PB.on r) (ma r) (mb r) (mc r)).map _ = _
      rw [hst' r hr]
      rfl
  let g1' : Glob (DSt K) (Blk K) := ⟨fun r => (g1.st r).1, g1.cnt, g1.net⟩
  have hcl1 : Clean PC.ranks g1' := ⟨hg.clean.agree, hg.clean.fresh⟩
  obtain ⟨g2, q1, q2, q3⟩ := gen_runs hD dbg (1 : K) 0 ba bb bc h1 (ma := ma) (mb := mb) (mc := mc)
    (fun r _ => refTiles_holds _ r _ _) (fun r _ => refTiles_holds _ r _ _) (fun r _ => refTiles_holds _ r _ _) hcl1 (fun r hr => by
      rw [hst' r hr]
      show some (st' r) = some (if r ∈ P.ranks then (st' r, (g.st r).2) else g.st r).1
      rw [if_pos (show r ∈ P.ranks from hr)])
  have r2 := Runs.onFst q1 fun r => (g1.st r).2
  let g3 : Glob (DSt K × EvSt K) (Blk K) := ⟨fun r => (g2.st r, (g1.st r).2), g2.cnt, g2.net⟩
  let fin : Coord2 → DSt K × EvSt K := fun r => (g2.st r, { (g.st r).2 with e0 := Ref.put (P.on r) ⟨R, C⟩ ⟨m, n⟩ (g.st r).2.e0 ((g2.st r).mat 2) })
  let g4 : Glob (DSt K × EvSt K) (Blk K) := { g3 with st := fun r => if r ∈ P.ranks then fin r else g3.st r }
  have r3 : Runs (fun r => if r ∈ P.ranks then ([.loc fun s => some (s.1, { s.2 with e0 := Ref.put (P.on r) ⟨R, C⟩ ⟨m, n⟩ s.2.e0 (s.1.mat 2) })] :
      List (Instr (DSt K × EvSt K) (Blk K))) else []) g3 g4 :=
    Runs.loc P.ranks_nodup _ fin (fun r => rfl) fun r hr => by
      have : (g3.st r).2 = (g.st r).2 := by
        show (if r ∈ P.ranks then (st' r, (g.st r).2) else g.st r).2 = _
        rw [if_pos hr]
      show some ((g3.st r).1, { (g3.st r).2 with e0 := Ref.put (P.on r) ⟨R, C⟩ ⟨m, n⟩ (g3.st r).2.e0 ((g3.st r).1.mat 2) }) = _
      rw [this]
  refine ⟨g4, ((r1.append r2).append r3).congr fun r => ?_, ⟨⟨q2.agree, q2.fresh⟩, fun r hr => ?_, fun r hr => ?_, fun r hr => ?_⟩, fun r hr => ?_⟩
  · by_cases hr : r ∈ P.ranks
    · simp only [if_pos hr, if_pos (show r ∈ PC.ranks from hr)]
      unfold gemmRef
      rw [sa r hr, sb r hr, sc r hr]
    · simp only [if_neg hr, if_neg (show ¬ r ∈ PC.ranks from hr)]
      unfold Instr.onFstL
      rfl
  · show HoldsLoc P r (if r ∈ P.ranks then fin r else g3.st r).2.e0 _
    rw [if_pos hr]
    have := put_holds vr vc hR hC hr h2 (q3 r hr).1 h3 (hg.e0 r hr)
    refine fun x y hx hy ox oy => (this x y hx hy ox oy).trans ?_
    unfold winSet
    refine if_congr Iff.rfl ?_ rfl
    dsimp only
    rw [one_mul, zero_mul, add_zero]
    rfl
  · show HoldsLoc P r (if r ∈ P.ranks then fin r else g3.st r).2.e1 _
    rw [if_pos hr]
    exact hg.e1 r hr
  · show HoldsLoc P r (if r ∈ P.ranks then fin r else g3.st r).2.e2 _
    rw [if_pos hr]
    exact hg.e2 r hr
  · show (if r ∈ P.ranks then fin r else g3.st r).2.e1 = _ ∧ (if r ∈ P.ranks then fin r else g3.st r).2.e2 = _
    rw [if_pos hr]
    exact ⟨rfl, rfl⟩

end DLAF
