import Verif.Lemmas.DistTriangular
/- The distributed triangular multiplication and solver (NoTrans): the phases of an iteration together. -/
namespace DLAF
variable {K : Type*}

/-- After the last iteration: all messages have been received, the matrices are `M`. -/
structure GEnd (E : DEnv) (M : Coord2 → Nat → Coord2 → Blk K) (g : Glob (DSt K) (Blk K)) : Prop where
  clean : Clean E.G g
  mat : ∀ r ∈ E.G, (g.st r).mat = M r

theorem GIdle.toEnd {E : DEnv} {M : Coord2 → Nat → Coord2 → Blk K} {g : Glob (DSt K) (Blk K)} (h : GIdle E M g) : GEnd E M g :=
  ⟨h.clean, fun r hr => (h.all r hr).mat⟩

/-- An iteration that starts without panels in use. -/
theorem GStep.last {E : DEnv} {w : Bool} {p : Coord2 → List (Instr (DSt K) (Blk K))} {M M' : Coord2 → Nat → Coord2 → Blk K}
    (h : ∀ ss se : Coord2 → Nat → Int, (∀ r ∈ E.G, ∀ n, 0 ≤ ss r n ∧ (E.freeS n = false → ss r n = 0) ∧
        (E.freeE n = false → se r n = (E.crd n r).dist.nrTiles)) →
      ∃ B : Coord2 → Abs K, GStep E w p (fun r => ⟨M r, fun n => ⟨E.tile n, ss r n, se r n, fun _ => none⟩⟩) B ∧
        ∀ r ∈ E.G, (B r).mat = M' r)
    {g : Glob (DSt K) (Blk K)} (hg : GIdle E M g) :
    ∃ g', Runs (fun r => if r ∈ E.G then p r else []) g g' ∧ GEnd E M' g' := by
  classical
  have hex : ∀ r, ∃ ss se : Nat → Int, r ∈ E.G → PInv E r w ⟨M r, fun n => ⟨E.tile n, ss n, se n, fun _ => none⟩⟩ (g.st r) ∧
      ∀ n, 0 ≤ ss n ∧ (E.freeS n = false → ss n = 0) ∧ (E.freeE n = false → se n = (E.crd n r).dist.nrTiles) := by
    intro r
    by_cases hr : r ∈ E.G
    · obtain ⟨ss, se, h1, h2⟩ := (hg.all r hr).start w
      exact ⟨ss, se, fun _ => ⟨h1, h2⟩⟩
    · exact ⟨fun _ => 0, fun _ => 0, fun h => absurd h hr⟩
  choose ss se hss using hex
  obtain ⟨B, hB, hB'⟩ := h ss se (fun r hr => (hss r hr).2)
  obtain ⟨g', r1, i1⟩ := hB g ⟨hg.clean, fun r hr => (hss r hr).1⟩
  exact ⟨g', r1, i1.clean, fun r hr => (i1.all r hr).mat.trans (hB' r hr)⟩

namespace TriAlg
variable {t : TriAlg K} {PA PB : Params2}

/-- What an iteration does to the tiles of B, seen by lines: `i` and `k` are lines, `j` is the position in the line. -/
structure TileStep (t : TriAlg K) (PA PB : Params2) (a b b' : Tiles K) (k : Nat) : Prop where
  acc : t.accum = false
  lt : k < (PA.get t.axis).ntn
  fitsA : ∀ i < (PA.get t.axis).ntn, (if t.lower then k ≤ i else i ≤ k) → VPanel.fits (isTall t.axis) (a (i, k))
      ((PA.get t.axis).dist.global_tile_size_of k) ((PA.get t.axis.orth).dist.global_tile_size_of i) = true
  fitsB : ∀ j < (PB.get t.axis).ntn, VPanel.fits (isTall t.axis.orth) (if t.linkFirst then b (k, j) else b' (k, j))
      ((PA.get t.axis).dist.global_tile_size_of k) ((PB.get t.axis).dist.global_tile_size_of j) = true
  diag : ∀ j < (PB.get t.axis).ntn, t.diag (a (k, k)) (b (k, j)) = some (b' (k, j))
  upd : ∀ i < (PA.get t.axis).ntn, (if t.lower then k < i else i < k) → ∀ j < (PB.get t.axis).ntn,
      t.upd (a (i, k)) (if t.linkFirst then b (k, j) else b' (k, j)) (b (i, j)) = some (b' (i, j))
  rest : ∀ i < (PA.get t.axis).ntn, i ≠ k → ¬ (if t.lower then k < i else i < k) → ∀ j < (PB.get t.axis).ntn, b' (i, j) = b (i, j)

/-- The iteration without the rest. -/
def head (t : TriAlg K) (dbg : Bool) (junk : Int → Nat → Nat → Nat → K) (da db : Distribution) (k : Int) : List (Instr (DSt K) (Blk K)) :=
  (t.prep dbg junk da k).map Instr.loc ++
  bcastPanel dbg t.axis da ((da.get t.axis).rank_global_tile k) (DSt.panel 0 (t.iter da k)) (if t.lower then k else 0) (da.get t.axis.orth).nrTiles ++
  ((dirRange t.jUp 0 (db.get t.axis).localNrTiles).flatMap fun j => t.diagTile dbg da db k j).map Instr.loc

/-- The panels after the tiles of line `k` of B. -/
def absHead (t : TriAlg K) (PA PB : Params2) (junk : Coord2 → Int → Nat → Nat → Nat → K) (a b b' : Tiles K) (k : Nat)
    (M : Coord2 → Nat → Coord2 → Blk K) (rest : Coord2 → Nat → PanD K) (r : Coord2) : Abs K :=
  Abs.of (t.afterDiag PA PB k b' r (M r)) (rest r)
    [⟨(PA.get t.axis).dist.global_tile_size_of k, t.start k, (PA.get t.axis.orth).dist.nrTiles,
      content (PA.at' t.axis.orth r) (t.start k) (PA.get t.axis.orth).dist.nrTiles (t.wA PA junk a k)⟩,
    ⟨(PA.get t.axis).dist.global_tile_size_of k, 0, (PB.get t.axis).dist.nrTiles,
      if r.get t.axis.orth = (PA.get t.axis.orth).dist.rank_global_tile k then
        content (PB.at' t.axis r) 0 (PB.get t.axis).dist.nrTiles (fun j => if t.linkFirst then b (k, j.toNat) else b' (k, j.toNat)) else fun _ => none⟩]

/-- The panel of A after its broadcast. -/
def absA (t : TriAlg K) (PA PB : Params2) (junk : Coord2 → Int → Nat → Nat → Nat → K) (a : Tiles K) (k : Nat)
    (M : Coord2 → Nat → Coord2 → Blk K) (rest : Coord2 → Nat → PanD K) (r : Coord2) : Abs K :=
  Abs.of (M r) (rest r)
    [⟨(PA.get t.axis).dist.global_tile_size_of k, t.start k, (PA.get t.axis.orth).dist.nrTiles,
      content (PA.at' t.axis.orth r) (t.start k) (PA.get t.axis.orth).dist.nrTiles (t.wA PA junk a k)⟩,
    ⟨(PA.get t.axis).dist.global_tile_size_of k, 0, (PB.get t.axis).dist.nrTiles, fun _ => none⟩]

theorem panelA_step (h : TriDist t.axis.orth PA PB) {dbg : Bool} {junk : Coord2 → Int → Nat → Nat → Nat → K} {a b : Tiles K} {k : Nat}
    (hk : k < (PA.get t.axis).ntn)
    (hfa : ∀ i < (PA.get t.axis).ntn, (if t.lower then k ≤ i else i ≤ k) → VPanel.fits (isTall t.axis) (a (i, k))
      ((PA.get t.axis).dist.global_tile_size_of k) ((PA.get t.axis.orth).dist.global_tile_size_of i) = true)
    {M : Coord2 → Nat → Coord2 → Blk K}
    (hM : ∀ r ∈ PB.ranks, LView PA t.axis r a (M r 0) ∧ LView PB t.axis r b (M r 1)) {ss se : Coord2 → Nat → Int}
    (hss : ∀ r ∈ (t.env PA PB).G, ∀ n, 0 ≤ ss r n ∧ ((t.env PA PB).freeS n = false → ss r n = 0) ∧
        ((t.env PA PB).freeE n = false → se r n = ((t.env PA PB).crd n r).dist.nrTiles)) :
    GStep (t.env PA PB) (rrIdx (t.iterG PA k)) (fun r => (t.prep dbg (junk r) (PA.on r) k).map Instr.loc ++
        bcastPanel dbg t.axis (PA.on r) ((PA.get t.axis).dist.rank_global_tile k) (DSt.panel 0 (t.iterG PA k)) (t.start k) (PA.get t.axis.orth).dist.nrTiles)
      (fun r => ⟨M r, fun n => ⟨(t.env PA PB).tile n, ss r n, se r n, fun _ => none⟩⟩)
      (t.absA PA PB junk a k M fun r n => ⟨(t.env PA PB).tile n, ss r n, se r n, fun _ => none⟩) := by
  have hE := env_ok h
  have hn := h.nr_eq t.axis.orth t.axis
  have hkA : (k : Int) < (PA.get t.axis).dist.nrTiles := by unfold Params.ntn at hk; omega
  have hkpos := (h.plainA t.axis).size_pos (t := (k : Int)) (by omega) hkA
  have hst : 0 ≤ t.start k ∧ t.start k ≤ k := by unfold start; split <;> omega
  have hoA := ((h.plainA t.axis).valid.wf.cyc.rank_range (t := (k : Int)) (by omega))
  let rest : Coord2 → Nat → PanD K := fun r n => ⟨(t.env PA PB).tile n, ss r n, se r n, fun _ => none⟩
  let kz := (PA.get t.axis).dist.global_tile_size_of k
  let nA := (PA.get t.axis.orth).dist.nrTiles
  let nB := (PB.get t.axis).dist.nrTiles
  let W := t.wA PA junk a k
  let A1 : Coord2 → Abs K := fun r => Abs.of (M r) (rest r) [⟨kz, t.start k, nA,
      if r.get t.axis = (PA.get t.axis).dist.rank_global_tile k then content (PA.at' t.axis.orth r) (t.start k) nA W else fun _ => none⟩,
    ⟨kz, 0, nB, fun _ => none⟩]
  let A2 : Coord2 → Abs K := fun r => Abs.of (M r) (rest r) [⟨kz, t.start k, nA, content (PA.at' t.axis.orth r) (t.start k) nA W⟩,
    ⟨kz, 0, nB, fun _ => none⟩]
  have hstart : ∀ r ∈ PB.ranks, (⟨M r, fun n => rest r n⟩ : Abs K) =
      Abs.of (M r) (rest r) [⟨(PA.get t.axis).tile, ss r 0, nA, fun _ => none⟩, ⟨(PB.get t.axis.orth).tile, 0, nB, fun _ => none⟩] := by
    intro r hr
    unfold Abs.of
    congr 1
    funext n
    obtain ⟨_, s1, s2⟩ := hss r hr n
    rcases n with _ | _ | n
    · show (⟨_, ss r 0, se r 0, _⟩ : PanD K) = _
      rw [s2 rfl]
      rfl
    · show (⟨_, ss r 1, se r 1, _⟩ : PanD K) = _
      rw [s1 rfl, s2 rfl, crd1]
      rfl
    · rfl
  have G1 : GStep (t.env PA PB) (rrIdx (t.iterG PA k)) (fun r => (t.prep dbg (junk r) (PA.on r) k).map Instr.loc)
      (fun r => ⟨M r, fun n => rest r n⟩) A1 := by
    refine GStep.locals hE fun r hr => ?_
    rw [hstart r hr]
    refine prep_step h hk hfa hr (hM r hr).1 (hss r hr 0).1 fun hl => (hss r hr 0).2.1 ?_
    show (decide (0 = 0) && t.lower) = false
    rw [hl]
    rfl
  have G2 : GStep (t.env PA PB) (rrIdx (t.iterG PA k)) (fun r => bcastPanel dbg t.axis (PA.on r) ((PA.get t.axis).dist.rank_global_tile k)
      (DSt.panel 0 (t.iterG PA k)) (t.start k) nA) A1 A2 := by
    refine (GStep.bcastAll hE 0 (dbg := dbg) (it := t.iterG PA k) (root := (PA.get t.axis).dist.rank_global_tile k) hoA (ax := kz) (s := t.start k) (e := nA)
      (Int.le_of_lt hkpos) hst.1 (by show t.start k ≤ (PA.get t.axis.orth).dist.nrTiles; omega) (le_refl _) W (fun i h0 h1 => wA_fits h hk hfa h0 h1)
      (fun r _ => rfl)).to fun r _ => ?_
    exact Abs.of2_0 _ _ _ _ _
  exact G1.append G2

theorem head_step (h : TriDist t.axis.orth PA PB) {dbg : Bool} {junk : Coord2 → Int → Nat → Nat → Nat → K} {a b b' : Tiles K} {k : Nat}
    (hT : t.TileStep PA PB a b b' k) {M : Coord2 → Nat → Coord2 → Blk K}
    (hM : ∀ r ∈ PB.ranks, LView PA t.axis r a (M r 0) ∧ LView PB t.axis r b (M r 1)) {ss se : Coord2 → Nat → Int}
    (hss : ∀ r ∈ (t.env PA PB).G, ∀ n, 0 ≤ ss r n ∧ ((t.env PA PB).freeS n = false → ss r n = 0) ∧
        ((t.env PA PB).freeE n = false → se r n = ((t.env PA PB).crd n r).dist.nrTiles)) :
    GStep (t.env PA PB) (rrIdx (t.iterG PA k)) (fun r => t.head dbg (junk r) (PA.on r) (PB.on r) k)
      (fun r => ⟨M r, fun n => ⟨(t.env PA PB).tile n, ss r n, se r n, fun _ => none⟩⟩)
      (t.absHead PA PB junk a b b' k M fun r n => ⟨(t.env PA PB).tile n, ss r n, se r n, fun _ => none⟩) := by
  have hE := env_ok h
  have hk := hT.lt
  let rest : Coord2 → Nat → PanD K := fun r n => ⟨(t.env PA PB).tile n, ss r n, se r n, fun _ => none⟩
  let W := t.wA PA junk a k
  have G2 := panelA_step (dbg := dbg) (junk := junk) h hk hT.fitsA hM hss
  have G3 : GStep (t.env PA PB) (rrIdx (t.iterG PA k))
      (fun r => ((dirRange t.jUp 0 ((PB.on r).get t.axis).localNrTiles).flatMap fun j => t.diagTile dbg (PA.on r) (PB.on r) k j).map Instr.loc) (t.absA PA PB junk a k M rest)
      (t.absHead PA PB junk a b b' k M rest) := by
    refine GStep.locals hE fun r hr => ?_
    refine (diag_step h hT.acc hk (P := fun j => if t.linkFirst then b (k, j) else b' (k, j)) (W := W) (a := a) (b := b) (b' := b') ?_ hT.fitsB (fun j _ => rfl) hT.diag hr (hM r hr).2)
    show t.wA PA junk a k k = _
    unfold wA
    rw [if_pos (Or.inr (le_refl _))]
    rfl
  refine (G2.append G3).congr fun r _ => ?_
  unfold head
  rw [iter_on, Params2.on_get, Params2.on_get]
  rfl

/-- One iteration. -/
theorem full_step (h : TriDist t.axis.orth PA PB) {dbg : Bool} {junk : Coord2 → Int → Nat → Nat → Nat → K} {a b b' : Tiles K} {k : Nat}
    (hT : t.TileStep PA PB a b b' k) {M : Coord2 → Nat → Coord2 → Blk K}
    (hM : ∀ r ∈ PB.ranks, LView PA t.axis r a (M r 0) ∧ LView PB t.axis r b (M r 1))
    {g : Glob (DSt K) (Blk K)} (hg : GIdle (t.env PA PB) M g) :
    ∃ g' M', Runs (fun r => if r ∈ PB.ranks then t.head dbg (junk r) (PA.on r) (PB.on r) k ++ t.rest dbg (PA.on r) (PB.on r) k else []) g g' ∧
      GIdle (t.env PA PB) M' g' ∧
      ∀ r ∈ PB.ranks, M' r 0 = M r 0 ∧ LView PA t.axis r a (M' r 0) ∧ LView PB t.axis r b' (M' r 1) := by
  have hE := env_ok h
  have hk := hT.lt
  have hn := h.nr_eq t.axis.orth t.axis
  have hkA : (k : Int) < (PA.get t.axis).dist.nrTiles := by unfold Params.ntn at hk; omega
  have hkpos := (h.plainA t.axis).size_pos (t := (k : Int)) (by omega) hkA
  have hst : 0 ≤ t.start k ∧ t.start k ≤ k := by unfold start; split <;> omega
  have hoB : 0 ≤ (PA.get t.axis.orth).dist.rank_global_tile k ∧ (PA.get t.axis.orth).dist.rank_global_tile k < (PB.get t.axis.orth).grid := by
    rw [h.lines]
    exact (h.plainA t.axis.orth).valid.wf.cyc.rank_range (t := (k : Int)) (by omega)
  obtain ⟨g', h1, h2⟩ := GStep.iter (E := t.env PA PB) (w := rrIdx (t.iterG PA k)) (M := M) (M' := fun r => t.afterUpd PA PB k b' r (M r))
    (p := fun r => t.head dbg (junk r) (PA.on r) (PB.on r) k ++ t.rest dbg (PA.on r) (PB.on r) k) (by
      intro ss se hss
      let rest : Coord2 → Nat → PanD K := fun r n => ⟨(t.env PA PB).tile n, ss r n, se r n, fun _ => none⟩
      let kz := (PA.get t.axis).dist.global_tile_size_of k
      let nA := (PA.get t.axis.orth).dist.nrTiles
      let nB := (PB.get t.axis).dist.nrTiles
      let W := t.wA PA junk a k
      let P : Nat → Blk K := fun j => if t.linkFirst then b (k, j) else b' (k, j)
      let fA : Coord2 → Int → Option (Blk K) := fun r => content (PA.at' t.axis.orth r) (t.start k) nA W
      let fB : Coord2 → Int → Option (Blk K) := fun r => content (PB.at' t.axis r) 0 nB (fun j => P j.toNat)
      let A4 : Coord2 → Abs K := fun r => Abs.of (t.afterDiag PA PB k b' r (M r)) (rest r) [⟨kz, t.start k, nA, fA r⟩, ⟨kz, 0, nB, fB r⟩]
      let A5 : Coord2 → Abs K := fun r => Abs.of (t.afterUpd PA PB k b' r (M r)) (rest r) [⟨kz, t.start k, nA, fA r⟩, ⟨kz, 0, nB, fB r⟩]
      let A6 : Coord2 → Abs K := fun r => Abs.of (t.afterUpd PA PB k b' r (M r)) (rest r)
        [⟨(PA.get t.axis).tile, t.start k, nA, fun _ => none⟩, ⟨(PB.get t.axis.orth).tile, 0, nB, fun _ => none⟩]
      have G4 : GStep (t.env PA PB) (rrIdx (t.iterG PA k)) (fun r => bcastPanel dbg t.axis.orth (PB.on r) ((PA.get t.axis.orth).dist.rank_global_tile k)
          (DSt.panel 1 (t.iterG PA k)) 0 nB) (t.absHead PA PB junk a b b' k M rest) A4 := by
        refine (GStep.bcastAll hE 1 (dbg := dbg) (it := t.iterG PA k) (root := (PA.get t.axis.orth).dist.rank_global_tile k) hoB (ax := kz) (s := 0)
          (e := nB) (Int.le_of_lt hkpos) (le_refl _) (h.plainB t.axis).nrTiles_nonneg ?_ (fun j => P j.toNat) ?_ (fun r _ => ?_)
          (show (decide (1 = 1) && t.accum) = false by rw [hT.acc]; rfl)).to fun r _ => ?_
        · show nB ≤ (PB.get t.axis.orth.orth).dist.nrTiles
          rw [orth_orth]
        · intro j h0 h1
          show VPanel.fits (isTall t.axis.orth) _ _ ((PB.get t.axis.orth.orth).dist.global_tile_size_of j) = true
          rw [orth_orth]
          have := hT.fitsB j.toNat (by show _ < (PB.get t.axis).dist.nrTiles.toNat; have : nB = (PB.get t.axis).dist.nrTiles := rfl; omega)
          rwa [show ((j.toNat : Nat) : Int) = j by omega] at this
        · rw [crd1]
          rfl
        · rw [crd1]
          exact Abs.of2_1 _ _ _ _ _
      have G5 : GStep (t.env PA PB) (rrIdx (t.iterG PA k)) (fun r => (t.update dbg (PA.on r) (PB.on r) k).map Instr.loc) A4 A5 := by
        refine GStep.locals hE fun r hr => ?_
        refine update_step h hk (P := P) (W := W) (a := a) (b := b) (b' := b') ?_ hT.upd hr ?_
        · intro i hi
          show t.wA PA junk a k i = _
          unfold wA
          rw [if_pos]
          · rfl
          · cases hl : t.lower
            · rw [hl] at hi
              right
              simp only [Bool.false_eq_true, if_false] at hi
              omega
            · left; rfl
        · intro i hi j hj
          rw [mem_trailing h hr hk] at hi
          rw [mem_dirRange] at hj
          rw [afterDiag_at h b' hr (hM r hr).2 hi.1 hi.2.1 hj.1 hj.2, if_neg]
          have := hi.2.2
          split at this <;> omega
      have G6 : GStep (t.env PA PB) (rrIdx (t.iterG PA k)) (fun r => List.map Instr.loc
          [fun s => (DSt.panel 0 (t.iterG PA k)).upd (fun v => some v.reset) s, fun s => (DSt.panel 1 (t.iterG PA k)).upd (fun v => some v.reset) s]) A5 A6 := by
        refine GStep.locals hE fun r hr => ?_
        refine LStep.cons (b := Abs.of (t.afterUpd PA PB k b' r (M r)) (rest r) [⟨(PA.get t.axis).tile, t.start k, nA, fun _ => none⟩, ⟨kz, 0, nB, fB r⟩]) ?_ ?_
        · exact (LStep.reset (n := 0)).to (Abs.of2_0 _ _ _ _ _)
        · exact (LStep.reset (n := 1)).to (Abs.of2_1 _ _ _ _ _)
      refine ⟨A6, ((head_step (dbg := dbg) h hT hM hss).append ((G4.append G5).append G6)).congr fun r _ => ?_, fun r hr => ⟨rfl, fun n => ?_⟩⟩
      · unfold TriAlg.rest
        rw [iter_on, Params2.on_get, Params2.on_get]
        rfl
      · obtain ⟨s0, s1, s2⟩ := hss r hr n
        rcases n with _ | _ | n
        · refine ⟨rfl, rfl, hst.1, fun hl => ?_, fun _ => rfl⟩
          have hl' : (decide (0 = 0) && t.lower) = false := hl
          simp only [decide_true, Bool.true_and] at hl'
          show t.start k = 0
          unfold start
          rw [hl']
          rfl
        · exact ⟨rfl, rfl, le_refl _, fun _ => rfl, fun _ => by rw [crd1]; rfl⟩
        · exact ⟨rfl, rfl, s0, s1, s2⟩) hg
  refine ⟨g', _, h1, h2, fun r hr => ⟨rfl, (hM r hr).1, ?_⟩⟩
  exact afterUpd_view h hk hr (hM r hr).2 hT.rest

/-- The last iteration of the solver. -/
theorem last_step (h : TriDist t.axis.orth PA PB) {dbg : Bool} {junk : Coord2 → Int → Nat → Nat → Nat → K} {a b b' : Tiles K} {k : Nat}
    (hT : t.TileStep PA PB a b b' k) (hlast : ∀ i < (PA.get t.axis).ntn, ¬ (if t.lower then k < i else i < k)) {M : Coord2 → Nat → Coord2 → Blk K}
    (hM : ∀ r ∈ PB.ranks, LView PA t.axis r a (M r 0) ∧ LView PB t.axis r b (M r 1))
    {g : Glob (DSt K) (Blk K)} (hg : GIdle (t.env PA PB) M g) :
    ∃ g' M', Runs (fun r => if r ∈ PB.ranks then t.head dbg (junk r) (PA.on r) (PB.on r) k else []) g g' ∧
      GEnd (t.env PA PB) M' g' ∧
      ∀ r ∈ PB.ranks, M' r 0 = M r 0 ∧ LView PA t.axis r a (M' r 0) ∧ LView PB t.axis r b' (M' r 1) := by
  obtain ⟨g', h1, h2⟩ := GStep.last (E := t.env PA PB) (w := rrIdx (t.iterG PA k)) (M := M) (M' := fun r => t.afterDiag PA PB k b' r (M r))
    (p := fun r => t.head dbg (junk r) (PA.on r) (PB.on r) k) (fun ss se hss => ⟨_, head_step h hT hM hss, fun r _ => rfl⟩) hg
  refine ⟨g', _, h1, h2, fun r hr => ⟨rfl, (hM r hr).1, ?_⟩⟩
  have := afterUpd_view h hT.lt hr (hM r hr).2 hT.rest
  intro i j hi hi' hj hj'
  have q := this i j hi hi' hj hj'
  have hpo : Plain (PB.at' t.axis.orth r) := Params2.plain (h.plainB _) hr
  unfold afterUpd at q
  rw [set1_same, if_neg] at q
  · exact q
  · rw [mem_trailPos, mem_trailing h hr hT.lt]
    rintro ⟨⟨_, _, hc⟩, _⟩
    have gi0 := hpo.gl_nonneg hi
    have gi1 : (PB.at' t.axis.orth r).gl i < (PB.get t.axis.orth).dist.nrTiles := hpo.gl_lt hi hi'
    rw [h.lines, h.nr_eq t.axis.orth t.axis] at gi1
    refine hlast ((PB.at' t.axis.orth r).gl i).toNat (by unfold Params.ntn; omega) ?_
    split <;> rename_i hl
    · rw [if_pos hl] at hc; omega
    · rw [if_neg hl] at hc; omega

end TriAlg
end DLAF
