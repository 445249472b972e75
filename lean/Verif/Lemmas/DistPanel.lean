import Verif.Model.DistPanel
import Verif.Lemmas.Spmd
import Verif.Spec.Spmd
import Verif.Props.Panel
/- A panel as a map from the tiles of its range to tile contents. -/
namespace DLAF
variable {K : Type*}

theorem Plain.onRank {p : Params} (h : Plain p) {r : Int} (h0 : 0 ≤ r) (h1 : r < p.grid) : Plain (p.onRank r) :=
  ⟨⟨h.valid.onRank h0 h1, h.block⟩, h.offset⟩

theorem Tiled.onRank {p : Params} (h : Tiled p) {r : Int} (h0 : 0 ≤ r) (h1 : r < p.grid) : Tiled (p.onRank r) :=
  ⟨h.valid.onRank h0 h1, h.block⟩

theorem Plain.transpose {p : Params} (h : Plain p) : VPanel.transposeDist p.dist = p.dist := by
  have hs := h.valid.src_eq
  rw [h.offset] at hs
  have hb : 0 < p.block := h.valid.2.1
  have hsrc : p.dist.src = p.src := by
    rw [hs, Int.zero_ediv, Int.add_zero]
    exact Int.emod_eq_of_lt h.valid.2.2.2.2.2.2.1.1 h.valid.2.2.2.2.2.2.1.2
  unfold VPanel.transposeDist
  rw [hsrc]
  show Dist1.build p.size p.tile p.tile p.grid p.rank p.src 0 = Dist1.build p.size p.block p.tile p.grid p.rank p.src p.offset
  rw [h.block, h.offset]

/-- Local size of the tile with local index `i`. -/
def tsz (p : Params) (i : Int) : Int := p.dist.global_tile_size_of (p.dist.global_tile_from_local_tile i)

/-- The panel `v` gives access to the tiles of `[s, e)`; its tile with local index `i` holds `f i` (`none`: not set
since the last reset). -/
structure PanelIs (p : Params) (tall : Bool) (tile ax : Int) (s e : Int) (f : Int → Option (Blk K)) (v : VPanel K) : Prop where
  dist : v.p.dist = p.dist
  axis : v.p.axisTile = tile
  tallEq : v.tall = tall
  data : Panel.setupInternal p.dist 0 = some v.p.data
  bias : v.p.bias = 0
  len : v.p.external.length = p.dist.localNrTiles.toNat
  dim : (v.p.dim = -1 ∧ ax = tile) ∨ (v.p.dim = ax ∧ 0 < ax ∧ ax ≤ tile)
  off : v.p.startOffset = 0
  start : v.p.start = s
  stop : v.p.stop = e
  startLocal : v.p.startLocal = p.dist.next_local_tile_from_global_tile s
  stopLocal : v.p.stopLocal = p.dist.next_local_tile_from_global_tile e
  rng : s ≤ e ∧ e ≤ p.dist.nrTiles
  used : v.p.used = true → ∃ i, f i ≠ none
  supp : ∀ i, f i ≠ none → 0 ≤ i ∧ i < p.dist.localNrTiles
  empty : ∀ i, 0 ≤ i → i < p.dist.localNrTiles → f i = none → v.p.external[i.toNat]?.join = none ∧ i.toNat ∉ v.p.internal ∧
    v.mem i.toNat = none
  full : ∀ i b, 0 ≤ i → i < p.dist.localNrTiles → f i = some b → VPanel.fits tall b ax (tsz p i) = true ∧
    (v.p.external[i.toNat]?.join = some b ∨ (v.p.external[i.toNat]?.join = none ∧ v.mem i.toNat = some b))

section
variable {p : Params} {tall : Bool} {tile ax s e : Int} {f : Int → Option (Blk K)} {v : VPanel K} {dbg : Bool}

/-- The offset within the first tile, on the process that has it. -/
theorem Tiled.setup_eq (hp : Tiled p) : Panel.setupInternal p.dist 0 =
    if 0 ≤ p.dist.localSize + p.dist.local_tile_element_offset then
      some (Dist1.buildLocal (p.dist.localSize + p.dist.local_tile_element_offset) p.tile 0) else none := by
  have h0 : p.dist.next_local_tile_from_global_tile 0 = 0 := hp.valid.wf.cyc.next_local_zero
  have htp : 0 < p.tile := hp.valid.2.2.1
  have hts : p.dist.tileSize = p.tile := rfl
  have hg : p.dist.offset = p.dist.global_tile_element_offset := by
    rw [hp.valid.offset_eq, hp.valid.gteo_eq, hp.block]
  have hlo : (if p.dist.src = p.dist.rank then p.dist.localSize + p.dist.offset else p.dist.localSize) =
      p.dist.localSize + p.dist.local_tile_element_offset := by
    unfold Dist1.local_tile_element_offset
    rw [hg]
    by_cases h : p.dist.src = p.dist.rank
    · rw [if_pos h, if_pos h.symm]
    · rw [if_neg h, if_neg (fun x => h x.symm), Int.add_zero]
  unfold Panel.setupInternal
  rw [if_pos (Or.inl rfl), h0]
  simp only [Int.zero_mul, Int.sub_zero]
  rw [hlo, hts]
  by_cases h : 0 ≤ p.dist.localSize + p.dist.local_tile_element_offset
  · rw [if_pos ⟨h, by omega⟩, if_pos h]
  · rw [if_neg (fun x => h x.1), if_neg h]

theorem localData_nrTiles {L t : Int} (ht : 0 < t) {m : Int} (h1 : 0 < L) (h2 : (m - 1) * t < L) (h3 : L ≤ m * t) :
    (Dist1.buildLocal L t 0).nrTiles = m := by
  have e1 : (Dist1.buildLocal L t 0).nrTiles = if L > 0 then ceilDiv L t else 0 := by
    simp [Dist1.buildLocal, Dist1.normalize, Dist1.compute_global_nr_tiles, Dist1.global_tile_element_offset, cmod]
  have e3 : (m - 1) * t = m * t - t := by rw [Int.sub_mul, Int.one_mul]
  have hm : 0 ≤ m := by
    by_contra hc
    have := Int.mul_nonneg (show (0:Int) ≤ -m by omega) (Int.le_of_lt ht)
    rw [Int.neg_mul] at this
    omega
  rw [e1, if_pos h1]
  unfold ceilDiv
  exact cdiv_eq hm (by omega) (by omega) (show L + t - 1 = m * t + (L + t - 1 - m * t) by omega)

theorem localData_size {L t : Int} (i : Int) :
    (Dist1.buildLocal L t 0).local_tile_size_of i = if i = 0 then min t L else min t (L - i * t) := by
  have hg : Dist1.global_tile_element_offset (Dist1.buildLocal L t 0) = 0 := by
    simp [Dist1.buildLocal, Dist1.normalize, Dist1.compute_global_nr_tiles, Dist1.global_tile_element_offset, cmod]
  have hl : Dist1.local_tile_element_offset (Dist1.buildLocal L t 0) = 0 := by
    unfold Dist1.local_tile_element_offset
    rw [hg, ite_self]
  have hsz : Dist1.localSize (Dist1.buildLocal L t 0) = L := rfl
  have htz : Dist1.tileSize (Dist1.buildLocal L t 0) = t := rfl
  unfold Dist1.local_tile_size_of
  rw [hl, hsz, htz]
  split
  · rw [Int.sub_zero]
  · rw [Int.add_zero]

theorem Tiled.data_tile (hp : Tiled p) {data : Dist1} (hd : Panel.setupInternal p.dist 0 = some data) {i : Int}
    (hi : 0 ≤ i) (hi' : i < p.dist.localNrTiles) :
    tsz p i ≤ data.local_tile_size_of i ∧ (p.dist.offset = 0 → data.local_tile_size_of i = tsz p i) ∧ i < data.nrTiles := by
  have w := hp.valid.wf
  have hbnd := w.localSize_bounds (by omega)
  have htp : 0 < p.tile := hp.valid.2.2.1
  have hts : p.dist.tileSize = p.tile := rfl
  have hlo : 0 ≤ p.dist.local_tile_element_offset := by
    have := w.gteo_nonneg
    unfold Dist1.local_tile_element_offset
    split <;> omega
  have hn : 0 ≤ (p.dist.localNrTiles - 1) * p.tile := Int.mul_nonneg (by omega) (by omega)
  rw [hts] at hbnd
  rw [hp.setup_eq] at hd
  split at hd
  · rw [Option.some.injEq] at hd
    subst hd
    rw [localData_nrTiles htp (by omega) hbnd.2.1 hbnd.2.2, localData_size, tsz, ← w.local_tsz_eq hi hi']
    unfold Dist1.local_tile_size_of
    rw [hts]
    refine ⟨?_, fun ho => ?_, hi'⟩
    · split
      · omega
      · omega
    · have hz : p.dist.local_tile_element_offset = 0 := by
        have : p.dist.global_tile_element_offset = 0 := by
          rw [hp.valid.gteo_eq, ← hp.block, ← hp.valid.offset_eq, ho]
        unfold Dist1.local_tile_element_offset
        rw [this, ite_self]
      rw [hz, Int.add_zero, Int.sub_zero]
  · simp at hd

theorem tsz_nonneg (hp : Tiled p) {i : Int} (hi : 0 ≤ i) (hi' : i < p.dist.localNrTiles) : 0 ≤ tsz p i := by
  have w := hp.valid.wf
  unfold tsz
  have hlt := w.cyc.global_lt hi w.nrTiles_nonneg
  obtain ⟨g0, g1, g2⟩ := w.cyc.global_local hi
  have h1 : p.dist.global_tile_from_local_tile i < p.dist.nrTiles := hlt (by have := w.localNrTiles_eq; unfold Dist1.next_local_tile_from_global_tile at this; omega)
  have := w.global_tsz_pos (t := p.dist.global_tile_from_local_tile i) g0 h1
  omega

theorem internalTile_eq (hp : Tiled p) (hax : 0 ≤ ax) {q : Panel (Blk K)} (h1 : q.dist = p.dist) (h2 : q.axisTile = tile)
    (h3 : Panel.setupInternal p.dist 0 = some q.data) (h4 : (q.dim = -1 ∧ ax = tile) ∨ (q.dim = ax ∧ 0 < ax ∧ ax ≤ tile))
    (h5 : q.startOffset = 0) {i : Int}
    (hi : 0 ≤ i) (hi' : i < p.dist.localNrTiles) :
    q.internalTile i i.toNat = some (.tile i.toNat ax (tsz p i)) := by
  have hd := hp.data_tile h3 hi hi'
  have ht := tsz_nonneg hp hi hi'
  have hc : ((i.toNat : Nat) : Int) = i := Int.toNat_of_nonneg hi
  have hsz : q.tileSize i = (ax, tsz p i) := by
    unfold Panel.tileSize
    rw [h5, h2, h1]
    rcases h4 with ⟨h4, rfl⟩ | ⟨h4, h6, _⟩
    · rw [h4]; simp [tsz]
    · rw [h4, if_neg (by omega)]; simp [tsz]
  have hle : ax ≤ tile := by rcases h4 with ⟨_, rfl⟩ | ⟨_, _, h⟩ <;> omega
  unfold Panel.internalTile
  split
  · rename_i hq
    rcases h4 with ⟨h4, rfl⟩ | ⟨h4, h6, _⟩
    · have ho : p.dist.offset = 0 := by
        rw [Bool.and_eq_true, Bool.and_eq_true] at hq
        have := hq.2.2
        unfold Panel.isFirstGlobalTileFull Panel.isBoundToMatrixWithOffset at this
        rw [h1] at this
        rw [Bool.and_eq_true] at this
        simpa using this.2
      rw [h2, hc, hd.2.1 ho]
    · rw [Bool.and_eq_true, decide_eq_true_eq] at hq
      omega
  · rw [hsz, h2, hc]
    dsimp only
    rw [if_pos ⟨⟨hax, hle⟩, ht, hd.1⟩]

/-- A local index in the panel's range. -/
def InRange (p : Params) (s e i : Int) : Prop :=
  p.dist.next_local_tile_from_global_tile s ≤ i ∧ i < p.dist.next_local_tile_from_global_tile e

theorem InRange.bounds (hp : Tiled p) (hs : 0 ≤ s) (he : e ≤ p.dist.nrTiles) {i : Int} (h : InRange p s e i) (hse : s ≤ e) :
    0 ≤ i ∧ i < p.dist.localNrTiles := by
  have w := hp.valid.wf
  have h1 : 0 ≤ p.dist.next_local_tile_from_global_tile s := w.cyc.next_local_nonneg hs
  have h2 : p.dist.next_local_tile_from_global_tile e ≤ p.dist.next_local_tile_from_global_tile p.dist.nrTiles :=
    w.cyc.next_local_mono (by omega) he
  rw [w.localNrTiles_eq]
  have : p.dist.next_local_tile_from_global_tile p.dist.nrTiles =
    util.next_local_tile_from_global_tile p.dist.nrTiles p.dist.tiles_per_block p.dist.grid p.dist.rank p.dist.src
      p.dist.global_tile_offset := rfl
  unfold InRange at h
  constructor
  · omega
  · rw [this] at h2; omega

theorem PanelIs.linear (h : PanelIs p tall tile ax s e f v) (hp : Tiled p) (hs : 0 ≤ s) {i : Int} (hi : InRange p s e i) :
    v.p.linearIndex dbg i = some i.toNat := by
  obtain ⟨b1, b2⟩ := hi.bounds hp hs h.rng.2 h.rng.1
  unfold Panel.linearIndex
  rw [h.startLocal, h.stopLocal, h.bias, h.len]
  have hc : (dbg && !(decide (p.dist.next_local_tile_from_global_tile s ≤ i) && decide (i < p.dist.next_local_tile_from_global_tile e))) = false := by
    simp [hi.1, hi.2]
  rw [hc]
  simp only [Bool.false_eq_true, if_false, Int.sub_zero]
  rw [if_pos]
  omega

/-- A newly constructed panel. -/
theorem panel_create_tiled (hp : Tiled p) (tall : Bool) (ax : Int) (hz : p.offset = 0 ∨ 0 < p.size) : ∃ v : VPanel K,
    VPanel.create tall p.dist ax = some v ∧ PanelIs p tall ax ax 0 p.dist.nrTiles (fun _ => none) v := by
  have w := hp.valid.wf
  have h0 : p.dist.next_local_tile_from_global_tile 0 = 0 := w.cyc.next_local_zero
  have htp : 0 < p.tile := hp.valid.2.2.1
  have hts : p.dist.tileSize = p.tile := rfl
  obtain ⟨data, hd, hdn⟩ : ∃ data, Panel.setupInternal p.dist 0 = some data ∧ data.nrTiles = p.dist.localNrTiles := by
    rw [hp.setup_eq]
    by_cases hl : 0 < p.dist.localNrTiles
    · have hbnd := w.localSize_bounds hl
      rw [hts] at hbnd
      have hpos : 0 ≤ (p.dist.localNrTiles - 1) * p.tile := Int.mul_nonneg (by omega) (by omega)
      rw [if_pos (by omega)]
      exact ⟨_, rfl, localData_nrTiles htp (by omega) hbnd.2.1 hbnd.2.2⟩
    · have := w.localNrTiles_nonneg
      have h00 : p.dist.localNrTiles = 0 := by omega
      have hzs : p.dist.localSize = 0 := by
        by_contra hz
        have := w.pos_of_localSize hz
        omega
      have hlo : p.dist.local_tile_element_offset = 0 := by
        unfold Dist1.local_tile_element_offset
        split
        · rename_i hr
          rcases hz with hz | hz
          · rw [hp.valid.gteo_eq, hz, Int.zero_emod]
          · exfalso
            have hnt := (w.nrTiles_pos (show 0 < p.dist.size from hz)).1
            obtain ⟨q1, q2, q3⟩ := w.cyc.global_local (le_refl 0)
            have hg0 := (w.global_zero_iff (le_refl 0)).2 ⟨rfl, hr⟩
            unfold Dist1.global_tile_from_local_tile at hg0
            rw [hg0] at q2
            have := w.cyc.local_lt (le_refl 0) hnt q2.symm
            rw [w.cyc.local_eq_next (le_refl 0) q2.symm, w.cyc.next_local_zero] at this
            exact hl (by rw [w.localNrTiles_eq]; exact this)
        · rfl
      rw [hzs, hlo, h00]
      exact ⟨_, if_pos (by omega), by simp [Dist1.buildLocal, Dist1.normalize, Dist1.compute_global_nr_tiles]⟩
  have hn := w.nrTiles_nonneg
  refine ⟨_, by
    unfold VPanel.create Panel.create
    rw [hd, Option.bind_some, if_pos (show p.dist.blockSize = p.dist.tileSize from hp.block)]
    simp only [Panel.initRange, h0, hn, Int.le_refl, and_self, if_true, Option.map_some]
    rfl, ?_⟩
  refine ⟨rfl, rfl, rfl, hd, rfl, by simp [hdn], Or.inl ⟨rfl, rfl⟩, rfl, rfl, rfl, ?_, rfl, ⟨hn, Int.le_refl _⟩, by simp, by simp, ?_, by simp⟩
  · exact h0.symm
  · intro i hi hi' _
    simp only [List.getElem?_replicate, List.not_mem_nil, not_false_eq_true, and_true]
    split <;> simp

/-- The construction of a panel never fails. -/
theorem panel_create_some (hp : Tiled p) (tall : Bool) (ax : Int) : ∃ v : VPanel K, VPanel.create tall p.dist ax = some v := by
  have w := hp.valid.wf
  have h0 : p.dist.next_local_tile_from_global_tile 0 = 0 := w.cyc.next_local_zero
  have htp : 0 < p.tile := hp.valid.2.2.1
  have hlo : 0 ≤ p.dist.local_tile_element_offset := by
    unfold Dist1.local_tile_element_offset
    split
    · rw [hp.valid.gteo_eq]
      exact Int.emod_nonneg _ (by omega)
    · exact le_refl 0
  have hls := w.localSize_nonneg
  have hn := w.nrTiles_nonneg
  exact ⟨_, by
    unfold VPanel.create Panel.create
    rw [hp.setup_eq, if_pos (by omega), Option.bind_some, if_pos (show p.dist.blockSize = p.dist.tileSize from hp.block)]
    simp only [Panel.initRange, h0, hn, Int.le_refl, and_self, if_true, Option.map_some]
    rfl⟩

theorem panel_create (hp : Plain p) (tall : Bool) (ax : Int) : ∃ v : VPanel K,
    VPanel.create tall p.dist ax = some v ∧ PanelIs p tall ax ax 0 p.dist.nrTiles (fun _ => none) v :=
  panel_create_tiled hp.toTiled tall ax (Or.inl hp.offset)

/-- Setting the range of an empty panel. -/
theorem PanelIs.setRange (h : PanelIs p tall tile ax s e (fun _ => none) v) (hp : Plain p) {s' e' : Int}
    (hs : 0 ≤ s') (hse : s' ≤ e') (he : e' ≤ p.dist.nrTiles) :
    ∃ v', v.setRange dbg s' e' = some v' ∧ PanelIs p tall tile ax s' e' (fun _ => none) v' := by
  have hu : v.p.used = false := by
    by_contra hc
    obtain ⟨i, hi⟩ := h.used (by simpa using hc)
    exact hi rfl
  have ho : p.dist.offset = 0 := by rw [hp.valid.offset_eq, hp.offset, Int.zero_emod]
  refine ⟨_, by
    unfold VPanel.setRange Panel.setRange Panel.isBoundToMatrixWithOffset Panel.initRange
    simp only [hu, h.dist, ho, h.bias]
    simp only [Bool.and_false, Bool.false_or, ne_eq, not_true_eq_false, decide_false, Bool.false_eq_true, if_false]
    rw [if_pos ⟨hse, hp.valid.wf.cyc.next_local_nonneg hs, he⟩]
    rfl, ?_⟩
  exact ⟨rfl, h.axis, h.tallEq, h.data, rfl, h.len, h.dim, h.off, rfl, rfl, rfl, rfl, ⟨hse, he⟩,
    fun hh => by simp at hh, h.supp, h.empty, h.full⟩

/-- Setting the start of the range of an empty panel. -/
theorem PanelIs.setRangeStart (h : PanelIs p tall tile ax s e (fun _ => none) v) (hp : Plain p) {s' : Int}
    (hs : 0 ≤ s') (hse : s' ≤ e) :
    ∃ v', v.setRangeStart dbg s' = some v' ∧ PanelIs p tall tile ax s' e (fun _ => none) v' := by
  have hu : v.p.used = false := by
    by_contra hc
    obtain ⟨i, hi⟩ := h.used (by simpa using hc)
    exact hi rfl
  have ho : p.dist.offset = 0 := by rw [hp.valid.offset_eq, hp.offset, Int.zero_emod]
  refine ⟨_, by
    unfold VPanel.setRangeStart Panel.setRangeStartTile Panel.isBoundToMatrixWithOffset
    simp only [hu, h.dist, ho, h.bias]
    simp only [Bool.and_false, Bool.false_or, ne_eq, not_true_eq_false, decide_false, Bool.false_eq_true, if_false]
    rw [if_pos ⟨hp.valid.wf.cyc.next_local_nonneg hs, by rw [h.stop]; exact hse⟩]
    rfl, ?_⟩
  exact ⟨rfl, h.axis, h.tallEq, h.data, rfl, h.len, h.dim, h.off, rfl, h.stop, rfl, h.stopLocal, ⟨hse, h.rng.2⟩,
    fun hh => by simp at hh, h.supp, h.empty, h.full⟩

/-- Setting a tile that is not set. -/
theorem PanelIs.setTile (h : PanelIs p tall tile ax s e f v) (hp : Tiled p) (hs : 0 ≤ s) {i : Int} (hi : InRange p s e i)
    (hf : f i = none) {b : Blk K} (hb : VPanel.fits tall b ax (tsz p i) = true) :
    ∃ v', v.setTile dbg i b = some v' ∧ PanelIs p tall tile ax s e (set1 f i (some b)) v' := by
  obtain ⟨b1, b2⟩ := hi.bounds hp hs h.rng.2 h.rng.1
  obtain ⟨e1, e2⟩ := h.empty i b1 b2 hf
  have hsz : v.p.tileSize i = (ax, tsz p i) := by
    unfold Panel.tileSize
    rw [h.off, h.axis, h.dist]
    rcases h.dim with ⟨h4, rfl⟩ | ⟨h4, h6, _⟩
    · rw [h4]; simp [tsz]
    · rw [h4, if_neg (by omega)]; simp [tsz]
  have hlen : i.toNat < v.p.external.length := by rw [h.len]; omega
  refine ⟨_, by
    unfold VPanel.setTile Panel.setTile
    simp only [hsz, h.tallEq, hb, if_true]
    rw [h.linear hp hs hi, Option.bind_some, if_neg (by simp [e1, e2])]
    rfl, ?_⟩
  refine ⟨h.dist, h.axis, rfl, h.data, h.bias, by simp [h.len], h.dim, h.off, h.start, h.stop, h.startLocal,
    h.stopLocal, h.rng, fun _ => ⟨i, by simp⟩, ?_, ?_, ?_⟩
  · intro j hj
    by_cases hji : j = i
    · subst hji; exact ⟨b1, b2⟩
    · rw [set1_ne _ _ hji] at hj; exact h.supp j hj
  · intro j h1 h2 hj
    have hji : j ≠ i := by rintro rfl; simp at hj
    rw [set1_ne _ _ hji] at hj
    have hne : i.toNat ≠ j.toNat := by omega
    dsimp only
    rw [List.getElem?_set_ne hne]
    exact h.empty j h1 h2 hj
  · intro j c h1 h2 hj
    by_cases hji : j = i
    · subst hji
      rw [set1_same, Option.some.injEq] at hj
      subst hj
      refine ⟨hb, Or.inl ?_⟩
      dsimp only
      rw [List.getElem?_set_self hlen]
      rfl
    · rw [set1_ne _ _ hji] at hj
      have hne : i.toNat ≠ j.toNat := by omega
      dsimp only
      rw [List.getElem?_set_ne hne]
      exact h.full j c h1 h2 hj

/-- Overwriting an internal tile. -/
theorem PanelIs.write (h : PanelIs p tall tile ax s e f v) (hp : Tiled p) (hax : 0 ≤ ax) (hs : 0 ≤ s) {i : Int}
    (hi : InRange p s e i) (hf : f i = none) {b : Blk K} (hb : VPanel.fits tall b ax (tsz p i) = true) :
    ∃ v', v.write dbg i b = some v' ∧ PanelIs p tall tile ax s e (set1 f i (some b)) v' := by
  obtain ⟨b1, b2⟩ := hi.bounds hp hs h.rng.2 h.rng.1
  obtain ⟨e1, e2⟩ := h.empty i b1 b2 hf
  refine ⟨_, by
    unfold VPanel.write Panel.readwrite
    rw [h.linear hp hs hi, Option.bind_some, if_neg (by simp [e1])]
    dsimp only
    rw [internalTile_eq (q := { v.p with used := true, internal := i.toNat :: v.p.internal }) hp hax h.dist h.axis h.data
      h.dim h.off b1 b2, Option.map_some, Option.bind_some]
    dsimp only
    rw [h.tallEq, if_pos hb], ?_⟩
  refine ⟨h.dist, h.axis, rfl, h.data, h.bias, h.len, h.dim, h.off, h.start, h.stop, h.startLocal,
    h.stopLocal, h.rng, fun _ => ⟨i, by simp⟩, ?_, ?_, ?_⟩
  · intro j hj
    by_cases hji : j = i
    · subst hji; exact ⟨b1, b2⟩
    · rw [set1_ne _ _ hji] at hj; exact h.supp j hj
  · intro j h1 h2 hj
    have hji : j ≠ i := by rintro rfl; simp at hj
    rw [set1_ne _ _ hji] at hj
    have hne : j.toNat ≠ i.toNat := by omega
    have := h.empty j h1 h2 hj
    exact ⟨this.1, by simp [hne, this.2.1], by dsimp only; rw [set1_ne _ _ hne]; exact this.2.2⟩
  · intro j c h1 h2 hj
    by_cases hji : j = i
    · subst hji
      rw [set1_same, Option.some.injEq] at hj
      subst hj
      exact ⟨hb, Or.inr ⟨e1, by simp⟩⟩
    · rw [set1_ne _ _ hji] at hj
      have hne : j.toNat ≠ i.toNat := by omega
      dsimp only
      rw [set1_ne _ _ hne]
      exact h.full j c h1 h2 hj

/-- Reading a tile that is set. -/
theorem PanelIs.read (h : PanelIs p tall tile ax s e f v) (hp : Tiled p) (hax : 0 ≤ ax) (hs : 0 ≤ s) {i : Int}
    (hi : InRange p s e i) {b : Blk K} (hf : f i = some b) :
    ∃ v', v.read dbg i = some (v', b) ∧ PanelIs p tall tile ax s e f v' := by
  obtain ⟨b1, b2⟩ := hi.bounds hp hs h.rng.2 h.rng.1
  obtain ⟨hb, hx⟩ := h.full i b b1 b2 hf
  rcases hx with hx | ⟨hx, hm⟩
  · refine ⟨_, by
      unfold VPanel.read Panel.read
      rw [h.linear hp hs hi, Option.bind_some, hx]
      rfl, ?_⟩
    exact ⟨h.dist, h.axis, h.tallEq, h.data, h.bias, h.len, h.dim, h.off, h.start, h.stop, h.startLocal, h.stopLocal, h.rng,
      fun _ => ⟨i, by simp [hf]⟩, h.supp, h.empty, h.full⟩
  · refine ⟨_, by
      unfold VPanel.read Panel.read
      rw [h.linear hp hs hi, Option.bind_some, hx]
      dsimp only
      rw [internalTile_eq (q := { v.p with used := true, internal := i.toNat :: v.p.internal }) hp hax h.dist h.axis h.data
        h.dim h.off b1 b2, Option.map_some, Option.bind_some]
      dsimp only
      rw [hm, Option.bind_some, h.tallEq, if_pos hb], ?_⟩
    refine ⟨h.dist, h.axis, rfl, h.data, h.bias, h.len, h.dim, h.off, h.start, h.stop, h.startLocal, h.stopLocal, h.rng,
      fun _ => ⟨i, by simp [hf]⟩, h.supp, ?_, h.full⟩
    intro j h1 h2 hj
    have hji : j ≠ i := by rintro rfl; simp [hf] at hj
    have hne : j.toNat ≠ i.toNat := by omega
    have := h.empty j h1 h2 hj
    exact ⟨this.1, by simp [hne, this.2.1], this.2.2⟩

/-- Reset. -/
theorem PanelIs.reset (h : PanelIs p tall tile ax s e f v) : PanelIs p tall tile tile s e (fun _ => none) v.reset := by
  refine ⟨h.dist, h.axis, h.tallEq, h.data, h.bias, by simp [VPanel.reset, Panel.reset, h.len], Or.inl ⟨rfl, rfl⟩, h.off, h.start, h.stop,
    h.startLocal, h.stopLocal, h.rng, by simp [VPanel.reset, Panel.reset], by simp, ?_, by simp⟩
  intro i h1 h2 _
  simp only [VPanel.reset, Panel.reset, List.getElem?_map, List.not_mem_nil, not_false_eq_true, and_true]
  cases v.p.external[i.toNat]? <;> rfl

end
end DLAF
