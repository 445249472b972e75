import Verif.Lemmas.Dist
/- Construction establishes the invariant; counting; tile sizes. -/
namespace DLAF

theorem countBelow_zero (f : Int → Bool) : countBelow 0 f = 0 := rfl

theorem countBelow_succ (n : Nat) (f : Int → Bool) :
    countBelow (n + 1) f = countBelow n f + (if f (n : Int) then 1 else 0) := by
  simp [countBelow, List.range_succ]

theorem countBelow_congr {n : Nat} {f g : Int → Bool} (h : ∀ i : Nat, i < n → f i = g i) :
    countBelow n f = countBelow n g := by
  induction n with
  | zero => rfl
  | succ n ih =>
    rw [countBelow_succ, countBelow_succ, ih (fun i hi => h i (by omega)), h n (by omega)]

theorem sumBelow_zero (f : Int → Int) : sumBelow 0 f = 0 := rfl

theorem sumBelow_succ (n : Nat) (f : Int → Int) :
    sumBelow (n + 1) f = sumBelow n f + f (n : Int) := by
  simp [sumBelow, List.range_succ]

theorem sumBelow_congr {n : Nat} {f g : Int → Int} (h : ∀ i : Nat, i < n → f i = g i) :
    sumBelow n f = sumBelow n g := by
  induction n with
  | zero => rfl
  | succ n ih =>
    rw [sumBelow_succ, sumBelow_succ, ih (fun i hi => h i (by omega)), h n (by omega)]

theorem sumBelow_add (n : Nat) (f g : Int → Int) :
    sumBelow n (fun i => f i + g i) = sumBelow n f + sumBelow n g := by
  induction n with
  | zero => rfl
  | succ n ih => simp only [sumBelow_succ, ih]; omega

theorem sumBelow_const_zero (n : Nat) : sumBelow n (fun _ => 0) = 0 := by
  induction n with
  | zero => rfl
  | succ n ih => simp only [sumBelow_succ, ih]; omega

/-- exactly one index hits -/
theorem sumBelow_single (n : Nat) (a : Int) (h0 : 0 ≤ a) (h1 : a < n) :
    sumBelow n (fun i => if i = a then 1 else 0) = 1 := by
  induction n with
  | zero => omega
  | succ n ih =>
    rw [sumBelow_succ]
    by_cases h : (n : Int) = a
    · rw [if_pos h]
      have : sumBelow n (fun i => if i = a then (1:Int) else 0) = sumBelow n (fun _ => 0) := by
        apply sumBelow_congr; intro i hi; rw [if_neg (by omega)]
      rw [this, sumBelow_const_zero]; omega
    · rw [if_neg h, ih (by omega)]; omega

/-- partition counting -/
theorem sum_counts (G : Nat) (own : Int → Int) (n : Nat)
    (h : ∀ i : Nat, i < n → 0 ≤ own i ∧ own i < G) :
    sumBelow G (fun r => (countBelow n (fun i => decide (own i = r)) : Int)) = n := by
  induction n with
  | zero => simp only [countBelow_zero]; exact sumBelow_const_zero G
  | succ n ih =>
    have := ih (fun i hi => h i (by omega))
    have e : sumBelow G (fun r => (countBelow (n + 1) (fun i => decide (own i = r)) : Int)) =
      sumBelow G (fun r => (countBelow n (fun i => decide (own i = r)) : Int) +
        (if r = own n then 1 else 0)) := by
      apply sumBelow_congr
      intro i hi
      rw [countBelow_succ]
      by_cases hh : own n = i
      · simp [hh]
      · have hh' : ¬ (i : Int) = own n := fun h => hh h.symm
        simp [hh, hh']
    rw [e, sumBelow_add, this, sumBelow_single G (own n) (h n (by omega)).1 (h n (by omega)).2]
    push_cast; omega

section
variable {T G rank src off : Int} (c : Cyc T G rank src off)
include c

theorem Cyc.next_local_count (n : Nat) :
    util.next_local_tile_from_global_tile n T G rank src off =
      countBelow n (fun t => decide (util.rank_global_tile t T G src off = rank)) := by
  induction n with
  | zero => exact c.next_local_zero
  | succ n ih =>
    push_cast
    rw [c.next_local_succ (by omega), ih, countBelow_succ]
    push_cast
    simp only [eq_comm (a := rank), decide_eq_true_eq]

theorem Cyc.next_local_mono {a b : Int} (ha : 0 ≤ a) (hab : a ≤ b) :
    util.next_local_tile_from_global_tile a T G rank src off ≤
    util.next_local_tile_from_global_tile b T G rank src off := by
  obtain ⟨k, rfl⟩ : ∃ k : Nat, b = a + k := ⟨(b - a).toNat, by omega⟩
  clear hab
  induction k with
  | zero => simp
  | succ k ih =>
    push_cast
    rw [← Int.add_assoc, c.next_local_succ (by omega)]
    split <;> omega

theorem Cyc.next_local_strict {a b : Int} (ha : 0 ≤ a) (hab : a < b)
    (ho : rank = util.rank_global_tile a T G src off) :
    util.next_local_tile_from_global_tile a T G rank src off <
    util.next_local_tile_from_global_tile b T G rank src off := by
  have h1 := c.next_local_succ ha
  rw [if_pos ho] at h1
  have h2 := c.next_local_mono (a := a + 1) (b := b) (by omega) (by omega)
  omega

theorem Cyc.next_local_nonneg {a : Int} (ha : 0 ≤ a) :
    0 ≤ util.next_local_tile_from_global_tile a T G rank src off := by
  have := c.next_local_mono (a := 0) (b := a) (by omega) ha
  rw [c.next_local_zero] at this; exact this

/-- a local index below `next_local n` belongs to a global index below `n` -/
theorem Cyc.global_lt {lt n : Int} (hlt : 0 ≤ lt) (_hn : 0 ≤ n)
    (h : lt < util.next_local_tile_from_global_tile n T G rank src off) :
    util.global_tile_from_local_tile lt T G rank src off < n := by
  obtain ⟨h0, h1, h2⟩ := c.global_local hlt
  by_contra hc
  have := c.next_local_mono (a := n) (b := util.global_tile_from_local_tile lt T G rank src off)
    (by omega) (by omega)
  rw [← c.local_eq_next h0 h1.symm, h2] at this
  omega

theorem Cyc.local_lt {t n : Int} (ht : 0 ≤ t) (htn : t < n)
    (ho : rank = util.rank_global_tile t T G src off) :
    util.local_tile_from_global_tile t T G rank src off <
      util.next_local_tile_from_global_tile n T G rank src off := by
  rw [c.local_eq_next ht ho]; exact c.next_local_strict ht htn ho

end

/-! ### construction -/

/-- What must hold before the derived members are computed. -/
structure Dist1.Pre (d : Dist1) : Prop where
  size_nonneg : 0 ≤ d.size
  tile_pos : 0 < d.tileSize
  block_pos : 0 < d.blockSize
  dvd : d.blockSize % d.tileSize = 0
  offset_nonneg : 0 ≤ d.offset
  grid_pos : 0 < d.grid
  rank_nonneg : 0 ≤ d.rank
  rank_lt : d.rank < d.grid
  src_nonneg : 0 ≤ d.src
  src_lt : d.src < d.grid

def Dist1.finish (d : Dist1) : Dist1 :=
  Dist1.compute_local_nr_tiles_and_local_size (Dist1.compute_global_nr_tiles (Dist1.normalize d))

theorem Dist1.Pre.finish_offset {d : Dist1} (h : d.Pre) :
    d.finish.offset = d.offset % d.blockSize := Int.tmod_eq_emod_of_nonneg h.offset_nonneg

theorem Dist1.Pre.finish_src {d : Dist1} (h : d.Pre) :
    d.finish.src = (d.src + d.offset / d.blockSize) % d.grid := by
  show cmod (d.src + cdiv d.offset d.blockSize) d.grid = _
  unfold cmod cdiv
  rw [Int.tdiv_eq_ediv_of_nonneg h.offset_nonneg]
  apply Int.tmod_eq_emod_of_nonneg
  have := Int.ediv_nonneg h.offset_nonneg (Int.le_of_lt h.block_pos)
  have := h.src_nonneg
  omega

theorem Dist1.Pre.finish_wf {d : Dist1} (h : d.Pre) : d.finish.WF := by
  have hoff := h.finish_offset
  have hsrc := h.finish_src
  have ho0 : 0 ≤ d.finish.offset := by rw [hoff]; exact Int.emod_nonneg _ (by have := h.block_pos; omega)
  have ho1 : d.finish.offset < d.blockSize := by rw [hoff]; exact Int.emod_lt_of_pos _ h.block_pos
  have ht := h.tile_pos
  have htpb : d.finish.tiles_per_block = d.blockSize / d.tileSize :=
    Int.tdiv_eq_ediv_of_nonneg (Int.le_of_lt h.block_pos)
  have hbe : d.blockSize = d.blockSize / d.tileSize * d.tileSize := by
    have := Int.mul_ediv_add_emod d.blockSize d.tileSize
    rw [h.dvd] at this
    rw [Int.mul_comm]; omega
  have hto : d.finish.global_tile_offset = d.finish.offset / d.tileSize :=
    Int.tdiv_eq_ediv_of_nonneg ho0
  have hteo : d.finish.global_tile_element_offset = d.finish.offset % d.tileSize :=
    Int.tmod_eq_emod_of_nonneg ho0
  have hoe : d.finish.offset = d.finish.offset / d.tileSize * d.tileSize + d.finish.offset % d.tileSize := by
    have := Int.mul_ediv_add_emod d.finish.offset d.tileSize
    rw [Int.mul_comm]; omega
  have hteo0 : 0 ≤ d.finish.offset % d.tileSize := Int.emod_nonneg _ (by omega)
  have hteo1 : d.finish.offset % d.tileSize < d.tileSize := Int.emod_lt_of_pos _ ht
  have htpbpos : 0 < d.blockSize / d.tileSize := by
    by_contra hc
    have := Int.mul_le_mul_of_nonneg_right (show d.blockSize / d.tileSize ≤ 0 by omega)
      (Int.le_of_lt ht)
    have := h.block_pos
    omega
  have hnr : d.finish.nrTiles = if d.size > 0 then
      ceilDiv (d.size + d.finish.global_tile_element_offset) d.tileSize else 0 := rfl
  refine
    { size_nonneg := h.size_nonneg, tile_pos := ht, tpb_pos := by rw [htpb]; exact htpbpos
      block_eq := by rw [htpb]; exact hbe
      gto_nonneg := by rw [hto]; exact Int.ediv_nonneg ho0 (by omega)
      gto_lt := ?_
      gteo_nonneg := by rw [hteo]; exact hteo0
      gteo_lt := by rw [hteo]; exact hteo1
      offset_eq := by rw [hto, hteo]; exact hoe
      grid_pos := h.grid_pos, rank_nonneg := h.rank_nonneg, rank_lt := h.rank_lt
      src_nonneg := by rw [hsrc]; exact Int.emod_nonneg _ (by have := h.grid_pos; omega)
      src_lt := by rw [hsrc]; exact Int.emod_lt_of_pos _ h.grid_pos
      nrTiles_zero := ?_, nrTiles_pos := ?_
      localNrTiles_eq := rfl, localSize_eq := rfl }
  · rw [hto, htpb]
    by_contra hc
    have := Int.mul_le_mul_of_nonneg_right (show d.blockSize / d.tileSize ≤ d.finish.offset / d.tileSize
      by omega) (Int.le_of_lt ht)
    omega
  · intro hs
    rw [hnr, if_neg (by have : d.finish.size = d.size := rfl; omega)]
  · intro hs
    have hs' : d.size > 0 := hs
    rw [hnr, if_pos hs', hteo]
    show 0 < ceilDiv (d.size + d.finish.offset % d.tileSize) d.tileSize ∧
      (ceilDiv (d.size + d.finish.offset % d.tileSize) d.tileSize - 1) * d.tileSize
        < d.size + d.finish.offset % d.tileSize ∧
      d.size + d.finish.offset % d.tileSize ≤
        ceilDiv (d.size + d.finish.offset % d.tileSize) d.tileSize * d.tileSize
    obtain ⟨q, r, hq, hr, hr', he⟩ := exists_divmod
      (a := d.size + d.finish.offset % d.tileSize + d.tileSize - 1) (b := d.tileSize) (by omega) ht
    have hc : ceilDiv (d.size + d.finish.offset % d.tileSize) d.tileSize = q := cdiv_eq hq hr hr' he
    rw [hc]
    have e1 : (q - 1) * d.tileSize = q * d.tileSize - d.tileSize := by ring
    refine ⟨?_, by omega, by omega⟩
    by_contra hqc
    have : q = 0 := by omega
    subst this
    omega

theorem Params.Valid.pre {p : Params} (h : p.Valid) :
    (Dist1.mk p.offset p.size 0 0 0 p.block p.tile p.rank p.grid p.src).Pre := by
  obtain ⟨h1, h2, h3, h4, h5, ⟨h6, h7⟩, ⟨h8, h9⟩, h10⟩ := h
  exact ⟨h1, h3, h2, h4, h10, h5, h6, h7, h8, h9⟩

theorem Params.Valid.wf {p : Params} (h : p.Valid) : p.dist.WF := h.pre.finish_wf

theorem Params.Valid.offset_eq {p : Params} (h : p.Valid) : p.dist.offset = p.offset % p.block :=
  h.pre.finish_offset
theorem Params.Valid.src_eq {p : Params} (h : p.Valid) :
    p.dist.src = (p.src + p.offset / p.block) % p.grid := h.pre.finish_src

theorem Params.Valid.onRank {p : Params} (h : p.Valid) {r : Int} (h0 : 0 ≤ r) (h1 : r < p.grid) :
    (p.onRank r).Valid := by
  obtain ⟨a1, a2, a3, a4, a5, _, a7, a8⟩ := h
  exact ⟨a1, a2, a3, a4, a5, ⟨h0, h1⟩, a7, a8⟩

/-- The model's owner is the block-cyclic owner. -/
theorem Params.Valid.owner_eq {p : Params} (h : p.Valid) {e : Int} (he : 0 ≤ e) :
    p.dist.rank_global_element e = p.owner e := by
  have w := h.wf
  rw [w.rank_elem he, rank_global_tile_eq_mod w.block_pos w.src_nonneg w.offset_nonneg he,
    h.offset_eq, h.src_eq]
  show ((e + p.offset % p.block) / p.block + (p.src + p.offset / p.block) % p.grid) % p.grid = _
  unfold Params.owner
  have hb : p.block ≠ 0 := by have := h.2.1; omega
  have e1 : (p.offset + e) / p.block = (e + p.offset % p.block) / p.block + p.offset / p.block := by
    have : p.offset + e = (e + p.offset % p.block) + p.block * (p.offset / p.block) := by
      have := Int.mul_ediv_add_emod p.offset p.block; omega
    rw [this, Int.add_mul_ediv_left _ _ hb]
  rw [e1, Int.add_emod_emod]
  congr 1
  ring

/-- Tile of an element, two ways. -/
theorem Params.Valid.tileOf_eq {p : Params} (h : p.Valid) {e : Int} (he : 0 ≤ e) :
    p.dist.global_tile_from_global_element e = p.tileOf e := by
  have w := h.wf
  have ht : 0 < p.tile := h.2.2.1
  have hgt : p.dist.global_tile_element_offset = p.offset % p.tile := by
    have : p.dist.global_tile_element_offset = p.dist.offset % p.tile :=
      Int.tmod_eq_emod_of_nonneg w.offset_nonneg
    rw [this, h.offset_eq]
    exact Int.emod_emod_of_dvd _ (Int.dvd_of_emod_eq_zero h.2.2.2.1)
  show cdiv (e + p.dist.global_tile_element_offset) p.tile = _
  rw [hgt]
  unfold cdiv
  have hm : 0 ≤ p.offset % p.tile := Int.emod_nonneg _ (by omega)
  rw [Int.tdiv_eq_ediv_of_nonneg (by omega)]
  unfold Params.tileOf
  have : p.offset + e = (e + p.offset % p.tile) + p.tile * (p.offset / p.tile) := by
    have := Int.mul_ediv_add_emod p.offset p.tile; omega
  rw [this, Int.add_mul_ediv_left _ _ (by omega)]
  ring

theorem Params.Valid.gteo_eq {p : Params} (h : p.Valid) :
    p.dist.global_tile_element_offset = p.offset % p.tile := by
  have : p.dist.global_tile_element_offset = p.dist.offset % p.tile :=
    Int.tmod_eq_emod_of_nonneg h.wf.offset_nonneg
  rw [this, h.offset_eq]
  exact Int.emod_emod_of_dvd _ (Int.dvd_of_emod_eq_zero h.2.2.2.1)

theorem Params.Valid.tileBegin_spec {p : Params} (h : p.Valid) {t : Int} (ht : 0 ≤ t) :
    0 ≤ p.tileBegin t ∧ p.tileOf (p.tileBegin t) = t := by
  have htp : 0 < p.tile := h.2.2.1
  have hm := Int.mul_ediv_add_emod p.offset p.tile
  have hm0 := Int.emod_nonneg p.offset (b := p.tile) (by omega)
  have hm1 := Int.emod_lt_of_pos p.offset htp
  have e : (p.offset / p.tile + t) * p.tile = p.tile * (p.offset / p.tile) + t * p.tile := by ring
  unfold Params.tileBegin Params.tileOf
  refine ⟨by omega, ?_⟩
  by_cases h0 : t = 0
  · subst h0
    rw [show max 0 ((p.offset / p.tile + 0) * p.tile - p.offset) = 0 by rw [e]; omega]
    simp
  · have h1 : 1 * p.tile ≤ t * p.tile := Int.mul_le_mul_of_nonneg_right (by omega) (by omega)
    have : p.offset + max 0 ((p.offset / p.tile + t) * p.tile - p.offset) =
      (p.offset / p.tile + t) * p.tile := by omega
    rw [this, Int.mul_ediv_cancel _ (by omega)]
    omega

/-! ### tile sizes -/

/-- closed form of the tile size function -/
theorem tsz_closed {n off ts N t : Int} (hoff : 0 ≤ off) (hoff' : off < ts)
    (h1 : (N - 1) * ts < n + off) (h2 : n + off ≤ N * ts) (ht : 0 ≤ t) (htN : t < N) :
    (if t = 0 then min (ts - off) n else min ts (n + off - t * ts)) =
      ts - (if t = 0 then off else 0) - (if t = N - 1 then N * ts - (n + off) else 0) := by
  have e0 : (N - 1) * ts = N * ts - ts := by ring
  by_cases hl : t = N - 1
  · subst hl
    rw [if_pos rfl]
    by_cases h0 : N - 1 = 0
    · have : N = 1 := by omega
      subst this; simp; omega
    · rw [if_neg h0, if_neg h0]; omega
  · have : (t + 1) * ts ≤ (N - 1) * ts := Int.mul_le_mul_of_nonneg_right (by omega) (by omega)
    have e1 : (t + 1) * ts = t * ts + ts := by ring
    rw [if_neg hl]
    by_cases h0 : t = 0
    · subst h0; simp at *; try omega
    · rw [if_neg h0, if_neg h0]; omega

theorem Dist1.WF.nrTiles_nonneg {d : Dist1} (w : d.WF) : 0 ≤ d.nrTiles := by
  by_cases h : d.size = 0
  · rw [w.nrTiles_zero h]
  · have := (w.nrTiles_pos (by have := w.size_nonneg; omega)).1; omega

theorem Dist1.WF.size_pos_of {d : Dist1} (w : d.WF) (h : 0 < d.nrTiles) : 0 < d.size := by
  by_contra hc
  have := w.nrTiles_zero (by have := w.size_nonneg; omega); omega

theorem Dist1.WF.localNrTiles_nonneg {d : Dist1} (w : d.WF) : 0 ≤ d.localNrTiles := by
  rw [w.localNrTiles_eq]; exact w.cyc.next_local_nonneg w.nrTiles_nonneg

theorem Dist1.WF.global_tsz {d : Dist1} (w : d.WF) {t : Int} (h0 : 0 ≤ t) (h1 : t < d.nrTiles) :
    d.global_tile_size_of t = d.tileSize - (if t = 0 then d.global_tile_element_offset else 0)
      - (if t = d.nrTiles - 1 then d.nrTiles * d.tileSize
          - (d.size + d.global_tile_element_offset) else 0) := by
  have hp := w.nrTiles_pos (w.size_pos_of (by omega))
  exact tsz_closed w.gteo_nonneg w.gteo_lt hp.2.1 hp.2.2 h0 h1

/-- bounds of the local size -/
theorem Dist1.WF.localSize_bounds {d : Dist1} (w : d.WF) (h : 0 < d.localNrTiles) :
    d.localNrTiles * d.tileSize - (d.localSize + d.local_tile_element_offset) =
      (if d.rank = d.rank_global_tile (d.nrTiles - 1) then
        d.nrTiles * d.tileSize - (d.size + d.global_tile_element_offset) else 0) ∧
    (d.localNrTiles - 1) * d.tileSize < d.localSize + d.local_tile_element_offset ∧
    d.localSize + d.local_tile_element_offset ≤ d.localNrTiles * d.tileSize := by
  have hn : 0 < d.nrTiles := by
    by_contra hc
    have h0 : d.nrTiles = 0 := by have := w.nrTiles_nonneg; omega
    have := w.localNrTiles_eq
    rw [h0, show d.next_local_tile_from_global_tile 0 = 0 from w.cyc.next_local_zero] at this
    omega
  have hp := w.nrTiles_pos (w.size_pos_of hn)
  have hl := w.localSize_eq
  simp only [Dist1.compute_local_size, if_neg (show d.localNrTiles ≠ 0 by omega)] at hl
  have e0 : (d.localNrTiles - 1) * d.tileSize = d.localNrTiles * d.tileSize - d.tileSize := by ring
  have e1 : (d.nrTiles - 1) * d.tileSize = d.nrTiles * d.tileSize - d.tileSize := by ring
  have := w.tile_pos
  split_ifs at hl ⊢ <;> omega

theorem Dist1.WF.lteo_range {d : Dist1} (w : d.WF) :
    0 ≤ d.local_tile_element_offset ∧ d.local_tile_element_offset < d.tileSize := by
  have := w.gteo_nonneg; have := w.gteo_lt; have := w.tile_pos
  unfold Dist1.local_tile_element_offset; split <;> omega

theorem Dist1.WF.local_tsz {d : Dist1} (w : d.WF) {t : Int} (h0 : 0 ≤ t) (h1 : t < d.localNrTiles) :
    d.local_tile_size_of t = d.tileSize - (if t = 0 then d.local_tile_element_offset else 0)
      - (if t = d.localNrTiles - 1 then d.localNrTiles * d.tileSize
          - (d.localSize + d.local_tile_element_offset) else 0) := by
  have hp := w.localSize_bounds (by omega)
  exact tsz_closed w.lteo_range.1 w.lteo_range.2 hp.2.1 hp.2.2 h0 h1

theorem Dist1.WF.local_tsz_eq {d : Dist1} (w : d.WF) {t : Int} (h0 : 0 ≤ t)
    (h1 : t < d.localNrTiles) :
    d.local_tile_size_of t = d.global_tile_size_of (d.global_tile_from_local_tile t) := by
  obtain ⟨g0, g1, g2⟩ := w.cyc.global_local h0
  have hlt := w.cyc.global_lt h0 w.nrTiles_nonneg
    (by rw [w.localNrTiles_eq] at h1; exact h1)
  have hgs : d.global_tile_size_of (d.global_tile_from_local_tile t) = _ := w.global_tsz g0 hlt
  rw [w.local_tsz h0 h1, hgs]
  have hz := w.global_zero_iff h0
  have hb := (w.localSize_bounds (by omega)).1
  rw [hb]
  -- first tile term
  have a1 : (if t = 0 then d.local_tile_element_offset else 0) =
      (if d.global_tile_from_local_tile t = 0 then d.global_tile_element_offset else 0) := by
    unfold Dist1.local_tile_element_offset
    simp only [hz]
    by_cases h : t = 0 <;> by_cases h' : d.rank = d.src <;> simp [h, h']
  -- last tile term
  have hone := w.cyc.next_local_succ (t := d.nrTiles - 1) (by omega)
  rw [show d.nrTiles - 1 + 1 = d.nrTiles by ring] at hone
  have hln : d.localNrTiles = _ := w.localNrTiles_eq
  unfold Dist1.next_local_tile_from_global_tile at hln
  have a2 : (if t = d.localNrTiles - 1 then
      (if d.rank = d.rank_global_tile (d.nrTiles - 1) then
        d.nrTiles * d.tileSize - (d.size + d.global_tile_element_offset) else 0) else 0) =
      (if d.global_tile_from_local_tile t = d.nrTiles - 1 then
        d.nrTiles * d.tileSize - (d.size + d.global_tile_element_offset) else 0) := by
    by_cases ho : d.rank = d.rank_global_tile (d.nrTiles - 1)
    · rw [if_pos ho]
      have hloc : d.local_tile_from_global_tile (d.nrTiles - 1) = d.localNrTiles - 1 := by
        have := w.cyc.local_eq_next (t := d.nrTiles - 1) (by omega) ho
        unfold Dist1.local_tile_from_global_tile
        rw [this]
        have ho' : d.rank = util.rank_global_tile (d.nrTiles - 1) d.tiles_per_block d.grid d.src
          d.global_tile_offset := ho
        rw [if_pos ho'] at hone
        omega
      by_cases hg : d.global_tile_from_local_tile t = d.nrTiles - 1
      · rw [if_pos hg, if_pos]
        rw [← hloc, ← hg]; exact g2.symm
      · rw [if_neg hg, if_neg]
        intro hc
        apply hg
        have := w.cyc.local_global (t := d.nrTiles - 1) (by omega) ho
        rw [show util.local_tile_from_global_tile (d.nrTiles - 1) d.tiles_per_block d.grid d.rank d.src
          d.global_tile_offset = _ from hloc, ← hc] at this
        exact this
    · rw [if_neg ho]
      have hg : d.global_tile_from_local_tile t ≠ d.nrTiles - 1 := by
        intro hc
        apply ho
        have := g1
        rw [show util.global_tile_from_local_tile t d.tiles_per_block d.grid d.rank d.src
          d.global_tile_offset = _ from hc] at this
        exact this.symm
      rw [if_neg hg]; simp
  rw [a1, a2]

/-- prefix sums of tile sizes -/
theorem tsz_prefix {n off ts N : Int} (hoff : 0 ≤ off) (hoff' : off < ts)
    (h1 : (N - 1) * ts < n + off) (h2 : n + off ≤ N * ts) (k : Nat) (hk : (k : Int) ≤ N) :
    sumBelow k (fun t => if t = 0 then min (ts - off) n else min ts (n + off - t * ts)) =
      if k = 0 then 0 else if (k : Int) = N then n else k * ts - off := by
  induction k with
  | zero => rfl
  | succ k ih =>
    rw [sumBelow_succ, ih (by push_cast at hk; omega)]
    rw [tsz_closed hoff hoff' h1 h2 (by omega) (by push_cast at hk; omega)]
    have e1 : ((k : Int) + 1) * ts = k * ts + ts := by ring
    push_cast
    by_cases hkN : (k : Int) + 1 = N
    · have e2 : N * ts = k * ts + ts := by rw [← hkN]; ring
      rw [if_pos hkN, if_pos (by omega : (k:Int) = N - 1)]
      by_cases h0 : k = 0
      · subst h0; simp at *; omega
      · rw [if_neg h0, if_neg (by omega), if_neg (by omega)]; omega
    · rw [if_neg hkN, if_neg (by omega : ¬ (k:Int) = N - 1)]
      by_cases h0 : k = 0
      · subst h0; simp
      · rw [if_neg h0, if_neg (by omega), if_neg (by omega)]; omega

end DLAF
