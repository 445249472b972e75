import Verif.Spec.Dist
import Verif.Lemmas.Cyclic
/- Invariant of distributions and reduction of element-level functions to the cyclic functions. -/
namespace DLAF

/-- Invariant established by the constructors. -/
structure Dist1.WF (d : Dist1) : Prop where
  size_nonneg : 0 ≤ d.size
  tile_pos : 0 < d.tileSize
  tpb_pos : 0 < d.tiles_per_block
  block_eq : d.blockSize = d.tiles_per_block * d.tileSize
  gto_nonneg : 0 ≤ d.global_tile_offset
  gto_lt : d.global_tile_offset < d.tiles_per_block
  gteo_nonneg : 0 ≤ d.global_tile_element_offset
  gteo_lt : d.global_tile_element_offset < d.tileSize
  offset_eq : d.offset = d.global_tile_offset * d.tileSize + d.global_tile_element_offset
  grid_pos : 0 < d.grid
  rank_nonneg : 0 ≤ d.rank
  rank_lt : d.rank < d.grid
  src_nonneg : 0 ≤ d.src
  src_lt : d.src < d.grid
  nrTiles_zero : d.size = 0 → d.nrTiles = 0
  nrTiles_pos : 0 < d.size → 0 < d.nrTiles ∧
    (d.nrTiles - 1) * d.tileSize < d.size + d.global_tile_element_offset ∧
    d.size + d.global_tile_element_offset ≤ d.nrTiles * d.tileSize
  localNrTiles_eq : d.localNrTiles = d.next_local_tile_from_global_tile d.nrTiles
  localSize_eq : d.localSize = d.compute_local_size

theorem Dist1.WF.cyc {d : Dist1} (w : d.WF) :
    Cyc d.tiles_per_block d.grid d.rank d.src d.global_tile_offset :=
  ⟨w.tpb_pos, w.grid_pos, w.rank_nonneg, w.rank_lt, w.src_nonneg, w.src_lt, w.gto_nonneg, w.gto_lt⟩

theorem Dist1.WF.block_pos {d : Dist1} (w : d.WF) : 0 < d.blockSize := by
  rw [w.block_eq]; exact Int.mul_pos w.tpb_pos w.tile_pos

theorem Dist1.WF.offset_nonneg {d : Dist1} (w : d.WF) : 0 ≤ d.offset := by
  have := Int.mul_nonneg w.gto_nonneg (Int.le_of_lt w.tile_pos)
  have := w.gteo_nonneg
  rw [w.offset_eq]; omega

theorem Dist1.WF.offset_lt {d : Dist1} (w : d.WF) : d.offset < d.blockSize := by
  rw [w.offset_eq, w.block_eq]
  have : (d.global_tile_offset + 1) * d.tileSize ≤ d.tiles_per_block * d.tileSize :=
    Int.mul_le_mul_of_nonneg_right (by have := w.gto_lt; omega) (Int.le_of_lt w.tile_pos)
  have := w.gteo_lt
  have e : (d.global_tile_offset + 1) * d.tileSize = d.global_tile_offset * d.tileSize + d.tileSize :=
    by ring
  omega

/-- Element level: the same cyclic arithmetic with blocks of elements. -/
theorem Dist1.WF.cycE {d : Dist1} (w : d.WF) : Cyc d.blockSize d.grid d.rank d.src d.offset :=
  ⟨w.block_pos, w.grid_pos, w.rank_nonneg, w.rank_lt, w.src_nonneg, w.src_lt, w.offset_nonneg,
    w.offset_lt⟩

/-- Split of an element into tile and tile element. -/
theorem Dist1.WF.elem_decomp {d : Dist1} (w : d.WF) {e : Int} (he : 0 ≤ e) :
    ∃ L s rt re, 0 ≤ L ∧ 0 ≤ s ∧ s < d.grid ∧ 0 ≤ rt ∧ rt < d.tiles_per_block ∧ 0 ≤ re ∧
      re < d.tileSize ∧
      e + d.offset = (L * d.grid + s) * d.blockSize + (rt * d.tileSize + re) ∧
      rt * d.tileSize + re < d.blockSize ∧ 0 ≤ rt * d.tileSize + re ∧
      e + d.global_tile_element_offset =
        ((L * d.grid + s) * d.tiles_per_block + rt - d.global_tile_offset) * d.tileSize + re ∧
      0 ≤ (L * d.grid + s) * d.tiles_per_block + rt - d.global_tile_offset := by
  obtain ⟨L, s, r, hL, hs, hs', hr, hr', h⟩ := w.cycE.decomp (x := e + d.offset)
    (by have := w.offset_nonneg; omega)
  obtain ⟨rt, re, hrt, hre, hre', hrr⟩ := exists_divmod hr w.tile_pos
  have hrt' : rt < d.tiles_per_block := by
    by_contra hc
    have := Int.mul_le_mul_of_nonneg_right (show d.tiles_per_block ≤ rt by omega)
      (Int.le_of_lt w.tile_pos)
    rw [w.block_eq] at hr'
    omega
  have h2 : e + d.global_tile_element_offset =
        ((L * d.grid + s) * d.tiles_per_block + rt - d.global_tile_offset) * d.tileSize + re := by
    have h3 := h
    rw [hrr, w.offset_eq, w.block_eq] at h3
    have : ((L * d.grid + s) * d.tiles_per_block + rt - d.global_tile_offset) * d.tileSize + re
      = (L * d.grid + s) * (d.tiles_per_block * d.tileSize) + (rt * d.tileSize + re)
        - d.global_tile_offset * d.tileSize := by ring
    rw [this]; omega
  refine ⟨L, s, rt, re, hL, hs, hs', hrt, hrt', hre, hre', hrr ▸ h, hrr ▸ hr', hrr ▸ hr, h2, ?_⟩
  by_contra hc
  have : ((L * d.grid + s) * d.tiles_per_block + rt - d.global_tile_offset) * d.tileSize ≤
      (-1) * d.tileSize := Int.mul_le_mul_of_nonneg_right (by omega) (Int.le_of_lt w.tile_pos)
  have := w.gteo_nonneg
  omega

theorem Dist1.WF.rank_elem {d : Dist1} (w : d.WF) {e : Int} (he : 0 ≤ e) :
    d.rank_global_element e = util.rank_global_tile e d.blockSize d.grid d.src d.offset := by
  obtain ⟨L, s, rt, re, hL, hs, hs', hrt, hrt', hre, hre', h1, h2, h3, h4, h5⟩ := w.elem_decomp he
  rw [w.cycE.rank_global_tile_eq hL hs hs' h3 h2 h1]
  unfold Dist1.rank_global_element Dist1.rank_global_tile
  rw [show d.global_tile_from_global_element e =
      (L * d.grid + s) * d.tiles_per_block + rt - d.global_tile_offset from cdiv_eq h5 hre hre' h4]
  exact w.cyc.rank_global_tile_eq hL hs hs' hrt hrt' (by ring)

theorem Dist1.WF.lteo_cases {d : Dist1} (_w : d.WF) :
    d.local_tile_element_offset = if d.rank = d.src then d.global_tile_element_offset else 0 := rfl

/-- A rank's global tile for a local index is tile 0 exactly for the source rank's first tile. -/
theorem Dist1.WF.global_zero_iff {d : Dist1} (w : d.WF) {lt : Int} (h : 0 ≤ lt) :
    d.global_tile_from_local_tile lt = 0 ↔ lt = 0 ∧ d.rank = d.src := by
  have hg := w.cyc.global_local h
  have h0 : util.rank_global_tile 0 d.tiles_per_block d.grid d.src d.global_tile_offset = d.src := by
    rw [w.cyc.rank_global_tile_eq (L := 0) (s := 0) (r := d.global_tile_offset) (by omega)
      (by omega) w.grid_pos w.gto_nonneg w.gto_lt (by ring)]
    have := w.src_lt
    unfold own; split <;> omega
  constructor
  · intro e
    unfold Dist1.global_tile_from_local_tile at e
    rw [e, h0] at hg
    refine ⟨?_, hg.2.1.symm⟩
    have := hg.2.2
    rw [w.cyc.local_tile_eq (L := 0) (s := 0) (r := d.global_tile_offset) (by omega)
      (by omega) w.grid_pos w.gto_nonneg w.gto_lt (by ring)] at this
    rw [if_pos (w.cyc.rts_eq_zero.2 hg.2.1.symm), if_pos hg.2.1.symm] at this
    omega
  · rintro ⟨rfl, hr⟩
    unfold Dist1.global_tile_from_local_tile
    rw [w.cyc.global_tile_eq (L := 0) (r := d.global_tile_offset) (by omega) w.gto_nonneg w.gto_lt
      (by rw [if_pos hr]; ring), w.cyc.rts_eq_zero.2 hr]
    ring

theorem Dist1.WF.global_tile_of_elem {d : Dist1} (_w : d.WF) {e L s rt re : Int}
    (h5 : 0 ≤ (L * d.grid + s) * d.tiles_per_block + rt - d.global_tile_offset)
    (hre : 0 ≤ re) (hre' : re < d.tileSize)
    (h4 : e + d.global_tile_element_offset =
        ((L * d.grid + s) * d.tiles_per_block + rt - d.global_tile_offset) * d.tileSize + re) :
    d.global_tile_from_global_element e =
      (L * d.grid + s) * d.tiles_per_block + rt - d.global_tile_offset := cdiv_eq h5 hre hre' h4

/-- Tile element in terms of the decomposition. -/
theorem tile_element_eq {e ts off t re : Int} (_hts : 0 < ts) (ht : 0 ≤ t) (hre : 0 ≤ re)
    (hre' : re < ts) (h : e + off = t * ts + re) :
    util.tile_element_from_element e ts off = re - (if t = 0 then off else 0) := by
  simp only [util.tile_element_from_element]
  rw [cmod_eq ht hre hre' h, h]
  by_cases h0 : t = 0
  · subst h0; simp [hre']
  · have : 1 * ts ≤ t * ts := Int.mul_le_mul_of_nonneg_right (by omega) (by omega)
    rw [if_neg (by omega), if_neg h0]; omega

theorem tile_from_element_eq {e ts off t re : Int} (ht : 0 ≤ t) (hre : 0 ≤ re)
    (hre' : re < ts) (h : e + off = t * ts + re) : util.tile_from_element e ts off = t :=
  cdiv_eq ht hre hre' h

theorem Dist1.WF.local_elem {d : Dist1} (w : d.WF) {e : Int} (he : 0 ≤ e) :
    d.local_element_from_global_element e =
      util.local_tile_from_global_tile e d.blockSize d.grid d.rank d.src d.offset := by
  obtain ⟨L, s, rt, re, hL, hs, hs', hrt, hrt', hre, hre', h1, h2, h3, h4, h5⟩ := w.elem_decomp he
  rw [w.cycE.local_tile_eq hL hs hs' h3 h2 h1]
  have hd : (L * d.grid + s) * d.tiles_per_block + rt - d.global_tile_offset + d.global_tile_offset
    = (L * d.grid + s) * d.tiles_per_block + rt := by ring
  have hlt : d.local_tile_from_global_element e = _ :=
    (congrArg _ (w.global_tile_of_elem h5 hre hre' h4)).trans
      (w.cyc.local_tile_eq hL hs hs' hrt hrt' hd)
  have hte : d.tile_element_from_global_element e = _ := tile_element_eq w.tile_pos h5 hre hre' h4
  simp only [Dist1.local_element_from_global_element, hlt, hte]
  by_cases hrs : rts d.grid d.rank d.src = s
  · rw [if_pos hrs, if_pos hrs]
    have hnn := (w.cyc.local_nonneg_iff (t := (L * d.grid + s) * d.tiles_per_block + rt
      - d.global_tile_offset) h5).2
    rw [w.cyc.local_tile_eq hL hs hs' hrt hrt' hd, if_pos hrs,
      w.cyc.rank_global_tile_eq hL hs hs' hrt hrt' hd] at hnn
    have hnn := hnn ((w.cyc.own_iff hs hs').2 hrs)
    rw [if_neg (by omega)]
    simp only [Dist1.local_element_from_local_tile_and_tile_element,
      util.element_from_tile_and_tile_element, Dist1.local_tile_element_offset]
    have e1 : L * d.blockSize = (L * d.tiles_per_block) * d.tileSize := by rw [w.block_eq]; ring
    by_cases hr : d.rank = d.src
    · have hs0 : s = 0 := by rw [← hrs]; exact w.cyc.rts_eq_zero.2 hr
      subst hs0
      simp only [if_pos hr] at hnn ⊢
      have e2 := w.offset_eq
      have e3 : (L * d.tiles_per_block + rt - d.global_tile_offset) * d.tileSize =
        (L * d.tiles_per_block) * d.tileSize + rt * d.tileSize - d.global_tile_offset * d.tileSize :=
        by ring
      by_cases hL0 : L = 0
      · subst hL0
        simp only [Int.zero_mul, Int.zero_add] at *
        split_ifs <;> omega
      · have hp : 0 < L * d.tiles_per_block + rt - d.global_tile_offset := by
          have := Int.mul_le_mul_of_nonneg_right (show 1 ≤ L by omega) (Int.le_of_lt w.tpb_pos)
          have := w.gto_lt
          omega
        have hq : (L * d.grid + 0) * d.tiles_per_block + rt - d.global_tile_offset ≠ 0 := by
          have : L * d.tiles_per_block ≤ (L * d.grid + 0) * d.tiles_per_block := by
            have : L * 1 ≤ L * d.grid := Int.mul_le_mul_of_nonneg_left (by have := w.grid_pos; omega) hL
            exact Int.mul_le_mul_of_nonneg_right (by omega) (Int.le_of_lt w.tpb_pos)
          omega
        rw [if_neg hq, if_pos hp]
        omega
    · simp only [if_neg hr] at hnn ⊢
      have hq : (L * d.grid + s) * d.tiles_per_block + rt - d.global_tile_offset ≠ 0 := by
        have hs0 : s ≠ 0 := fun h => hr (w.cyc.rts_eq_zero.1 (hrs.trans h))
        have : 1 * d.tiles_per_block ≤ (L * d.grid + s) * d.tiles_per_block := by
          have := Int.mul_nonneg hL (Int.le_of_lt w.grid_pos)
          exact Int.mul_le_mul_of_nonneg_right (by omega) (Int.le_of_lt w.tpb_pos)
        have := w.gto_lt
        omega
      rw [if_neg hq]
      have e3 : (L * d.tiles_per_block + rt) * d.tileSize =
        (L * d.tiles_per_block) * d.tileSize + rt * d.tileSize := by ring
      simp only [Int.sub_zero, ite_self, e1, e3]
      omega
  · rw [if_neg hrs, if_neg hrs, if_pos (by omega)]

theorem Dist1.WF.global_elem {d : Dist1} (w : d.WF) {le : Int} (hle : 0 ≤ le) :
    d.global_element_from_local_element le =
      util.global_tile_from_local_tile le d.blockSize d.grid d.rank d.src d.offset := by
  have hx : 0 ≤ le + (if d.rank = d.src then d.offset else 0) := by
    have := w.offset_nonneg; split <;> omega
  obtain ⟨L, r, hL, hr, hr', h⟩ := exists_divmod hx w.block_pos
  rw [w.cycE.global_tile_eq hL hr hr' h]
  obtain ⟨rt, re, hrt, hre, hre', hrr⟩ := exists_divmod hr w.tile_pos
  have hrt' : rt < d.tiles_per_block := by
    by_contra hc
    have := Int.mul_le_mul_of_nonneg_right (show d.tiles_per_block ≤ rt by omega)
      (Int.le_of_lt w.tile_pos)
    rw [w.block_eq] at hr'
    omega
  -- local tile
  have hlo : le + d.local_tile_element_offset =
      (L * d.tiles_per_block + rt - (if d.rank = d.src then d.global_tile_offset else 0))
        * d.tileSize + re := by
    unfold Dist1.local_tile_element_offset
    have e2 := w.offset_eq
    have e1 : L * d.blockSize = (L * d.tiles_per_block) * d.tileSize := by rw [w.block_eq]; ring
    split_ifs at h ⊢
    · have : (L * d.tiles_per_block + rt - d.global_tile_offset) * d.tileSize =
        (L * d.tiles_per_block) * d.tileSize + rt * d.tileSize - d.global_tile_offset * d.tileSize :=
        by ring
      omega
    · have : (L * d.tiles_per_block + rt - 0) * d.tileSize =
        (L * d.tiles_per_block) * d.tileSize + rt * d.tileSize := by ring
      omega
  have hlt : 0 ≤ L * d.tiles_per_block + rt - (if d.rank = d.src then d.global_tile_offset else 0) := by
    by_contra hc
    have : (L * d.tiles_per_block + rt - (if d.rank = d.src then d.global_tile_offset else 0))
      * d.tileSize ≤ (-1) * d.tileSize :=
      Int.mul_le_mul_of_nonneg_right (by omega) (Int.le_of_lt w.tile_pos)
    have : 0 ≤ d.local_tile_element_offset := by
      unfold Dist1.local_tile_element_offset
      have := w.gteo_nonneg
      split <;> omega
    omega
  simp only [Dist1.global_element_from_local_element]
  rw [show d.local_tile_from_local_element le = _ from tile_from_element_eq hlt hre hre' hlo,
    show d.tile_element_from_local_element le = _ from
      tile_element_eq w.tile_pos hlt hre hre' hlo]
  have hz := w.global_zero_iff hlt
  have hg : d.global_tile_from_local_tile
      (L * d.tiles_per_block + rt - (if d.rank = d.src then d.global_tile_offset else 0)) = _ :=
    w.cyc.global_tile_eq (L := L) (r := rt) hL hrt hrt' (by ring)
  have hgn := (w.cyc.global_local hlt).1
  rw [show util.global_tile_from_local_tile
      (L * d.tiles_per_block + rt - (if d.rank = d.src then d.global_tile_offset else 0))
      d.tiles_per_block d.grid d.rank d.src d.global_tile_offset = _ from hg] at hgn
  rw [hg] at hz ⊢
  simp only [Dist1.global_element_from_global_tile_and_tile_element,
    util.element_from_tile_and_tile_element, Dist1.local_tile_element_offset]
  have e2 := w.offset_eq
  have e3 : ((L * d.grid + rts d.grid d.rank d.src) * d.tiles_per_block + rt - d.global_tile_offset)
      * d.tileSize = (L * d.grid + rts d.grid d.rank d.src) * d.blockSize + rt * d.tileSize
        - d.global_tile_offset * d.tileSize := by rw [w.block_eq]; ring
  by_cases hzz : (L * d.grid + rts d.grid d.rank d.src) * d.tiles_per_block + rt
      - d.global_tile_offset = 0
  · obtain ⟨hz1, hz2⟩ := hz.1 hzz
    have hng : ¬ (L * d.grid + rts d.grid d.rank d.src) * d.tiles_per_block + rt
      - d.global_tile_offset > 0 := by omega
    simp only [hz2, if_true] at hz1
    simp only [if_neg hng, if_pos hz2, if_pos hz1]
    omega
  · have hg0 : (L * d.grid + rts d.grid d.rank d.src) * d.tiles_per_block + rt
      - d.global_tile_offset > 0 := by omega
    simp only [if_pos hg0]
    by_cases hz1 : L * d.tiles_per_block + rt - (if d.rank = d.src then d.global_tile_offset else 0) = 0
    · have hz2 : d.rank ≠ d.src := fun h => hzz (hz.2 ⟨hz1, h⟩)
      simp only [if_neg hz2, ite_self]
      omega
    · simp only [if_neg hz1]
      omega

theorem Dist1.WF.rank_tile_nonneg {d : Dist1} (w : d.WF) {t : Int} (ht : 0 ≤ t) :
    0 ≤ d.rank_global_tile t ∧ d.rank_global_tile t < d.grid := w.cyc.rank_range ht

/-- The local size counts elements: closed form. -/
theorem Dist1.WF.localSize_next {d : Dist1} (w : d.WF) :
    d.localSize =
      util.next_local_tile_from_global_tile d.size d.blockSize d.grid d.rank d.src d.offset := by
  rw [w.localSize_eq]
  by_cases hsz : d.size = 0
  · have hn := w.nrTiles_zero hsz
    have hl := w.localNrTiles_eq
    rw [hn] at hl
    rw [show d.next_local_tile_from_global_tile 0 = 0 from w.cyc.next_local_zero] at hl
    rw [hsz, w.cycE.next_local_zero, Dist1.compute_local_size, if_pos hl]
  have hpos : 0 < d.size := by have := w.size_nonneg; omega
  obtain ⟨hn1, hn2, hn3⟩ := w.nrTiles_pos hpos
  -- decompose the last element
  obtain ⟨L, s, rt, re, hL, hs, hs', hrt, hrt', hre, hre', h1, h2, h3, h4, h5⟩ :=
    w.elem_decomp (e := d.size - 1) (by omega)
  have hlast : d.nrTiles - 1 = (L * d.grid + s) * d.tiles_per_block + rt - d.global_tile_offset := by
    have q1 : (d.nrTiles - 1) * d.tileSize ≤ d.size - 1 + d.global_tile_element_offset := by omega
    have q2 : d.size - 1 + d.global_tile_element_offset < (d.nrTiles - 1 + 1) * d.tileSize := by
      rw [show d.nrTiles - 1 + 1 = d.nrTiles by ring]; omega
    have a1 := cdiv_eq (a := d.size - 1 + d.global_tile_element_offset) (b := d.tileSize)
      (q := d.nrTiles - 1)
      (r := d.size - 1 + d.global_tile_element_offset - (d.nrTiles - 1) * d.tileSize)
      (by omega) (by omega)
      (by have : (d.nrTiles - 1 + 1) * d.tileSize = (d.nrTiles - 1) * d.tileSize + d.tileSize := by ring
          omega) (by ring)
    have a2 := cdiv_eq h5 hre hre' h4
    omega
  have hsucc := w.cyc.next_local_succ (t := d.nrTiles - 1) (by omega)
  have hsuccE := w.cycE.next_local_succ (t := d.size - 1) (by omega)
  rw [show d.nrTiles - 1 + 1 = d.nrTiles by ring] at hsucc
  rw [show d.size - 1 + 1 = d.size by ring] at hsuccE
  have hown : d.rank_global_tile (d.nrTiles - 1) = own d.grid d.src s :=
    w.cyc.rank_global_tile_eq hL hs hs' hrt hrt' (by rw [hlast]; ring)
  rw [w.cycE.rank_global_tile_eq hL hs hs' h3 h2 h1, w.cycE.next_local_eq hL hs hs' h3 h2 h1]
    at hsuccE
  rw [show util.rank_global_tile (d.nrTiles - 1) d.tiles_per_block d.grid d.src
      d.global_tile_offset = _ from hown,
    w.cyc.next_local_eq hL hs hs' hrt hrt' (gt := d.nrTiles - 1) (by rw [hlast]; ring)] at hsucc
  have hl := w.localNrTiles_eq
  unfold Dist1.next_local_tile_from_global_tile at hl
  rw [← hl] at hsucc
  rw [hsuccE]
  simp only [Dist1.compute_local_size]
  rw [hown]
  simp only [w.cyc.own_iff hs hs', w.cycE.own_iff hs hs'] at hsucc ⊢
  have e1 : L * d.blockSize = (L * d.tiles_per_block) * d.tileSize := by rw [w.block_eq]; ring
  have e1' : (L + 1) * d.blockSize = ((L + 1) * d.tiles_per_block) * d.tileSize := by
    rw [w.block_eq]; ring
  have e2 := w.offset_eq
  have e4 : d.nrTiles * d.tileSize =
      ((L * d.grid + s) * d.tiles_per_block + rt - d.global_tile_offset) * d.tileSize + d.tileSize := by
    rw [← hlast]; ring
  unfold Dist1.local_tile_element_offset
  by_cases hr : d.rank = d.src
  · have r0 := w.cyc.rts_eq_zero.2 hr
    simp only [if_pos hr, r0] at *
    by_cases hs0 : (0:Int) = s
    · simp only [if_pos hs0] at *
      have hne : d.localNrTiles ≠ 0 := by
        have := Int.mul_nonneg hL (Int.le_of_lt w.tpb_pos)
        by_cases hL0 : L = 0
        · subst hL0; subst hs0; simp at h5 hsucc; omega
        · have := Int.mul_le_mul_of_nonneg_right (show 1 ≤ L by omega) (Int.le_of_lt w.tpb_pos)
          have := w.gto_lt
          omega
      rw [if_neg hne, hsucc]
      have : (L * d.tiles_per_block + rt - d.global_tile_offset + 1) * d.tileSize =
        (L * d.tiles_per_block) * d.tileSize + rt * d.tileSize - d.global_tile_offset * d.tileSize
          + d.tileSize := by ring
      omega
    · simp only [if_neg hs0, if_pos (show (0:Int) < s by omega)] at *
      have hne : d.localNrTiles ≠ 0 := by
        have := Int.mul_le_mul_of_nonneg_right (show 1 ≤ L + 1 by omega) (Int.le_of_lt w.tpb_pos)
        have := w.gto_lt
        omega
      rw [if_neg hne, hsucc]
      have : ((L + 1) * d.tiles_per_block - d.global_tile_offset + 0) * d.tileSize =
        ((L + 1) * d.tiles_per_block) * d.tileSize - d.global_tile_offset * d.tileSize := by ring
      omega
  · simp only [if_neg hr] at *
    by_cases hs0 : rts d.grid d.rank d.src = s
    · simp only [if_pos hs0] at *
      have hne : d.localNrTiles ≠ 0 := by
        have := Int.mul_nonneg hL (Int.le_of_lt w.tpb_pos)
        omega
      rw [if_neg hne, hsucc]
      have : (L * d.tiles_per_block + rt - 0 + 1) * d.tileSize =
        (L * d.tiles_per_block) * d.tileSize + rt * d.tileSize + d.tileSize := by ring
      omega
    · simp only [if_neg hs0] at *
      by_cases hlt : rts d.grid d.rank d.src < s
      · simp only [if_pos hlt] at *
        have hne : d.localNrTiles ≠ 0 := by
          have := Int.mul_le_mul_of_nonneg_right (show 1 ≤ L + 1 by omega) (Int.le_of_lt w.tpb_pos)
          have := w.tpb_pos
          omega
        rw [if_neg hne, hsucc]
        have : ((L + 1) * d.tiles_per_block - 0 + 0) * d.tileSize =
          ((L + 1) * d.tiles_per_block) * d.tileSize := by ring
        omega
      · simp only [if_neg hlt] at *
        split_ifs with h0
        · rw [h0] at hsucc
          have : L * d.tiles_per_block = 0 := by omega
          rw [e1, this]; simp
        · rw [hsucc]
          have : (L * d.tiles_per_block - 0 + 0) * d.tileSize = (L * d.tiles_per_block) * d.tileSize :=
            by ring
          omega

end DLAF
