import Verif.Lemmas.Dist2
/-
Properties C01 - C06: block-cyclic distributions (one coordinate; the 2D class is the pair of its
two coordinates, see `C01_create_2d`).
-/
namespace DLAF

variable {p : Params}

/-! ### C01 every tile and element has exactly one owner -/

/-- The owner is the block-cyclic owner, lies in the grid, every process agrees on it, and exactly
that process has a valid local index (others get -1). -/
theorem C01_element_owner (hp : p.Valid) {e : Int} (he : 0 ≤ e) (hes : e < p.size) :
    (0 ≤ p.owner e ∧ p.owner e < p.grid) ∧
    ∀ r, 0 ≤ r → r < p.grid →
      (p.onRank r).dist.rank_global_element e = p.owner e ∧
      (r = p.owner e → 0 ≤ (p.onRank r).dist.local_element_from_global_element e ∧
        (p.onRank r).dist.local_element_from_global_element e < (p.onRank r).dist.localSize) ∧
      (r ≠ p.owner e → (p.onRank r).dist.local_element_from_global_element e = -1) := by
  have hg : 0 < p.grid := hp.2.2.2.2.1
  refine ⟨⟨Int.emod_nonneg _ (by omega), Int.emod_lt_of_pos _ hg⟩, ?_⟩
  intro r h0 h1
  have hv := hp.onRank h0 h1
  have w := hv.wf
  have ho : (p.onRank r).dist.rank_global_element e = p.owner e := hv.owner_eq he
  refine ⟨ho, ?_, ?_⟩
  · intro hr
    have ho' : (p.onRank r).dist.rank = util.rank_global_tile e (p.onRank r).dist.blockSize
      (p.onRank r).dist.grid (p.onRank r).dist.src (p.onRank r).dist.offset := by
      rw [← w.rank_elem he, ho]; exact hr
    rw [w.local_elem he]
    refine ⟨(w.cycE.local_nonneg_iff he).2 ho', ?_⟩
    rw [w.localSize_next]
    exact w.cycE.local_lt he hes ho'
  · intro hr
    rw [w.local_elem he]
    apply w.cycE.local_ne
    rw [← w.rank_elem he, ho]
    exact hr

/-- The owner of a tile owns all its elements; exactly one process has the tile. -/
theorem C01_tile_owner (hp : p.Valid) {t : Int} (ht : 0 ≤ t) (htn : t < p.dist.nrTiles) :
    ∃ o, (0 ≤ o ∧ o < p.grid) ∧
      (∀ e, 0 ≤ e → p.tileOf e = t → p.owner e = o) ∧
      ∀ r, 0 ≤ r → r < p.grid →
        (p.onRank r).dist.rank_global_tile t = o ∧
        (r = o → 0 ≤ (p.onRank r).dist.local_tile_from_global_tile t ∧
          (p.onRank r).dist.local_tile_from_global_tile t < (p.onRank r).dist.localNrTiles) ∧
        (r ≠ o → (p.onRank r).dist.local_tile_from_global_tile t = -1) := by
  have w0 := hp.wf
  refine ⟨p.dist.rank_global_tile t, w0.cyc.rank_range ht, ?_, ?_⟩
  · intro e he h
    rw [← hp.owner_eq he, ← h, ← hp.tileOf_eq he]; rfl
  · intro r h0 h1
    have hv := hp.onRank h0 h1
    have w := hv.wf
    have hsame : (p.onRank r).dist.rank_global_tile t = p.dist.rank_global_tile t := rfl
    refine ⟨hsame, ?_, ?_⟩
    · intro hr
      have ho : (p.onRank r).dist.rank = (p.onRank r).dist.rank_global_tile t := hr
      refine ⟨(w.cyc.local_nonneg_iff ht).2 ho, ?_⟩
      rw [w.localNrTiles_eq]
      exact w.cyc.local_lt ht htn ho
    · intro hr
      exact w.cyc.local_ne hr

example : ∃ p : Params, p.Valid ∧ 3 < p.dist.nrTiles ∧ p.owner 13 = 0 ∧ p.tileOf 13 = 7 :=
  ⟨⟨20, 6, 2, 3, 1, 2, 15⟩, by decide⟩

/-- The 2D constructor called with valid parameters in both coordinates succeeds and is the pair of
the two one-dimensional distributions, in Debug and Release builds; so everything proved per
coordinate holds for both coordinates of a `Distribution`. -/
theorem C01_create_2d (heavy : Bool) {pr pc : Params} (hr : pr.Valid) (hc : pc.Valid) :
    Distribution.create heavy ⟨pr.size, pc.size⟩ ⟨pr.block, pc.block⟩ ⟨pr.tile, pc.tile⟩
      ⟨pr.grid, pc.grid⟩ ⟨pr.rank, pc.rank⟩ ⟨pr.src, pc.src⟩ ⟨pr.offset, pc.offset⟩ =
      some ⟨pr.dist, pc.dist⟩ := by
  have acc : ∀ {p : Params}, p.Valid →
      Dist1.accepts heavy p.size p.block p.tile p.grid p.rank p.src p.offset = true := by
    intro p hp
    have hm : cmod p.offset p.block < p.block := Int.tmod_lt_of_pos _ hp.2.1
    obtain ⟨h1, h2, h3, h4, h5, ⟨h6, h7⟩, ⟨h8, h9⟩, h10⟩ := hp
    have hd : cmod p.block p.tile = 0 := by
      unfold cmod; rw [Int.tmod_eq_emod_of_nonneg (by omega)]; exact h4
    simp only [Dist1.accepts, hm, hd, Bool.and_eq_true, decide_eq_true_eq, Bool.or_eq_true,
      ne_eq]
    refine ⟨⟨⟨⟨⟨⟨⟨⟨h1, by omega⟩, by omega⟩, by omega⟩, ?_⟩, trivial⟩, h6, h7⟩, h8, h9⟩, trivial⟩
    right; exact ⟨⟨by omega, by omega⟩, by omega⟩
  simp [Distribution.create, acc hr, acc hc, Params.dist]

/-- 2D: exactly one process of the grid owns a given element. -/
theorem C01_unique_owner_2d {pr pc : Params} (hr : pr.Valid) (hc : pc.Valid) {i j : Int}
    (hi : 0 ≤ i ∧ i < pr.size) (hj : 0 ≤ j ∧ j < pc.size) :
    ∃ r c, (0 ≤ r ∧ r < pr.grid) ∧ (0 ≤ c ∧ c < pc.grid) ∧
      ∀ r' c', 0 ≤ r' → r' < pr.grid → 0 ≤ c' → c' < pc.grid →
        ((0 ≤ (pr.onRank r').dist.local_element_from_global_element i ∧
          0 ≤ (pc.onRank c').dist.local_element_from_global_element j) ↔ r' = r ∧ c' = c) := by
  obtain ⟨h1, h2⟩ := C01_element_owner hr hi.1 hi.2
  obtain ⟨k1, k2⟩ := C01_element_owner hc hj.1 hj.2
  refine ⟨_, _, h1, k1, ?_⟩
  intro r' c' a b c d
  obtain ⟨_, x1, x2⟩ := h2 r' a b
  obtain ⟨_, y1, y2⟩ := k2 c' c d
  constructor
  · rintro ⟨e1, e2⟩
    constructor
    · by_contra hh; have := x2 hh; omega
    · by_contra hh; have := y2 hh; omega
  · rintro ⟨e1, e2⟩
    exact ⟨(x1 e1).1, (y1 e2).1⟩

/-! ### C02 tile index round trips -/

/-- local → global → local, with the global tile inside the matrix and owned by the rank. -/
theorem C02_local_global_local (hp : p.Valid) {lt : Int} (h0 : 0 ≤ lt)
    (h1 : lt < p.dist.localNrTiles) :
    p.dist.local_tile_from_global_tile (p.dist.global_tile_from_local_tile lt) = lt ∧
    p.dist.rank_global_tile (p.dist.global_tile_from_local_tile lt) = p.rank ∧
    0 ≤ p.dist.global_tile_from_local_tile lt ∧
    p.dist.global_tile_from_local_tile lt < p.dist.nrTiles := by
  have w := hp.wf
  obtain ⟨a, b, c⟩ := w.cyc.global_local h0
  exact ⟨c, b, a, w.cyc.global_lt h0 w.nrTiles_nonneg (by rw [w.localNrTiles_eq] at h1; exact h1)⟩

/-- owned global → local → global. -/
theorem C02_global_local_global (hp : p.Valid) {t : Int} (h0 : 0 ≤ t)
    (ho : p.dist.rank_global_tile t = p.rank) :
    p.dist.global_tile_from_local_tile (p.dist.local_tile_from_global_tile t) = t :=
  hp.wf.cyc.local_global h0 ho.symm

example : ∃ p : Params, p.Valid ∧ p.dist.localNrTiles = 3 ∧ p.dist.global_tile_from_local_tile 2 = 9 ∧
    p.dist.rank_global_tile 9 = p.rank := ⟨⟨20, 4, 2, 3, 1, 1, 6⟩, by decide⟩

/-! ### C03 element index round trips -/

/-- Splitting a global element and recombining; the tile element is in range of the tile size. -/
theorem C03_global_split (hp : p.Valid) {e : Int} (he : 0 ≤ e) (hes : e < p.size) :
    p.dist.global_element_from_global_tile_and_tile_element
      (p.dist.global_tile_from_global_element e) (p.dist.tile_element_from_global_element e) = e ∧
    0 ≤ p.dist.global_tile_from_global_element e ∧
    p.dist.global_tile_from_global_element e < p.dist.nrTiles ∧
    0 ≤ p.dist.tile_element_from_global_element e ∧
    p.dist.tile_element_from_global_element e <
      p.dist.global_tile_size_of (p.dist.global_tile_from_global_element e) := by
  have w := hp.wf
  have hs : p.dist.size = p.size := rfl
  have hN := w.nrTiles_pos (by omega)
  have hx : 0 ≤ e + p.dist.global_tile_element_offset := by have := w.gteo_nonneg; omega
  obtain ⟨t, re, ht, hre, hre', h⟩ := exists_divmod hx w.tile_pos
  have hT : p.dist.global_tile_from_global_element e = t := cdiv_eq ht hre hre' h
  have hE : p.dist.tile_element_from_global_element e = _ := tile_element_eq w.tile_pos ht hre hre' h
  have htN : t < p.dist.nrTiles := by
    by_contra hc
    have := Int.mul_le_mul_of_nonneg_right (show p.dist.nrTiles ≤ t by omega) (Int.le_of_lt w.tile_pos)
    omega
  have g0 := w.gteo_nonneg
  have g1 := w.gteo_lt
  rw [hT, hE]
  refine ⟨?_, ht, htN, ?_, ?_⟩
  · simp only [Dist1.global_element_from_global_tile_and_tile_element,
      util.element_from_tile_and_tile_element]
    by_cases h0 : t = 0
    · subst h0; simp at *; omega
    · rw [if_neg h0, if_pos (by omega)]; omega
  · by_cases h0 : t = 0
    · subst h0; simp at *; omega
    · rw [if_neg h0]; omega
  · rw [w.global_tsz ht htN]
    by_cases hl : t = p.dist.nrTiles - 1
    · have e1 : p.dist.nrTiles * p.dist.tileSize = t * p.dist.tileSize + p.dist.tileSize := by
        rw [hl]; ring
      rw [if_pos hl]; split_ifs <;> omega
    · rw [if_neg hl]; split_ifs <;> omega

/-- Conversely each in-range (tile, tile element) pair is produced by exactly one element. -/
theorem C03_global_combine (hp : p.Valid) {t te : Int} (ht : 0 ≤ t) (htN : t < p.dist.nrTiles)
    (hte : 0 ≤ te) (hte' : te < p.dist.global_tile_size_of t) :
    ∃ e, (0 ≤ e ∧ e < p.size ∧ p.dist.global_tile_from_global_element e = t ∧
        p.dist.tile_element_from_global_element e = te) ∧
      e = p.dist.global_element_from_global_tile_and_tile_element t te ∧
      ∀ e', 0 ≤ e' → e' < p.size → p.dist.global_tile_from_global_element e' = t →
        p.dist.tile_element_from_global_element e' = te → e' = e := by
  have w := hp.wf
  have hs : p.dist.size = p.size := rfl
  have hN := w.nrTiles_pos (w.size_pos_of (by omega))
  have g0 := w.gteo_nonneg
  have g1 := w.gteo_lt
  rw [w.global_tsz ht htN] at hte'
  have hle : t * p.dist.tileSize ≤ (p.dist.nrTiles - 1) * p.dist.tileSize :=
    Int.mul_le_mul_of_nonneg_right (by omega) (Int.le_of_lt w.tile_pos)
  have ep : (p.dist.nrTiles - 1) * p.dist.tileSize = p.dist.nrTiles * p.dist.tileSize - p.dist.tileSize := by
    ring
  have hE : p.dist.global_element_from_global_tile_and_tile_element t te + p.dist.global_tile_element_offset
      = t * p.dist.tileSize + (te + (if t = 0 then p.dist.global_tile_element_offset else 0)) := by
    simp only [Dist1.global_element_from_global_tile_and_tile_element,
      util.element_from_tile_and_tile_element]
    by_cases h0 : t = 0
    · subst h0; simp
    · rw [if_neg h0, if_pos (by omega)]; omega
  have hb0 : 0 ≤ te + (if t = 0 then p.dist.global_tile_element_offset else 0) := by split <;> omega
  have hb1 : te + (if t = 0 then p.dist.global_tile_element_offset else 0) < p.dist.tileSize := by
    split_ifs at hte' ⊢ <;> omega
  have hpos : 0 ≤ t * p.dist.tileSize := Int.mul_nonneg ht (Int.le_of_lt w.tile_pos)
  have e0 : 0 ≤ p.dist.global_element_from_global_tile_and_tile_element t te := by
    by_cases h0 : t = 0
    · subst h0; simp at *; omega
    · have : 1 * p.dist.tileSize ≤ t * p.dist.tileSize :=
        Int.mul_le_mul_of_nonneg_right (by omega) (Int.le_of_lt w.tile_pos)
      rw [if_neg h0] at hE; omega
  have e1 : p.dist.global_element_from_global_tile_and_tile_element t te < p.size := by
    by_cases hl : t = p.dist.nrTiles - 1
    · rw [if_pos hl] at hte'
      rw [← hl] at ep
      split_ifs at hte' hE <;> omega
    · have : (t + 1) * p.dist.tileSize ≤ (p.dist.nrTiles - 1) * p.dist.tileSize :=
        Int.mul_le_mul_of_nonneg_right (by omega) (Int.le_of_lt w.tile_pos)
      have e3 : (t + 1) * p.dist.tileSize = t * p.dist.tileSize + p.dist.tileSize := by ring
      omega
  have hT : p.dist.global_tile_from_global_element
      (p.dist.global_element_from_global_tile_and_tile_element t te) = t := cdiv_eq ht hb0 hb1 hE
  have hTE : p.dist.tile_element_from_global_element
      (p.dist.global_element_from_global_tile_and_tile_element t te) = te := by
    have : p.dist.tile_element_from_global_element
      (p.dist.global_element_from_global_tile_and_tile_element t te) = _ :=
      tile_element_eq w.tile_pos ht hb0 hb1 hE
    rw [this]; omega
  refine ⟨_, ⟨e0, e1, hT, hTE⟩, rfl, ?_⟩
  intro e' a b c d
  have := (C03_global_split hp a b).1
  rw [c, d] at this
  exact this.symm

/-- Local elements: split/recombine and in range of the local tile size. -/
theorem C03_local_split (hp : p.Valid) {e : Int} (he : 0 ≤ e) (hes : e < p.dist.localSize) :
    p.dist.local_element_from_local_tile_and_tile_element
      (p.dist.local_tile_from_local_element e) (p.dist.tile_element_from_local_element e) = e ∧
    0 ≤ p.dist.local_tile_from_local_element e ∧
    p.dist.local_tile_from_local_element e < p.dist.localNrTiles ∧
    0 ≤ p.dist.tile_element_from_local_element e ∧
    p.dist.tile_element_from_local_element e <
      p.dist.local_tile_size_of (p.dist.local_tile_from_local_element e) := by
  have w := hp.wf
  have hlp : 0 < p.dist.localNrTiles := by
    by_contra hc
    have h0 : p.dist.localNrTiles = 0 := by have := w.localNrTiles_nonneg; omega
    have := w.localSize_eq
    rw [Dist1.compute_local_size, if_pos h0] at this
    omega
  have hN := w.localSize_bounds hlp
  obtain ⟨g0, g1⟩ := w.lteo_range
  have hx : 0 ≤ e + p.dist.local_tile_element_offset := by omega
  obtain ⟨t, re, ht, hre, hre', h⟩ := exists_divmod hx w.tile_pos
  have hT : p.dist.local_tile_from_local_element e = t := cdiv_eq ht hre hre' h
  have hE : p.dist.tile_element_from_local_element e = _ := tile_element_eq w.tile_pos ht hre hre' h
  have htN : t < p.dist.localNrTiles := by
    by_contra hc
    have := Int.mul_le_mul_of_nonneg_right (show p.dist.localNrTiles ≤ t by omega)
      (Int.le_of_lt w.tile_pos)
    omega
  rw [hT, hE]
  refine ⟨?_, ht, htN, ?_, ?_⟩
  · simp only [Dist1.local_element_from_local_tile_and_tile_element,
      util.element_from_tile_and_tile_element]
    by_cases h0 : t = 0
    · subst h0; simp at *; omega
    · rw [if_neg h0, if_pos (by omega)]; omega
  · by_cases h0 : t = 0
    · subst h0; simp at *; omega
    · rw [if_neg h0]; omega
  · rw [w.local_tsz ht htN]
    by_cases hl : t = p.dist.localNrTiles - 1
    · have e1 : p.dist.localNrTiles * p.dist.tileSize = t * p.dist.tileSize + p.dist.tileSize := by
        rw [hl]; ring
      rw [if_pos hl]; split_ifs <;> omega
    · rw [if_neg hl]; split_ifs <;> omega

/-- Owned global element → local → global. -/
theorem C03_owned_global_local_global (hp : p.Valid) {e : Int} (he : 0 ≤ e)
    (ho : p.owner e = p.rank) :
    p.dist.global_element_from_local_element (p.dist.local_element_from_global_element e) = e := by
  have w := hp.wf
  rw [← hp.owner_eq he, w.rank_elem he] at ho
  have hn := (w.cycE.local_nonneg_iff he).2 ho.symm
  rw [w.local_elem he, w.global_elem hn]
  exact w.cycE.local_global he ho.symm

/-- Local element → global (owned, inside the matrix) → local. -/
theorem C03_local_global_local (hp : p.Valid) {e : Int} (he : 0 ≤ e) (hes : e < p.dist.localSize) :
    p.dist.local_element_from_global_element (p.dist.global_element_from_local_element e) = e ∧
    p.owner (p.dist.global_element_from_local_element e) = p.rank ∧
    0 ≤ p.dist.global_element_from_local_element e ∧
    p.dist.global_element_from_local_element e < p.size := by
  have w := hp.wf
  obtain ⟨a, b, c⟩ := w.cycE.global_local he
  rw [← w.global_elem he] at a b c
  refine ⟨?_, ?_, a, ?_⟩
  · rw [w.local_elem a]; exact c
  · rw [← hp.owner_eq a, w.rank_elem a]; exact b
  · rw [w.localSize_next] at hes
    have := w.cycE.global_lt he w.size_nonneg hes
    rw [← w.global_elem he] at this
    exact this

example : ∃ p : Params, p.Valid ∧ p.dist.localSize = 8 ∧
    p.dist.global_element_from_local_element 7 = 13 ∧ p.owner 13 = p.rank :=
  ⟨⟨20, 6, 3, 2, 0, 0, 4⟩, by decide⟩

/-! ### C04 local sizes count what the rank owns -/

/-- The local size is the number of elements the rank owns. -/
theorem C04_local_size_count (hp : p.Valid) :
    p.dist.localSize = countBelow p.size.toNat (fun e => decide (p.owner e = p.rank)) := by
  have w := hp.wf
  rw [w.localSize_next]
  have hs : ((p.size.toNat : Nat) : Int) = p.dist.size := Int.toNat_of_nonneg hp.1
  rw [← hs, w.cycE.next_local_count]
  congr 1
  apply countBelow_congr
  intro e _
  rw [← w.rank_elem (by omega), hp.owner_eq (by omega)]; rfl

/-- The local number of tiles is the number of tiles whose elements the rank owns. -/
theorem C04_local_tiles_count (hp : p.Valid) :
    p.dist.localNrTiles =
      countBelow p.dist.nrTiles.toNat (fun t => decide (p.owner (p.tileBegin t) = p.rank)) := by
  have w := hp.wf
  have hs : ((p.dist.nrTiles.toNat : Nat) : Int) = p.dist.nrTiles := Int.toNat_of_nonneg w.nrTiles_nonneg
  have : p.dist.localNrTiles = _ := w.localNrTiles_eq
  unfold Dist1.next_local_tile_from_global_tile at this
  rw [← hs, w.cyc.next_local_count] at this
  rw [this]
  congr 1
  apply countBelow_congr
  intro t _
  have h := hp.tileBegin_spec (t := t) (by omega)
  rw [← hp.owner_eq h.1, Dist1.rank_global_element, hp.tileOf_eq h.1, h.2]; rfl

/-- Summed over the ranks of the grid, local sizes give the matrix size. -/
theorem C04_sum_local_sizes (hp : p.Valid) :
    sumBelow p.grid.toNat (fun r => (p.onRank r).dist.localSize) = p.size := by
  have hg : 0 < p.grid := hp.2.2.2.2.1
  have hgn : ((p.grid.toNat : Nat) : Int) = p.grid := Int.toNat_of_nonneg (by omega)
  have h := sum_counts p.grid.toNat p.owner p.size.toNat (fun i _ =>
    ⟨Int.emod_nonneg _ (by omega), by rw [hgn]; exact Int.emod_lt_of_pos _ hg⟩)
  rw [Int.toNat_of_nonneg hp.1] at h
  rw [← h]
  apply sumBelow_congr
  intro r hr
  exact C04_local_size_count (hp.onRank (by omega) (by omega))

/-- Summed over the ranks of the grid, local numbers of tiles give the number of tiles. -/
theorem C04_sum_local_tiles (hp : p.Valid) :
    sumBelow p.grid.toNat (fun r => (p.onRank r).dist.localNrTiles) = p.dist.nrTiles := by
  have hg : 0 < p.grid := hp.2.2.2.2.1
  have hgn : ((p.grid.toNat : Nat) : Int) = p.grid := Int.toNat_of_nonneg (by omega)
  have h := sum_counts p.grid.toNat (fun t => p.owner (p.tileBegin t)) p.dist.nrTiles.toNat (fun i _ =>
    ⟨Int.emod_nonneg _ (by omega), by rw [hgn]; exact Int.emod_lt_of_pos _ hg⟩)
  rw [Int.toNat_of_nonneg hp.wf.nrTiles_nonneg] at h
  rw [← h]
  apply sumBelow_congr
  intro r hr
  exact C04_local_tiles_count (hp.onRank (by omega) (by omega))

example : ∃ p : Params, p.Valid ∧ p.dist.localSize = 5 ∧ p.dist.localNrTiles = 3 :=
  ⟨⟨13, 4, 2, 3, 1, 1, 3⟩, by decide⟩

/-! ### C05 next local tile -/

/-- `next_local_tile_from_global_tile t` = number of owned tiles before `t` (any `t ≥ 0`, also one
past the last). -/
theorem C05_next_local_count (hp : p.Valid) (t : Nat) :
    p.dist.next_local_tile_from_global_tile t =
      countBelow t (fun t => decide (p.owner (p.tileBegin t) = p.rank)) := by
  have w := hp.wf
  unfold Dist1.next_local_tile_from_global_tile
  rw [w.cyc.next_local_count]
  congr 1
  apply countBelow_congr
  intro t _
  have h := hp.tileBegin_spec (t := t) (by omega)
  rw [← hp.owner_eq h.1, Dist1.rank_global_element, hp.tileOf_eq h.1, h.2]; rfl

/-- Looping over local tiles `[next_local a, next_local b)` visits exactly the owned tiles in
`[a, b)`. -/
theorem C05_local_range_visits (hp : p.Valid) {a b : Int} (ha : 0 ≤ a) (hab : a ≤ b) (t : Int) :
    (a ≤ t ∧ t < b ∧ p.dist.rank_global_tile t = p.rank) ↔
      ∃ lt, p.dist.next_local_tile_from_global_tile a ≤ lt ∧
        lt < p.dist.next_local_tile_from_global_tile b ∧
        p.dist.global_tile_from_local_tile lt = t := by
  have w := hp.wf
  constructor
  · rintro ⟨h1, h2, h3⟩
    refine ⟨p.dist.local_tile_from_global_tile t, ?_, w.cyc.local_lt (by omega) h2 h3.symm,
      w.cyc.local_global (by omega) h3.symm⟩
    unfold Dist1.local_tile_from_global_tile
    rw [w.cyc.local_eq_next (by omega) h3.symm]
    exact w.cyc.next_local_mono ha h1
  · rintro ⟨lt, h1, h2, rfl⟩
    have hlt : 0 ≤ lt := Int.le_trans (w.cyc.next_local_nonneg ha) h1
    obtain ⟨g0, g1, g2⟩ := w.cyc.global_local hlt
    refine ⟨?_, w.cyc.global_lt hlt (by omega) h2, g1⟩
    by_contra hc
    have := w.cyc.local_lt (t := p.dist.global_tile_from_local_tile lt) (n := a) g0 (by omega) g1.symm
    rw [show util.local_tile_from_global_tile (p.dist.global_tile_from_local_tile lt)
      p.dist.tiles_per_block p.dist.grid p.dist.rank p.dist.src p.dist.global_tile_offset = lt from g2]
      at this
    exact absurd h1 (by unfold Dist1.next_local_tile_from_global_tile; omega)

/-- ... in increasing global order. -/
theorem C05_increasing (hp : p.Valid) {a b : Int} (ha : 0 ≤ a) (hab : a < b) :
    p.dist.global_tile_from_local_tile a < p.dist.global_tile_from_local_tile b := by
  have w := hp.wf
  obtain ⟨a0, a1, a2⟩ := w.cyc.global_local ha
  obtain ⟨b0, b1, b2⟩ := w.cyc.global_local (lt := b) (by omega)
  by_contra hc
  have := w.cyc.next_local_mono b0 (b := p.dist.global_tile_from_local_tile a)
    (by unfold Dist1.global_tile_from_local_tile at hc ⊢; omega)
  rw [← w.cyc.local_eq_next b0 b1.symm, b2] at this
  unfold Dist1.global_tile_from_local_tile at this
  rw [← w.cyc.local_eq_next a0 a1.symm, a2] at this
  omega

example : ∃ p : Params, p.Valid ∧ p.dist.next_local_tile_from_global_tile 2 = 1 ∧
    p.dist.next_local_tile_from_global_tile p.dist.nrTiles = 3 := ⟨⟨13, 4, 2, 3, 1, 1, 3⟩, by decide⟩

/-! ### C06 tile sizes -/

/-- A tile covers exactly the elements from its begin to its end, as cut by offset and size. -/
theorem C06_tile_size_is_extent (hp : p.Valid) {t : Int} (h0 : 0 ≤ t) (h1 : t < p.dist.nrTiles) :
    p.dist.global_tile_size_of t = p.tileEnd t - p.tileBegin t := by
  have w := hp.wf
  have hN := w.nrTiles_pos (w.size_pos_of (by omega))
  have hc := w.global_tsz h0 h1
  have hg := hp.gteo_eq
  rw [hg] at hc hN
  replace hN : 0 < p.dist.nrTiles ∧ (p.dist.nrTiles - 1) * p.tile < p.size + p.offset % p.tile ∧
    p.size + p.offset % p.tile ≤ p.dist.nrTiles * p.tile := hN
  replace hc : p.dist.global_tile_size_of t = p.tile - (if t = 0 then p.offset % p.tile else 0)
      - (if t = p.dist.nrTiles - 1 then p.dist.nrTiles * p.tile
          - (p.size + p.offset % p.tile) else 0) := hc
  rw [hc]
  have ht : 0 < p.tile := hp.2.2.1
  have hm := Int.mul_ediv_add_emod p.offset p.tile
  have hm0 := Int.emod_nonneg p.offset (b := p.tile) (by omega)
  have hm1 := Int.emod_lt_of_pos p.offset ht
  have b1 : (p.offset / p.tile + t) * p.tile - p.offset = t * p.tile - p.offset % p.tile := by
    have : (p.offset / p.tile + t) * p.tile = p.tile * (p.offset / p.tile) + t * p.tile := by ring
    omega
  have b2 : (p.offset / p.tile + t + 1) * p.tile - p.offset
      = t * p.tile + p.tile - p.offset % p.tile := by
    have : (p.offset / p.tile + t + 1) * p.tile
      = p.tile * (p.offset / p.tile) + t * p.tile + p.tile := by ring
    omega
  unfold Params.tileEnd Params.tileBegin
  rw [b1, b2]
  have q1 : (p.dist.nrTiles - 1) * p.tile = p.dist.nrTiles * p.tile - p.tile := by ring
  have q2 : t * p.tile ≤ (p.dist.nrTiles - 1) * p.tile :=
    Int.mul_le_mul_of_nonneg_right (by omega) (by omega)
  by_cases hl : t = p.dist.nrTiles - 1
  · rw [if_pos hl]
    by_cases hz : t = 0
    · rw [if_pos hz]; rw [← hl, hz] at q1; rw [hz]; simp at *; omega
    · rw [if_neg hz]
      have : 1 * p.tile ≤ t * p.tile := Int.mul_le_mul_of_nonneg_right (by omega) (by omega)
      rw [← hl] at q1; omega
  · rw [if_neg hl]
    have q3 : (t + 1) * p.tile ≤ (p.dist.nrTiles - 1) * p.tile :=
      Int.mul_le_mul_of_nonneg_right (by omega) (by omega)
    have q4 : (t + 1) * p.tile = t * p.tile + p.tile := by ring
    by_cases hz : t = 0
    · rw [if_pos hz, hz]; rw [hz] at q3 q4; simp at *; omega
    · rw [if_neg hz]
      have : 1 * p.tile ≤ t * p.tile := Int.mul_le_mul_of_nonneg_right (by omega) (by omega)
      omega

/-- The number of tiles is the index of the tile of the last element plus one (0 if empty). -/
theorem C06_nr_tiles (hp : p.Valid) :
    p.dist.nrTiles = if p.size = 0 then 0 else p.tileOf (p.size - 1) + 1 := by
  have w := hp.wf
  by_cases h : p.size = 0
  · rw [if_pos h]; exact w.nrTiles_zero h
  · rw [if_neg h]
    have hs : 0 < p.size := by have := hp.1; omega
    obtain ⟨n0, n1, n2⟩ := w.nrTiles_pos hs
    have hsz : p.dist.size = p.size := rfl
    rw [hsz] at n1 n2
    rw [← hp.tileOf_eq (by omega)]
    have e : (p.dist.nrTiles - 1) * p.dist.tileSize = p.dist.nrTiles * p.dist.tileSize - p.dist.tileSize := by
      ring
    have : p.dist.global_tile_from_global_element (p.size - 1) = p.dist.nrTiles - 1 :=
      cdiv_eq (r := p.size - 1 + p.dist.global_tile_element_offset
        - (p.dist.nrTiles - 1) * p.dist.tileSize) (by omega) (by omega) (by omega) (by omega)
    omega

/-- Tiles have between 1 and `tile` elements; only the first and the last can be smaller. -/
theorem C06_tile_size_bounds (hp : p.Valid) {t : Int} (h0 : 0 ≤ t) (h1 : t < p.dist.nrTiles) :
    1 ≤ p.dist.global_tile_size_of t ∧ p.dist.global_tile_size_of t ≤ p.tile ∧
    (0 < t → t < p.dist.nrTiles - 1 → p.dist.global_tile_size_of t = p.tile) := by
  have w := hp.wf
  have hN := w.nrTiles_pos (w.size_pos_of (by omega))
  have hc := w.global_tsz h0 h1
  replace hN : 0 < p.dist.nrTiles ∧ (p.dist.nrTiles - 1) * p.tile <
      p.dist.size + p.dist.global_tile_element_offset ∧
    p.dist.size + p.dist.global_tile_element_offset ≤ p.dist.nrTiles * p.tile := hN
  replace hc : p.dist.global_tile_size_of t = p.tile
      - (if t = 0 then p.dist.global_tile_element_offset else 0)
      - (if t = p.dist.nrTiles - 1 then p.dist.nrTiles * p.tile
          - (p.dist.size + p.dist.global_tile_element_offset) else 0) := hc
  have : p.dist.global_tile_element_offset < p.tile := w.gteo_lt
  have := w.gteo_nonneg
  have := w.gteo_lt
  have ht : 0 < p.tile := hp.2.2.1
  have q1 : (p.dist.nrTiles - 1) * p.tile = p.dist.nrTiles * p.tile - p.tile := by ring
  have hsz := w.size_pos_of (show 0 < p.dist.nrTiles by omega)
  have q0 : p.dist.nrTiles = 1 → p.dist.nrTiles * p.tile = p.tile := by intro h; rw [h]; ring
  refine ⟨?_, ?_, ?_⟩
  · rw [hc]; split_ifs <;> omega
  · rw [hc]; split_ifs <;> omega
  · intro a b; rw [hc, if_neg (by omega), if_neg (by omega)]; omega

/-- Tile sizes sum to the size of the matrix. -/
theorem C06_sizes_sum (hp : p.Valid) :
    sumBelow p.dist.nrTiles.toNat p.dist.global_tile_size_of = p.size := by
  have w := hp.wf
  by_cases h : p.size = 0
  · rw [w.nrTiles_zero h, h]; rfl
  · have hN := w.nrTiles_pos (show 0 < p.dist.size by have := hp.1; have : p.dist.size = p.size := rfl; omega)
    have hn : ((p.dist.nrTiles.toNat : Nat) : Int) = p.dist.nrTiles := Int.toNat_of_nonneg (by omega)
    have := tsz_prefix w.gteo_nonneg w.gteo_lt hN.2.1 hN.2.2 p.dist.nrTiles.toNat (by omega)
    rw [if_neg (by omega), if_pos hn] at this
    exact this

/-- Local tile sizes sum to the local size. -/
theorem C06_local_sizes_sum (hp : p.Valid) :
    sumBelow p.dist.localNrTiles.toNat p.dist.local_tile_size_of = p.dist.localSize := by
  have w := hp.wf
  by_cases h : p.dist.localNrTiles = 0
  · have := w.localSize_eq
    rw [Dist1.compute_local_size, if_pos h] at this
    rw [h, this]; rfl
  · have hpos : 0 < p.dist.localNrTiles := by have := w.localNrTiles_nonneg; omega
    have hN := w.localSize_bounds hpos
    have hn : ((p.dist.localNrTiles.toNat : Nat) : Int) = p.dist.localNrTiles :=
      Int.toNat_of_nonneg (by omega)
    have := tsz_prefix w.lteo_range.1 w.lteo_range.2 hN.2.1 hN.2.2 p.dist.localNrTiles.toNat (by omega)
    rw [if_neg (by omega), if_pos hn] at this
    exact this

/-- The local and the global query give the same size for the same tile. -/
theorem C06_local_global_size_agree (hp : p.Valid) {lt : Int} (h0 : 0 ≤ lt)
    (h1 : lt < p.dist.localNrTiles) :
    p.dist.local_tile_size_of lt = p.dist.global_tile_size_of (p.dist.global_tile_from_local_tile lt) :=
  hp.wf.local_tsz_eq h0 h1

example : ∃ p : Params, p.Valid ∧ p.dist.nrTiles = 4 ∧ p.dist.global_tile_size_of 0 = 2 ∧
    p.dist.global_tile_size_of 3 = 1 ∧ p.dist.localNrTiles = 2 := ⟨⟨9, 6, 3, 2, 0, 0, 4⟩, by decide⟩

end DLAF
