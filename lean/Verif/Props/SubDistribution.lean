import Verif.Props.Distribution
import Verif.Lemmas.SubDist
/-
Properties C07 (sub-distributions), C39 (constructor validation), C40 (helpers for other ranks).
-/
namespace DLAF

variable {p : Params}

/-! ### C07 -/

/-- The sub-distribution constructor builds the distribution of the shifted matrix. -/
theorem C07_sub_is_shift (hp : p.Valid) {o n : Int} (ho : 0 ≤ o) (hn : 0 ≤ n) :
    p.dist.subBuild o n = (p.sub o n).dist := hp.subBuild_eq ho hn

/-- Sub-matrix element `e` belongs to the rank that owns parent element `o + e`, in the same memory
tile (counted from the tile of the origin) at the same position in it: the parent's position is the
sub-matrix's, plus the origin's position if the tile is the one cut by the origin. -/
theorem C07_sub_element (hp : p.Valid) {o n e : Int} (ho : 0 ≤ o) (hn : 0 ≤ n) (he : 0 ≤ e) :
    let sub := p.dist.subBuild o n
    sub.rank_global_element e = p.dist.rank_global_element (o + e) ∧
    p.dist.global_tile_from_global_element (o + e) =
      p.dist.global_tile_from_global_element o + sub.global_tile_from_global_element e ∧
    p.dist.tile_element_from_global_element (o + e) =
      sub.tile_element_from_global_element e +
        (if sub.global_tile_from_global_element e = 0 then p.dist.tile_element_from_global_element o
         else 0) := by
  intro sub
  have hs : sub = (p.sub o n).dist := hp.subBuild_eq ho hn
  have hv := hp.sub ho hn
  have w := hp.wf
  have w' := hv.wf
  rw [hs]
  refine ⟨?_, ?_, ?_⟩
  · rw [hv.owner_eq he, hp.owner_eq (by omega)]
    show ((p.offset + o + e) / p.block + p.src) % p.grid = ((p.offset + (o + e)) / p.block + p.src) % p.grid
    rw [Int.add_assoc]
  · rw [hv.tileOf_eq he, hp.tileOf_eq (by omega), hp.tileOf_eq ho]
    show (p.offset + (o + e)) / p.tile - p.offset / p.tile =
      (p.offset + o) / p.tile - p.offset / p.tile + ((p.offset + o + e) / p.tile - (p.offset + o) / p.tile)
    rw [Int.add_assoc]; omega
  · have ht : 0 < p.tile := hp.2.2.1
    have g := hp.gteo_eq
    have g' : (p.sub o n).dist.global_tile_element_offset = (p.offset + o) % p.tile := hv.gteo_eq
    have m0 := Int.emod_nonneg p.offset (b := p.tile) (by omega)
    have m1 := Int.emod_lt_of_pos p.offset ht
    have m2 := Int.emod_nonneg (p.offset + o) (b := p.tile) (by omega)
    have m3 := Int.emod_lt_of_pos (p.offset + o) ht
    -- decompositions
    obtain ⟨t, r, ht0, hr0, hr1, h1⟩ := exists_divmod (a := e + (p.offset + o) % p.tile) (by omega) ht
    obtain ⟨t2, r2, ht2, hr20, hr21, h2⟩ := exists_divmod (a := o + p.offset % p.tile) (by omega) ht
    have hr2 : r2 = (p.offset + o) % p.tile := by
      have : (o + p.offset % p.tile) % p.tile = (p.offset + o) % p.tile := by
        rw [Int.add_emod_emod, Int.add_comm]
      rw [← this, h2, Int.add_comm, Int.add_mul_emod_self_right]
      exact (Int.emod_eq_of_lt hr20 hr21).symm
    have h3 : (o + e) + p.offset % p.tile = (t2 + t) * p.tile + r := by
      have : (t2 + t) * p.tile = t2 * p.tile + t * p.tile := by ring
      omega
    have T1 : (p.sub o n).dist.tile_element_from_global_element e = _ :=
      tile_element_eq (off := (p.sub o n).dist.global_tile_element_offset) ht ht0 hr0 hr1 (by rw [g']; exact h1)
    have T2 : p.dist.tile_element_from_global_element o = _ :=
      tile_element_eq (off := p.dist.global_tile_element_offset) ht ht2 hr20 hr21 (by rw [g]; exact h2)
    have T3 : p.dist.tile_element_from_global_element (o + e) = _ :=
      tile_element_eq (off := p.dist.global_tile_element_offset) ht (by omega : 0 ≤ t2 + t) hr0 hr1
        (by rw [g]; exact h3)
    have T4 : (p.sub o n).dist.global_tile_from_global_element e = t :=
      tile_from_element_eq ht0 hr0 hr1 (by rw [g']; exact h1)
    rw [T1, T2, T3, T4, g, g', ← hr2]
    split_ifs <;> omega

/-- On every rank the local index of a sub-matrix element is the parent's local index minus the
number of parent elements before the origin the rank owns: the sub-matrix's local part is a
contiguous piece of the parent's local part. -/
theorem C07_sub_local_element (hp : p.Valid) {o n e : Int} (ho : 0 ≤ o) (hn : 0 ≤ n) (he : 0 ≤ e)
    (hown : p.owner (o + e) = p.rank) :
    (p.dist.subBuild o n).local_element_from_global_element e =
      p.dist.local_element_from_global_element (o + e) -
        countBelow o.toNat (fun e => decide (p.owner e = p.rank)) := by
  rw [hp.subBuild_eq ho hn]
  have hv := hp.sub ho hn
  have w := hp.wf
  have w' := hv.wf
  have hoE : (p.sub o n).owner e = p.owner (o + e) := by
    show ((p.offset + o + e) / p.block + p.src) % p.grid = ((p.offset + (o + e)) / p.block + p.src) % p.grid
    rw [Int.add_assoc]
  have own1 : p.dist.rank = util.rank_global_tile (o + e) p.dist.blockSize p.dist.grid p.dist.src
      p.dist.offset := by rw [← w.rank_elem (by omega), hp.owner_eq (by omega), hown]; rfl
  have own2 : (p.sub o n).dist.rank = util.rank_global_tile e (p.sub o n).dist.blockSize
      (p.sub o n).dist.grid (p.sub o n).dist.src (p.sub o n).dist.offset := by
    rw [← w'.rank_elem he, hv.owner_eq he, hoE, hown]; rfl
  rw [w'.local_elem he, w.local_elem (by omega), w'.cycE.local_eq_next he own2,
    w.cycE.local_eq_next (by omega) own1]
  have c1 : ∀ m : Nat, util.next_local_tile_from_global_tile m p.dist.blockSize p.dist.grid p.dist.rank
      p.dist.src p.dist.offset = countBelow m (fun e => decide (p.owner e = p.rank)) := by
    intro m
    rw [w.cycE.next_local_count]
    congr 1; apply countBelow_congr; intro i _
    rw [← w.rank_elem (by omega), hp.owner_eq (by omega)]; rfl
  have c2 : ∀ m : Nat, util.next_local_tile_from_global_tile m (p.sub o n).dist.blockSize
      (p.sub o n).dist.grid (p.sub o n).dist.rank
      (p.sub o n).dist.src (p.sub o n).dist.offset =
      countBelow m (fun e => decide (p.owner (o + e) = p.rank)) := by
    intro m
    rw [w'.cycE.next_local_count]
    congr 1; apply countBelow_congr; intro i _
    rw [← w'.rank_elem (by omega), hv.owner_eq (by omega)]
    show decide (((p.offset + o + i) / p.block + p.src) % p.grid = p.rank) =
      decide (((p.offset + (o + i)) / p.block + p.src) % p.grid = p.rank)
    rw [Int.add_assoc]
  obtain ⟨o, rfl⟩ : ∃ m : Nat, o = m := ⟨o.toNat, by omega⟩
  obtain ⟨e, rfl⟩ : ∃ m : Nat, e = m := ⟨e.toNat, by omega⟩
  rw [c2, show (o : Int) + (e : Int) = ((o + e : Nat) : Int) by push_cast; rfl, c1]
  have : countBelow (o + e) (fun e => decide (p.owner e = p.rank)) =
      countBelow o (fun e => decide (p.owner e = p.rank)) +
      countBelow e (fun e => decide (p.owner (o + e) = p.rank)) := by
    clear hown hoE own1 own2 he
    induction e with
    | zero => simp [countBelow_zero]
    | succ e ih =>
      rw [← Nat.add_assoc, countBelow_succ, countBelow_succ, ih]
      push_cast
      omega
  rw [this]
  push_cast
  simp

/-- A sub-distribution of a sub-distribution is the sub-distribution at the summed origin. -/
theorem C07_sub_sub (hp : p.Valid) {o n o' n' : Int} (ho : 0 ≤ o) (hn : 0 ≤ n) (ho' : 0 ≤ o')
    (hn' : 0 ≤ n') :
    (p.dist.subBuild o n).subBuild o' n' = p.dist.subBuild (o + o') n' := by
  rw [hp.subBuild_eq ho hn, (hp.sub ho hn).subBuild_eq ho' hn', hp.subBuild_eq (by omega) hn']
  simp only [Params.sub, Int.add_assoc]

/-- The 2D constructor accepts exactly the sub-matrices inside the parent. -/
theorem C07_sub_accepts {pr pc : Params} {o n : Coord2} :
    (Distribution.sub ⟨pr.dist, pc.dist⟩ o n).isSome ↔
      (0 ≤ o.row ∧ 0 ≤ n.row ∧ o.row + n.row ≤ pr.size) ∧
      (0 ≤ o.col ∧ 0 ≤ n.col ∧ o.col + n.col ≤ pc.size) := by
  have hr : pr.dist.size = pr.size := rfl
  have hc : pc.dist.size = pc.size := rfl
  unfold Distribution.sub Dist1.subAccepts
  rw [hr, hc]
  split <;> rename_i h <;> simp at h ⊢
  · obtain ⟨⟨⟨a, b⟩, c⟩, ⟨d, e⟩, f⟩ := h
    exact ⟨⟨a, b, c⟩, d, e, f⟩
  · intro a b c d e
    exact h a b c d e

/-- Tile helper for sub-matrices: `global_tile_index_from_sub_distribution`. -/
theorem C07_tile_from_sub (hp : p.Valid) {o n e : Int} (ho : 0 ≤ o) (hn : 0 ≤ n) (he : 0 ≤ e) :
    p.dist.global_tile_from_sub_distribution o
      ((p.dist.subBuild o n).global_tile_from_global_element e) =
      p.dist.global_tile_from_global_element (o + e) ∧
    p.dist.tile_element_offset_from_sub_distribution o
      ((p.dist.subBuild o n).global_tile_from_global_element e) +
      (p.dist.subBuild o n).tile_element_from_global_element e =
      p.dist.tile_element_from_global_element (o + e) := by
  obtain ⟨_, h2, h3⟩ := C07_sub_element hp ho hn he
  unfold Dist1.global_tile_from_sub_distribution Dist1.tile_element_offset_from_sub_distribution
  rw [h2, h3]
  exact ⟨rfl, Int.add_comm _ _⟩

example : ∃ p : Params, p.Valid ∧ p.owner (6 + 8) = p.rank ∧
    (p.dist.subBuild 6 10).local_element_from_global_element 8 = 4 ∧
    p.dist.local_element_from_global_element 14 = 6 := ⟨⟨20, 4, 2, 2, 1, 1, 3⟩, by decide⟩

/-! ### C39 -/

/-- In Debug builds, with a non-negative element offset, the constructor accepts exactly the
documented parameters. -/
theorem C39_accepts_iff_valid_partial (size block tile grid rank src offset : Int) (h : 0 ≤ offset) :
    Dist1.accepts true size block tile grid rank src offset = true ↔
      (Params.mk size block tile grid rank src offset).Valid := by
  simp only [Dist1.accepts, Bool.and_eq_true, decide_eq_true_eq, Bool.or_eq_true, ne_eq,
    Params.Valid, Bool.not_true, Bool.false_eq_true, false_or]
  constructor
  · rintro ⟨⟨⟨⟨⟨⟨⟨⟨h1, h2⟩, h3⟩, h4⟩, ⟨h5, h6⟩, h7⟩, h8⟩, h9, h10⟩, h11, h12⟩, h13⟩
    have hd : block % tile = 0 := by
      unfold cmod at h8; rwa [Int.tmod_eq_emod_of_nonneg h5] at h8
    exact ⟨h1, by omega, by omega, hd, by omega, ⟨h9, h10⟩, ⟨h11, h12⟩, h⟩
  · rintro ⟨h1, h2, h3, h4, h5, ⟨h6, h7⟩, ⟨h8, h9⟩, h10⟩
    have hd : cmod block tile = 0 := by
      unfold cmod; rw [Int.tmod_eq_emod_of_nonneg (by omega)]; exact h4
    exact ⟨⟨⟨⟨⟨⟨⟨⟨h1, by omega⟩, by omega⟩, by omega⟩, ⟨by omega, by omega⟩, by omega⟩, hd⟩, h6, h7⟩,
      h8, h9⟩, Int.tmod_lt_of_pos _ h2⟩

/-- In Release builds the only additional parameters accepted have a negative tile size. -/
theorem C39_release_accepts_partial (size block tile grid rank src offset : Int) (h : 0 ≤ offset)
    (ht : 0 ≤ tile) :
    Dist1.accepts false size block tile grid rank src offset = true ↔
      (Params.mk size block tile grid rank src offset).Valid := by
  rw [← C39_accepts_iff_valid_partial _ _ _ _ _ _ _ h]
  simp only [Dist1.accepts, Bool.and_eq_true, decide_eq_true_eq, Bool.or_eq_true, ne_eq,
    Bool.not_true, Bool.not_false, Bool.false_eq_true, false_or, true_or, and_true]
  constructor
  · rintro ⟨⟨⟨⟨⟨⟨⟨h1, h2⟩, h3⟩, h4⟩, h8⟩, h9, h10⟩, h11, h12⟩, h13⟩
    have hb : 0 ≤ block := by
      by_contra hc
      have := Int.tmod_nonneg block h
      unfold cmod at h13
      omega
    exact ⟨⟨⟨⟨⟨⟨⟨⟨h1, h2⟩, h3⟩, h4⟩, ⟨hb, ht⟩, by omega⟩, h8⟩, h9, h10⟩, h11, h12⟩, h13⟩
  · rintro ⟨⟨⟨⟨⟨⟨⟨⟨h1, h2⟩, h3⟩, h4⟩, _⟩, h8⟩, h9, h10⟩, h11, h12⟩, h13⟩
    exact ⟨⟨⟨⟨⟨⟨⟨h1, h2⟩, h3⟩, h4⟩, h8⟩, h9, h10⟩, h11, h12⟩, h13⟩

/-- After construction the offset lies in the first block and the source rank in the grid. -/
theorem C39_normalised (hp : p.Valid) :
    (0 ≤ p.dist.offset ∧ p.dist.offset < p.block) ∧ (0 ≤ p.dist.src ∧ p.dist.src < p.grid) :=
  ⟨⟨hp.wf.offset_nonneg, hp.wf.offset_lt⟩, ⟨hp.wf.src_nonneg, hp.wf.src_lt⟩⟩

/-- Finding: a negative element offset is accepted, even in Debug builds, and leaves a negative
offset and a source rank outside the grid. -/
theorem C39_negative_offset_accepted :
    Dist1.accepts true 10 4 2 3 0 0 (-7) = true ∧
    (Params.mk 10 4 2 3 0 0 (-7)).dist.offset = -3 ∧ (Params.mk 10 4 2 3 0 0 (-7)).dist.src = -1 := by
  decide

/-- Finding: in Release builds a negative tile size is accepted. -/
theorem C39_release_negative_tile_accepted :
    Dist1.accepts false 10 4 (-2) 3 0 0 0 = true ∧ Dist1.accepts true 10 4 (-2) 3 0 0 0 = false := by
  decide

example : (Params.mk 10 4 2 3 0 1 7).Valid ∧ Dist1.accepts true 10 4 2 3 0 1 7 = true ∧
    Dist1.accepts true 10 4 3 3 0 1 7 = false ∧ Dist1.accepts true 10 4 2 3 3 1 7 = false := by decide

/-! ### C40 -/

/-- Every helper that takes an explicit rank answers what that rank's own distribution answers. -/
theorem C40_on_rank_helpers (p : Params) (r i : Int) :
    p.dist.rank_global_tile i = (p.onRank r).dist.rank_global_tile i ∧
    p.dist.rank_global_element i = (p.onRank r).dist.rank_global_element i ∧
    p.dist.local_tile_offset_on_rank r = (p.onRank r).dist.local_tile_offset ∧
    p.dist.local_tile_element_offset_on_rank r = (p.onRank r).dist.local_tile_element_offset ∧
    p.dist.local_tile_from_local_element_on_rank r i = (p.onRank r).dist.local_tile_from_local_element i ∧
    p.dist.tile_element_from_local_element_on_rank r i =
      (p.onRank r).dist.tile_element_from_local_element i ∧
    p.dist.global_tile_from_local_tile_on_rank r i = (p.onRank r).dist.global_tile_from_local_tile i ∧
    p.dist.global_element_from_local_element_on_rank r i =
      (p.onRank r).dist.global_element_from_local_element i :=
  ⟨rfl, rfl, rfl, rfl, rfl, rfl, rfl, rfl⟩

/-- `local_tile_from_global_tile_any_rank` gives the index the owner uses; so it is a valid local
index there. -/
theorem C40_any_rank (hp : p.Valid) {t : Int} (ht : 0 ≤ t) (htN : t < p.dist.nrTiles) :
    p.dist.local_tile_from_global_tile_any_rank t =
      (p.onRank (p.dist.rank_global_tile t)).dist.local_tile_from_global_tile t ∧
    0 ≤ p.dist.local_tile_from_global_tile_any_rank t ∧
    p.dist.local_tile_from_global_tile_any_rank t <
      (p.onRank (p.dist.rank_global_tile t)).dist.localNrTiles ∧
    (p.onRank (p.dist.rank_global_tile t)).dist.global_tile_from_local_tile
      (p.dist.local_tile_from_global_tile_any_rank t) = t := by
  have hr := hp.wf.cyc.rank_range ht
  have hv := hp.onRank (r := p.dist.rank_global_tile t) hr.1 hr.2
  have w := hv.wf
  refine ⟨rfl, (w.cyc.local_nonneg_iff ht).2 rfl, ?_, w.cyc.local_global ht rfl⟩
  rw [w.localNrTiles_eq]; exact w.cyc.local_lt ht htN rfl

example : (Params.mk 10 4 2 3 0 1 7).Valid ∧
    (Params.mk 10 4 2 3 0 1 7).dist.local_tile_from_global_tile_any_rank 3 = 0 ∧
    (Params.mk 10 4 2 3 0 1 7).dist.local_tile_from_global_tile 3 = -1 := by decide

/-- Element distance between two tiles = total size of the tiles between them (`i_begin` inside the
matrix). -/
theorem C40_global_tile_distance_partial (hp : p.Valid) {a b : Nat} (hab : a ≤ b)
    (ha : (a : Int) < p.dist.nrTiles) (hb : (b : Int) ≤ p.dist.nrTiles) :
    p.dist.global_tile_element_distance a b =
      sumBelow b p.dist.global_tile_size_of - sumBelow a p.dist.global_tile_size_of := by
  have w := hp.wf
  have hN := w.nrTiles_pos (w.size_pos_of (by omega))
  have P : ∀ k : Nat, (k : Int) ≤ p.dist.nrTiles → sumBelow k p.dist.global_tile_size_of = _ :=
    fun k hk => tsz_prefix w.gteo_nonneg w.gteo_lt hN.2.1 hN.2.2 k hk
  rw [P b hb, P a (by omega)]
  simp only [Dist1.global_tile_element_distance, Dist1.global_element_from_global_tile_and_tile_element,
    util.element_from_tile_and_tile_element]
  rw [if_neg (show ¬ (a : Int) = p.dist.nrTiles by omega)]
  by_cases h1 : (b : Int) = p.dist.nrTiles
  · rw [if_pos h1, if_neg (show ¬ b = 0 by omega), if_pos h1]
    by_cases ha0 : a = 0
    · subst ha0; simp
    · rw [if_neg ha0, if_pos (by omega)]; omega
  · rw [if_neg h1, if_neg h1]
    by_cases ha0 : a = 0
    · subst ha0
      by_cases hb0 : b = 0
      · subst hb0; simp
      · rw [if_neg hb0, if_pos (show (b : Int) > 0 by omega)]; simp
    · rw [if_neg ha0, if_neg (show ¬ b = 0 by omega), if_pos (show (a : Int) > 0 by omega),
        if_pos (show (b : Int) > 0 by omega)]
      omega

/-- Finding: for the empty range at the end of the matrix the distance is not 0. -/
theorem C40_global_tile_distance_end :
    (Params.mk 5 2 2 1 0 0 0).dist.nrTiles = 3 ∧
    (Params.mk 5 2 2 1 0 0 0).dist.global_tile_element_distance 3 3 = -1 := by decide

/-- Local element distance between two local tiles = total size of the local tiles between. -/
theorem C40_local_tile_distance (hp : p.Valid) {a b : Nat}
    (hab : a ≤ b) (hb : (b : Int) ≤ p.dist.localNrTiles) :
    p.dist.local_element_distance_from_local_tile a b =
      sumBelow b p.dist.local_tile_size_of - sumBelow a p.dist.local_tile_size_of := by
  have w := hp.wf
  simp only [Dist1.local_element_distance_from_local_tile]
  by_cases h : a = b
  · subst h; rw [if_pos (by omega)]; omega
  · rw [if_neg (by omega)]
    have hN := w.localSize_bounds (by omega)
    have P : ∀ k : Nat, (k : Int) ≤ p.dist.localNrTiles → sumBelow k p.dist.local_tile_size_of = _ :=
      fun k hk => tsz_prefix w.lteo_range.1 w.lteo_range.2 hN.2.1 hN.2.2 k hk
    obtain ⟨b, rfl⟩ : ∃ c, b = c + 1 := ⟨b - 1, by omega⟩
    rw [sumBelow_succ, P b (by push_cast at hb; omega), P a (by push_cast at hb; omega)]
    have e1 : ((b + 1 : Nat) : Int) - 1 = b := by push_cast; omega
    rw [e1, ← w.local_tsz_eq (by omega) (by push_cast at hb; omega)]
    simp only [Dist1.local_element_from_local_tile_and_tile_element,
      util.element_from_tile_and_tile_element]
    push_cast at hb
    rw [if_neg (show ¬ (b : Int) = p.dist.localNrTiles by omega),
      if_neg (show ¬ (a : Int) = p.dist.localNrTiles by omega)]
    by_cases ha0 : a = 0
    · subst ha0
      by_cases hb0 : b = 0
      · subst hb0; simp
      · rw [if_neg hb0, if_pos (show (b : Int) > 0 by omega)]; simp; omega
    · rw [if_neg ha0, if_neg (show ¬ b = 0 by omega), if_pos (show (a : Int) > 0 by omega),
        if_pos (show (b : Int) > 0 by omega)]
      omega

/-- Distance from an element to the next tile. -/
theorem C40_distance_to_adjacent_tile (hp : p.Valid) {e : Int} (he : 0 ≤ e) (hes : e < p.size) :
    0 < p.dist.distance_to_adjacent_tile e ∧
    ∀ k, 0 ≤ k → e + k < p.size →
      (p.tileOf (e + k) = p.tileOf e ↔ k < p.dist.distance_to_adjacent_tile e) := by
  obtain ⟨h1, h2, h3, h4, h5⟩ := C03_global_split hp he hes
  unfold Dist1.distance_to_adjacent_tile
  refine ⟨by omega, ?_⟩
  intro k hk hks
  obtain ⟨k1, k2, k3, k4, k5⟩ := C03_global_split hp (e := e + k) (by omega) hks
  rw [← hp.tileOf_eq he, ← hp.tileOf_eq (by omega)]
  constructor
  · intro h
    rw [h] at k1 k5
    have : p.dist.tile_element_from_global_element (e + k)
        = p.dist.tile_element_from_global_element e + k := by
      simp only [Dist1.global_element_from_global_tile_and_tile_element,
        util.element_from_tile_and_tile_element] at h1 k1
      omega
    omega
  · intro h
    obtain ⟨e', ⟨a1, a2, a3, a4⟩, a5, _⟩ := C03_global_combine hp h2 h3
      (te := p.dist.tile_element_from_global_element e + k) (by omega) (by omega)
    have : e' = e + k := by
      simp only [Dist1.global_element_from_global_tile_and_tile_element,
        util.element_from_tile_and_tile_element] at h1 a5
      omega
    rw [← this]; exact a3

example : (Params.mk 13 4 2 3 1 1 3).Valid ∧ (Params.mk 13 4 2 3 1 1 3).dist.localNrTiles = 3 ∧
    (Params.mk 13 4 2 3 1 1 3).dist.local_element_distance_from_local_tile 1 3 = 4 ∧
    (Params.mk 13 4 2 3 1 1 3).dist.global_tile_element_distance 0 3 = 5 ∧
    (Params.mk 13 4 2 3 1 1 3).dist.distance_to_adjacent_tile 2 = 1 := by decide

end DLAF
