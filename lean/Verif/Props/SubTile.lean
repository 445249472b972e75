import Verif.Props.Layout
/- C13: sub-tiles. -/
namespace DLAF

/-- Specification: element (a, b) of the parent tile lies in the rectangle of the spec. -/
def SubTileSpec.Has (s : SubTileSpec) (a b : Int) : Prop :=
  (s.origin.row ≤ a ∧ a < s.origin.row + s.size.row) ∧
  (s.origin.col ≤ b ∧ b < s.origin.col + s.size.col)

instance (s : SubTileSpec) (a b : Int) : Decidable (s.Has a b) := by
  unfold SubTileSpec.Has; infer_instance

/-- Specification: the rectangle lies inside a tile of the given size. -/
def SubTileSpec.Inside (s : SubTileSpec) (rows cols : Int) : Prop :=
  (0 ≤ s.origin.row ∧ 0 ≤ s.size.row ∧ s.origin.row + s.size.row ≤ rows) ∧
  (0 ≤ s.origin.col ∧ 0 ≤ s.size.col ∧ s.origin.col + s.size.col ≤ cols)

instance (s : SubTileSpec) (r c : Int) : Decidable (s.Inside r c) := by
  unfold SubTileSpec.Inside; infer_instance

/-- A tile produced by the constructor. -/
def Tile.Valid (t : Tile) : Prop := Tile.create t.rows t.cols t.view t.ld = some t

instance (t : Tile) : Decidable t.Valid := by unfold Tile.Valid; infer_instance

theorem Tile.Valid.facts {t : Tile} (h : t.Valid) : 0 ≤ t.rows ∧ 0 ≤ t.cols ∧ 1 ≤ t.ld ∧ t.rows ≤ t.ld ∧
    ((t.rows = 0 ∨ t.cols = 0) ∨ t.rows + t.ld * (t.cols - 1) ≤ t.view.size) := by
  unfold Tile.Valid Tile.create at h
  split at h
  · rename_i hc
    obtain ⟨h1, h2, h3⟩ := hc
    refine ⟨by omega, by omega, by omega, by omega, ?_⟩
    rcases h3 with h3 | h3
    · exact Or.inl h3
    · by_cases h4 : t.rows = 0 ∨ t.cols = 0
      · exact Or.inl h4
      · unfold Tile.linearSize at h3
        rw [if_neg h4] at h3
        exact Or.inr h3
  · simp at h

/-- C13: taking a sub-tile succeeds for every rectangle inside the tile, and only for these. -/
theorem C13_subtile_accepts {t : Tile} (ht : t.Valid) (hv : 0 ≤ t.view.size) (s : SubTileSpec) :
    (∃ u, t.subTile s = some u) ↔ s.Inside t.rows t.cols := by
  obtain ⟨h1, h2, h3, h4, h5⟩ := ht.facts
  constructor
  · rintro ⟨u, hu⟩
    unfold Tile.subTile at hu
    split at hu
    · rename_i hc
      unfold SubTileSpec.Inside
      omega
    · simp at hu
  · intro hs
    unfold SubTileSpec.Inside at hs
    unfold Tile.subTile
    rw [if_pos (by omega)]
    by_cases h0 : s.size.row = 0 ∨ s.size.col = 0
    · have hl : Tile.linearSize s.size.row s.size.col t.ld = 0 := by
        unfold Tile.linearSize; rw [if_pos h0]
      rw [if_pos h0, hl]
      unfold MemView.sub
      rw [if_pos (by omega), Option.bind_some]
      unfold Tile.create
      rw [if_pos]
      · exact ⟨_, rfl⟩
      · exact ⟨⟨by omega, by omega⟩, by omega, Or.inl h0⟩
    · have hl : Tile.linearSize s.size.row s.size.col t.ld =
          s.size.row + t.ld * (s.size.col - 1) := by
        unfold Tile.linearSize; rw [if_neg h0]
      rw [if_neg h0, hl]
      have hfit : t.linearIndex s.origin.row s.origin.col + (s.size.row + t.ld * (s.size.col - 1)) ≤
          t.view.size := by
        unfold Tile.linearIndex
        have := Int.mul_le_mul_of_nonneg_left (show s.origin.col + (s.size.col - 1) ≤ t.cols - 1 by omega)
          (show 0 ≤ t.ld by omega)
        have r : t.ld * (s.origin.col + (s.size.col - 1)) =
          t.ld * s.origin.col + t.ld * (s.size.col - 1) := by ring
        omega
      unfold MemView.sub
      rw [if_pos hfit, Option.bind_some]
      exact Tile.create_accept (by omega) (by omega) (by omega) (by simp)

/-- C13: a sub-tile has the requested size and addresses exactly the elements of its rectangle. -/
theorem C13_subtile_addresses {t u : Tile} (ht : t.Valid) {s : SubTileSpec} (hu : t.subTile s = some u) :
    u.rows = s.size.row ∧ u.cols = s.size.col ∧
    (∀ a b, s.Has a b → (0 ≤ a ∧ a < t.rows) ∧ (0 ≤ b ∧ b < t.cols)) ∧
    ∀ i j, 0 ≤ i → i < u.rows → 0 ≤ j → j < u.cols →
      s.Has (s.origin.row + i) (s.origin.col + j) ∧
      u.addr i j = t.addr (s.origin.row + i) (s.origin.col + j) := by
  obtain ⟨h1, h2, h3, h4, h5⟩ := ht.facts
  unfold Tile.subTile at hu
  split at hu
  swap
  · simp at hu
  rename_i hc
  simp only [Option.bind_eq_some_iff] at hu
  obtain ⟨v, hv, hu⟩ := hu
  have := Tile.create_eq hu
  subst this
  refine ⟨rfl, rfl, by unfold SubTileSpec.Has; omega, ?_⟩
  intro i j hi hi' hj hj'
  simp only at hi' hj'
  refine ⟨by unfold SubTileSpec.Has; omega, ?_⟩
  rw [if_neg (by omega)] at hv
  have hl : Tile.linearSize s.size.row s.size.col t.ld = s.size.row + t.ld * (s.size.col - 1) := by
    unfold Tile.linearSize; rw [if_neg (by omega)]
  rw [hl] at hv
  have hp := Int.mul_nonneg (show 0 ≤ t.ld by omega) (show 0 ≤ s.size.col - 1 by omega)
  have := MemView.sub_eq hv (by omega)
  simp only [Tile.addr, Tile.linearIndex, this.1, this.2]
  congr 1
  ring

/-- The overlap test is exact. -/
theorem C13_overlap_iff {s1 s2 : SubTileSpec} (h1 : 0 ≤ s1.size.row ∧ 0 ≤ s1.size.col)
    (h2 : 0 ≤ s2.size.row ∧ 0 ≤ s2.size.col) :
    subTileSpecsOverlap s1 s2 = true ↔ ∃ a b, s1.Has a b ∧ s2.Has a b := by
  unfold subTileSpecsOverlap SubTileSpec.Has
  constructor
  · intro h
    split_ifs at h with h3 h4 h5
    exact ⟨max s1.origin.row s2.origin.row, max s1.origin.col s2.origin.col, by omega⟩
  · rintro ⟨a, b, h3, h4⟩
    rw [if_neg (by omega), if_neg (by omega), if_neg (by omega)]

theorem specsDisjoint_iff (specs : List SubTileSpec) :
    specsDisjoint specs = true ↔ specs.Pairwise fun s1 s2 => subTileSpecsOverlap s2 s1 = false := by
  induction specs with
  | nil => simp [specsDisjoint]
  | cons s ss ih => simp [specsDisjoint, ih, List.pairwise_cons]

theorem splitTileDisjoint_eq {moderate : Bool} {t : Tile} {specs : List SubTileSpec} {us : List Tile}
    (h : splitTileDisjoint moderate t specs = some us) : mapOpt t.subTile specs = some us := by
  unfold splitTileDisjoint at h
  split at h
  · simp [mapOpt] at *; exact h
  · rename_i s
    cases hs : t.subTile s with
    | none => rw [hs] at h; simp at h
    | some u => rw [hs] at h; simp [mapOpt, hs] at *; exact h
  · split at h
    · simp at h
    · exact h

/-- C13: the returned sub-tiles are, in order, those of the specifications (all builds). -/
theorem C13_split_tiles {moderate : Bool} {t : Tile} {specs : List SubTileSpec}
    {us : List Tile} (h : splitTileDisjoint moderate t specs = some us) :
    us.length = specs.length ∧
    ∀ k : Nat, ∀ u, us[k]? = some u → ∃ s, specs[k]? = some s ∧ t.subTile s = some u := by
  have hm := splitTileDisjoint_eq h
  refine ⟨mapOpt_length hm, ?_⟩
  intro k u hu
  rw [mapOpt_getElem? hm k] at hu
  simpa [Option.bind_eq_some_iff] using hu

/-- C13, Debug builds (`DLAF_ASSERT_MODERATE` enabled): no element of the tile belongs to two of the
returned sub-tiles, hence no address either. -/
theorem C13_split_disjoint_partial {t : Tile} (ht : t.Valid) {specs : List SubTileSpec}
    {us : List Tile} (h : splitTileDisjoint true t specs = some us) {k l : Nat} (hkl : k < l)
    {u v : Tile} (hu : us[k]? = some u) (hv : us[l]? = some v) :
    ∀ i j i' j', 0 ≤ i → i < u.rows → 0 ≤ j → j < u.cols → 0 ≤ i' → i' < v.rows → 0 ≤ j' → j' < v.cols →
      u.addr i j ≠ v.addr i' j' := by
  obtain ⟨hlen, htl⟩ := C13_split_tiles h
  obtain ⟨s, hs, hsu⟩ := htl k u hu
  obtain ⟨s', hs', hsv⟩ := htl l v hv
  -- the specs do not overlap
  have hno : ¬ ∃ a b, s'.Has a b ∧ s.Has a b := by
    have hin : s.Inside t.rows t.cols ∧ s'.Inside t.rows t.cols := by
      constructor
      · unfold Tile.subTile at hsu
        split at hsu
        · unfold SubTileSpec.Inside; omega
        · simp at hsu
      · unfold Tile.subTile at hsv
        split at hsv
        · unfold SubTileSpec.Inside; omega
        · simp at hsv
    have hi1 := hin.1
    have hi2 := hin.2
    unfold SubTileSpec.Inside at hi1 hi2
    rw [← C13_overlap_iff (by omega) (by omega)]
    have hd : specsDisjoint specs = true := by
      unfold splitTileDisjoint at h
      split at h
      · simp at hs
      · have h1 : k = 0 := by
          have := (List.getElem?_eq_some_iff.1 hs).1; simpa using this
        have h2 : l = 0 := by
          have := (List.getElem?_eq_some_iff.1 hs').1; simpa using this
        omega
      · by_contra hc
        simp only [Bool.not_eq_true] at hc
        rw [hc] at h
        simp at h
    rw [specsDisjoint_iff, List.pairwise_iff_getElem] at hd
    have hk := List.getElem?_eq_some_iff.1 hs
    have hl := List.getElem?_eq_some_iff.1 hs'
    have := hd k l hk.1 hl.1 hkl
    rw [hk.2, hl.2] at this
    simp [this]
  intro i j i' j' a1 a2 a3 a4 b1 b2 b3 b4 he
  obtain ⟨_, _, c3, c4⟩ := C13_subtile_addresses ht hsu
  obtain ⟨_, _, d3, d4⟩ := C13_subtile_addresses ht hsv
  obtain ⟨c5, c6⟩ := c4 i j a1 a2 a3 a4
  obtain ⟨d5, d6⟩ := d4 i' j' b1 b2 b3 b4
  rw [c6, d6] at he
  obtain ⟨h1, h2, h3, h4, h5⟩ := ht.facts
  have e1 := c3 _ _ c5
  have e2 := d3 _ _ d5
  simp only [Tile.addr, Tile.linearIndex, Prod.mk.injEq, true_and] at he
  obtain ⟨f1, f2⟩ := lin_inj (ld := t.ld) (x := s.origin.row + i) (y := s.origin.col + j)
    (x' := s'.origin.row + i') (y' := s'.origin.col + j') (by omega) (by omega) (by omega) (by omega)
    (by omega)
  rw [f1, f2] at c5
  exact hno ⟨_, _, d5, c5⟩

/-- C13, Debug builds: two non-empty specifications that share an element are rejected. -/
theorem C13_overlap_rejected_partial {t : Tile} {specs : List SubTileSpec} {k l : Nat} (hkl : k < l)
    {s s' : SubTileSpec} (hs : specs[k]? = some s) (hs' : specs[l]? = some s')
    {a b : Int} (h1 : s.Has a b) (h2 : s'.Has a b) : splitTileDisjoint true t specs = none := by
  have hd : specsDisjoint specs = false := by
    by_contra hc
    simp only [Bool.not_eq_false] at hc
    rw [specsDisjoint_iff, List.pairwise_iff_getElem] at hc
    have hk := List.getElem?_eq_some_iff.1 hs
    have hl := List.getElem?_eq_some_iff.1 hs'
    have := hc k l hk.1 hl.1 hkl
    rw [hk.2, hl.2] at this
    unfold SubTileSpec.Has at h1 h2
    have h3 : subTileSpecsOverlap s' s = true :=
      (C13_overlap_iff (by omega) (by omega)).2 ⟨a, b, h2, h1⟩
    rw [h3] at this
    simp at this
  unfold splitTileDisjoint
  split
  · simp at hs
  · have h1 : k = 0 := by have := (List.getElem?_eq_some_iff.1 hs).1; simpa using this
    have h2 : l = 0 := by have := (List.getElem?_eq_some_iff.1 hs').1; simpa using this
    omega
  · rw [hd]; simp

/-- C13 fails in Release builds: two overlapping specifications are accepted and the two read-write
sub-tiles share an address. -/
theorem C13_release_accepts_overlap :
    ∃ (t : Tile) (specs : List SubTileSpec) (u v : Tile), t.Valid ∧
      splitTileDisjoint false t specs = some [u, v] ∧ u.addr 1 1 = v.addr 0 0 :=
  ⟨⟨4, 4, ⟨.whole, 0, 16⟩, 4⟩, [⟨⟨0, 0⟩, ⟨2, 2⟩⟩, ⟨⟨1, 1⟩, ⟨2, 2⟩⟩],
    ⟨2, 2, ⟨.whole, 0, 6⟩, 4⟩, ⟨2, 2, ⟨.whole, 5, 6⟩, 4⟩, by decide⟩

example : ∃ (t : Tile) (specs : List SubTileSpec), t.Valid ∧
    (splitTileDisjoint true t specs).isSome ∧ specs.length = 3 :=
  ⟨⟨4, 5, ⟨.whole, 3, 30⟩, 6⟩, [⟨⟨0, 0⟩, ⟨2, 5⟩⟩, ⟨⟨2, 1⟩, ⟨2, 3⟩⟩, ⟨⟨2, 4⟩, ⟨1, 1⟩⟩], by decide⟩

example : ∃ (t : Tile) (s s' : SubTileSpec), t.Valid ∧ s.Has 1 1 ∧ s'.Has 1 1 ∧
    s.Inside t.rows t.cols ∧ s'.Inside t.rows t.cols ∧ splitTileDisjoint true t [s, s'] = none :=
  ⟨⟨4, 4, ⟨.whole, 0, 16⟩, 4⟩, ⟨⟨0, 0⟩, ⟨2, 2⟩⟩, ⟨⟨1, 1⟩, ⟨2, 2⟩⟩, by decide⟩

end DLAF
