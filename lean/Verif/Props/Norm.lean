import Verif.Lemmas.Norm
import Mathlib.Algebra.Order.Group.Int
import Mathlib.Algebra.Order.Group.Unbundled.Int
/- C38: the max norm of a distributed matrix. -/
namespace DLAF
variable {K N : Type} [LinearOrder N] [Zero N]

/-- The contribution of a process in the general case. -/
theorem localMaxGeneral_spec (absv : K → N) (d : Distribution) (tile : Coord2 → Blk K) :
    ∃ v, localMaxGeneral absv d tile = some v ∧
      IsMax0 (fun x => ∃ c ∈ localTiles d, ∃ a b : Nat, a < (tile ⟨c.1, c.2⟩).rows ∧ b < (tile ⟨c.1, c.2⟩).cols ∧
        x = absv ((tile ⟨c.1, c.2⟩).e a b)) v := by
  obtain ⟨v, h1, h2⟩ := localMax_spec (l := (localTiles d).map fun c => langeMax absv (tile ⟨c.1, c.2⟩))
    (by intro x hx; obtain ⟨c, _, rfl⟩ := List.mem_map.1 hx; exact (langeMax_spec absv _).2.1)
  exact ⟨v, h1, IsMax0.union (fun c _ => langeMax_spec absv _) h2⟩

/-- `max_norm` of a general matrix returns on the requested process the largest absolute value of the elements of the
matrix, wherever they are stored, and 0 for an empty matrix. -/
theorem C38_max_general (absv : K → N) (h0 : ∀ x, 0 ≤ absv x) {P : Params2} (hP : P.Valid)
    (hb : P.row.block = P.row.tile ∧ P.col.block = P.col.tile) {root : Coord2} (hroot : root ∈ P.ranks)
    {A : Int → Int → K} {tile : Coord2 → Coord2 → Blk K} (hA : StoresElems P A tile) :
    ∃ f, maxNorm absv P .General root tile = some f ∧
      (∀ i j, (0 ≤ i ∧ i < P.row.size) → (0 ≤ j ∧ j < P.col.size) → absv (A i j) ≤ f root) ∧
      (0 < P.row.size ∧ 0 < P.col.size →
        ∃ i j, (0 ≤ i ∧ i < P.row.size) ∧ (0 ≤ j ∧ j < P.col.size) ∧ f root = absv (A i j)) ∧
      (P.row.size = 0 ∨ P.col.size = 0 → ∀ r, f r = 0) := by
  unfold maxNorm
  rw [if_neg (by simpa using hb)]
  by_cases he : P.row.size = 0 ∨ P.col.size = 0
  · rw [if_pos he]
    exact ⟨_, rfl, by intros; omega, by intros; omega, by intros; rfl⟩
  · rw [if_neg he]
    obtain ⟨f, h1, h2, _⟩ := reduceMax_spec hroot fun r _ => localMaxGeneral_spec absv (P.on r) (tile r)
    have key := h2.congr fun x => (hA.elems hP fun _ _ y => x = absv y).symm
    refine ⟨f, h1, fun i j hi hj => key.2.2 _ ⟨i, j, hi, hj, rfl⟩, fun hs => ?_, fun h => absurd h he⟩
    rcases key.1 with hz | hz
    · refine ⟨0, 0, ⟨le_refl _, hs.1⟩, ⟨le_refl _, hs.2⟩, le_antisymm ?_ ?_⟩
      · rw [hz]; exact h0 _
      · exact key.2.2 _ ⟨0, 0, ⟨le_refl _, hs.1⟩, ⟨le_refl _, hs.2⟩, rfl⟩
    · obtain ⟨i, j, hi, hj, e⟩ := hz
      exact ⟨i, j, hi, hj, e⟩

/-- Tiles of the rows and of the columns coincide. -/
theorem tsz_congr {p q : Params} (hp : p.Valid) (hq : q.Valid) (hs : p.size = q.size) (ht : p.tile = q.tile)
    (ho : p.offset = q.offset) (t : Int) : p.dist.global_tile_size_of t = q.dist.global_tile_size_of t := by
  unfold Dist1.global_tile_size_of
  rw [hp.gteo_eq, hq.gteo_eq]
  rw [show p.dist.size = q.dist.size from hs, show p.dist.tileSize = q.dist.tileSize from ht, ht, ho]

theorem tileBegin_congr {p q : Params} (ht : p.tile = q.tile) (ho : p.offset = q.offset) (t : Int) :
    p.tileBegin t = q.tileBegin t := by
  unfold Params.tileBegin; rw [ht, ho]

theorem tileOf_mono {p q : Params} (hp : p.Valid) (ht : p.tile = q.tile) (ho : p.offset = q.offset) {i j : Int} (h : j ≤ i) :
    q.tileOf j ≤ p.tileOf i := by
  unfold Params.tileOf
  rw [← ht, ← ho]
  have := Int.ediv_le_ediv hp.2.2.1 (show p.offset + j ≤ p.offset + i by omega)
  omega

/-- The contribution of a process for the lower triangle. -/
theorem localMaxLower_spec (absv : K → N) {P : Params2} (hP : P.Valid) (hs : P.row.size = P.col.size)
    (ht : P.row.tile = P.col.tile) (ho : P.row.offset = P.col.offset) {A : Int → Int → K} {tile : Coord2 → Coord2 → Blk K}
    (hA : StoresElems P A tile) {r : Coord2} (hr : r ∈ P.ranks) :
    ∃ v, localMaxLower absv (P.on r) (tile r) = some v ∧
      IsMax0 (fun x => ∃ c ∈ localTiles (P.on r), ∃ a b : Nat, a < (tile r ⟨c.1, c.2⟩).rows ∧ b < (tile r ⟨c.1, c.2⟩).cols ∧
        P.col.tileBegin ((P.on r).col.global_tile_from_local_tile c.2) + b ≤
          P.row.tileBegin ((P.on r).row.global_tile_from_local_tile c.1) + a ∧
        x = absv ((tile r ⟨c.1, c.2⟩).e a b)) v := by
  obtain ⟨⟨r0, r1⟩, s0, s1⟩ := Params2.mem_ranks_iff.1 hr
  -- the contribution of one tile
  have htile : ∀ c ∈ localTiles (P.on r), ∃ v, tileMaxLower absv (P.on r) (tile r) c = some v ∧
      IsMax0 (fun x => ∃ a b : Nat, a < (tile r ⟨c.1, c.2⟩).rows ∧ b < (tile r ⟨c.1, c.2⟩).cols ∧
        P.col.tileBegin ((P.on r).col.global_tile_from_local_tile c.2) + b ≤
          P.row.tileBegin ((P.on r).row.global_tile_from_local_tile c.1) + a ∧
        x = absv ((tile r ⟨c.1, c.2⟩).e a b)) (v.getD 0) := by
    intro c hc
    obtain ⟨c1, c2⟩ := mem_localTiles'.1 hc
    obtain ⟨h1, h2, h3⟩ := hA r hr c.1 c.2 c1 c2
    -- positions of the elements
    have hu : ∀ a : Nat, a < (tile r ⟨c.1, c.2⟩).rows →
        P.row.tileOf (P.row.tileBegin ((P.on r).row.global_tile_from_local_tile c.1) + a) =
          (P.on r).row.global_tile_from_local_tile c.1 := fun a ha =>
      (hP.1.local_elem_range r0 r1 (lt := c.1) (a := a) c1
        (by have : _ = P.row.dist.global_tile_size_of ((P.row.onRank r.row).dist.global_tile_from_local_tile c.1) := h1
            omega)).2
    have hv : ∀ b : Nat, b < (tile r ⟨c.1, c.2⟩).cols →
        P.col.tileOf (P.col.tileBegin ((P.on r).col.global_tile_from_local_tile c.2) + b) =
          (P.on r).col.global_tile_from_local_tile c.2 := fun b hb =>
      (hP.2.local_elem_range s0 s1 (lt := c.2) (a := b) c2
        (by have : _ = P.col.dist.global_tile_size_of ((P.col.onRank r.col).dist.global_tile_from_local_tile c.2) := h2
            omega)).2
    unfold tileMaxLower
    dsimp only
    generalize (P.on r).row.global_tile_from_local_tile c.1 = ti at *
    generalize (P.on r).col.global_tile_from_local_tile c.2 = tj at *
    by_cases k1 : ti < tj
    · rw [if_pos k1]
      refine ⟨none, rfl, .inl rfl, le_refl _, ?_⟩
      rintro x ⟨a, b, ha, hb, hab, _⟩
      have := tileOf_mono hP.1 ht ho hab
      rw [hu a ha, hv b hb] at this
      omega
    · rw [if_neg k1]
      by_cases k2 : ti = tj
      · rw [if_pos k2]
        subst k2
        obtain ⟨v, e1, e2⟩ := lantrMaxLower_spec absv (tile r ⟨c.1, c.2⟩)
          (by rw [tsz_congr hP.1 hP.2 hs ht ho] at h1; omega)
        refine ⟨some v, by rw [e1]; rfl, e2.congr fun x => ?_⟩
        rw [tileBegin_congr ht ho]
        constructor
        · rintro ⟨i, j, hi, hj, hij, rfl⟩; exact ⟨i, j, hi, hj, by omega, rfl⟩
        · rintro ⟨i, j, hi, hj, hij, rfl⟩; exact ⟨i, j, hi, hj, by omega, rfl⟩
      · rw [if_neg k2]
        refine ⟨some (langeMax absv (tile r ⟨c.1, c.2⟩)), rfl, (langeMax_spec absv _).congr fun x => ?_⟩
        constructor
        · rintro ⟨i, j, hi, hj, rfl⟩
          refine ⟨i, j, hi, hj, ?_, rfl⟩
          by_contra hn
          have := tileOf_mono hP.2 ht.symm ho.symm (show P.row.tileBegin ti + i ≤ P.col.tileBegin tj + j by omega)
          rw [hu i hi, hv j hj] at this
          omega
        · rintro ⟨i, j, hi, hj, _, rfl⟩; exact ⟨i, j, hi, hj, rfl⟩
  -- all the tiles
  have hval : ∀ c ∈ localTiles (P.on r), tileMaxLower absv (P.on r) (tile r) c =
      some ((tileMaxLower absv (P.on r) (tile r) c).getD none) := by
    intro c hc
    obtain ⟨v, e, _⟩ := htile c hc
    rw [e]; rfl
  have hmax : ∀ c ∈ localTiles (P.on r), IsMax0 (fun x => ∃ a b : Nat, a < (tile r ⟨c.1, c.2⟩).rows ∧ b < (tile r ⟨c.1, c.2⟩).cols ∧
        P.col.tileBegin ((P.on r).col.global_tile_from_local_tile c.2) + b ≤
          P.row.tileBegin ((P.on r).row.global_tile_from_local_tile c.1) + a ∧
        x = absv ((tile r ⟨c.1, c.2⟩).e a b))
      (((tileMaxLower absv (P.on r) (tile r) c).getD none).getD 0) := by
    intro c hc
    obtain ⟨v, e, h⟩ := htile c hc
    rw [e]; exact h
  have hmem : ∀ x, x ∈ ((localTiles (P.on r)).map fun c => (tileMaxLower absv (P.on r) (tile r) c).getD none).filterMap id →
      ∃ c ∈ localTiles (P.on r), x = (((tileMaxLower absv (P.on r) (tile r) c).getD none).getD 0) := by
    intro x hx
    obtain ⟨o, ho, hx⟩ := List.mem_filterMap.1 hx
    obtain ⟨c, hc, rfl⟩ := List.mem_map.1 ho
    refine ⟨c, hc, ?_⟩
    rw [id] at hx
    rw [hx]; rfl
  obtain ⟨v, e1, e2⟩ := localMax_spec
    (l := ((localTiles (P.on r)).map fun c => (tileMaxLower absv (P.on r) (tile r) c).getD none).filterMap id)
    (by
      intro x hx
      obtain ⟨c, hc, rfl⟩ := hmem x hx
      exact (hmax c hc).2.1)
  refine ⟨v, ?_, ?_⟩
  · unfold localMaxLower
    rw [mapOpt_eq_map hval, Option.bind_some, e1]
  · refine IsMax0.union hmax ⟨?_, e2.2.1, ?_⟩
    · rcases e2.1 with h | h
      · exact .inl h
      · obtain ⟨c, hc, e⟩ := hmem v h
        exact .inr (List.mem_map.2 ⟨c, hc, e.symm⟩)
    · intro x hx
      obtain ⟨c, hc, rfl⟩ := List.mem_map.1 hx
      cases hg : (tileMaxLower absv (P.on r) (tile r) c).getD none with
      | none => exact e2.2.1
      | some y => exact e2.2.2 _ (List.mem_filterMap.2 ⟨some y, List.mem_map.2 ⟨c, hc, hg⟩, rfl⟩)

/-- `max_norm` of a lower triangular (or Hermitian) matrix whose rows and columns have the same offset returns on the
requested process the largest absolute value of the elements of the lower triangle.  The full property has no condition
on the offsets; without it the code violates it (`C38_lower_misses_element`, `C38_lower_aborts`). -/
theorem C38_max_lower_partial (absv : K → N) (h0 : ∀ x, 0 ≤ absv x) {P : Params2} (hP : P.Valid)
    (hb : P.row.block = P.row.tile ∧ P.col.block = P.col.tile) (hs : P.row.size = P.col.size)
    (ht : P.row.tile = P.col.tile) (ho : P.row.offset = P.col.offset) {root : Coord2} (hroot : root ∈ P.ranks)
    {A : Int → Int → K} {tile : Coord2 → Coord2 → Blk K} (hA : StoresElems P A tile) :
    ∃ f, maxNorm absv P .Lower root tile = some f ∧
      (∀ i j, 0 ≤ j → j ≤ i → i < P.row.size → absv (A i j) ≤ f root) ∧
      (0 < P.row.size → ∃ i j, 0 ≤ j ∧ j ≤ i ∧ i < P.row.size ∧ f root = absv (A i j)) ∧
      (P.row.size = 0 → ∀ r, f r = 0) := by
  unfold maxNorm
  rw [if_neg (by simpa using hb)]
  by_cases he : P.row.size = 0 ∨ P.col.size = 0
  · rw [if_pos he]
    exact ⟨_, rfl, by intros; omega, by intros; omega, by intros; rfl⟩
  · rw [if_neg he]
    dsimp only
    rw [if_pos ⟨hs, ht⟩]
    obtain ⟨f, h1, h2, _⟩ := reduceMax_spec hroot fun r hr => localMaxLower_spec absv hP hs ht ho hA hr
    have key := h2.congr fun x => (hA.elems hP fun i j y => j ≤ i ∧ x = absv y).symm
    refine ⟨f, h1, fun i j h1 h2 h3 => key.2.2 _ ⟨i, j, by omega, by omega, h2, rfl⟩, fun hs => ?_, fun h => absurd (.inl h) he⟩
    rcases key.1 with hz | hz
    · refine ⟨0, 0, le_refl _, le_refl _, hs, le_antisymm ?_ ?_⟩
      · rw [hz]; exact h0 _
      · exact key.2.2 _ ⟨0, 0, by omega, by omega, le_refl _, rfl⟩
    · obtain ⟨i, j, hi, hj, hij, e⟩ := hz
      exact ⟨i, j, hj.1, hij, hi.2, e⟩

/-- The upper triangle is not implemented: `max_norm` of a non-empty matrix aborts. -/
theorem C38_max_upper_unimplemented (absv : K → N) {P : Params2} (hn : P.row.size ≠ 0 ∧ P.col.size ≠ 0) (root : Coord2)
    (tile : Coord2 → Coord2 → Blk K) : maxNorm absv P .Upper root tile = none := by
  unfold maxNorm
  split
  · rfl
  · rw [if_neg (by omega)]

/-- A 2 x 2 matrix in one tile, with element offset `(oi, oj)`. -/
def normP (oi oj : Int) : Params2 := ⟨⟨2, 2, 2, 1, 0, 0, oi⟩, ⟨2, 2, 2, 1, 0, 0, oj⟩⟩

/-- The matrix with a single nonzero element, 5 at (1, 1). -/
def normA (i j : Int) : Int := if i = 1 ∧ j = 1 then 5 else 0

/-- Its storage. -/
def normTile (oi oj : Int) (_ c : Coord2) : Blk Int :=
  { rows := ((normP oi oj).row.dist.global_tile_size_of c.row).toNat
    cols := ((normP oi oj).col.dist.global_tile_size_of c.col).toNat
    e := fun a b => normA ((normP oi oj).row.tileBegin c.row + a) ((normP oi oj).col.tileBegin c.col + b) }

/-- FINDING: with a column offset of 1 the tile (0, 1) contains the element (1, 1) of the diagonal, but is skipped as a
tile above the diagonal; the norm of the lower triangle is 5, and `max_norm` returns 0. -/
theorem C38_lower_misses_element : (normP 0 1).Valid ∧
    (maxNorm Int.natAbs (normP 0 1) .Lower ⟨0, 0⟩ (normTile 0 1)).map (fun f => f ⟨0, 0⟩) = some 0 ∧
    Int.natAbs (normA 1 1) = 5 := by decide

/-- FINDING: with a row offset of 1 the tile (0, 0) is 1 x 2 and the assertion of `lantr` fails. -/
theorem C38_lower_aborts : (normP 1 0).Valid ∧ maxNorm Int.natAbs (normP 1 0) .Lower ⟨0, 0⟩ (normTile 1 0) = none := by
  refine ⟨by decide, ?_⟩
  have : (maxNorm Int.natAbs (normP 1 0) .Lower ⟨0, 0⟩ (normTile 1 0)).isNone = true := by decide
  exact Option.isNone_iff_eq_none.1 this

/-- The storage of any matrix exists. -/
theorem storesElems_exists (P : Params2) (hP : P.Valid) (A : Int → Int → K) : ∃ tile, StoresElems P A tile := by
  refine ⟨fun r c =>
    { rows := (P.row.dist.global_tile_size_of ((P.on r).row.global_tile_from_local_tile c.row)).toNat
      cols := (P.col.dist.global_tile_size_of ((P.on r).col.global_tile_from_local_tile c.col)).toNat
      e := fun a b => A (P.row.tileBegin ((P.on r).row.global_tile_from_local_tile c.row) + a)
        (P.col.tileBegin ((P.on r).col.global_tile_from_local_tile c.col) + b) }, ?_⟩
  intro r hr li lj hi hj
  obtain ⟨⟨r0, r1⟩, s0, s1⟩ := Params2.mem_ranks_iff.1 hr
  obtain ⟨_, _, g0, g1⟩ := C02_local_global_local (hP.1.onRank r0 r1) (lt := li) (by omega) hi
  obtain ⟨_, _, k0, k1⟩ := C02_local_global_local (hP.2.onRank s0 s1) (lt := lj) (by omega) hj
  have h1 : 0 < P.row.dist.global_tile_size_of ((P.on r).row.global_tile_from_local_tile li) :=
    hP.1.wf.global_tsz_pos g0 g1
  have h2 : 0 < P.col.dist.global_tile_size_of ((P.on r).col.global_tile_from_local_tile lj) :=
    hP.2.wf.global_tsz_pos k0 k1
  exact ⟨Int.toNat_of_nonneg (Int.le_of_lt h1), Int.toNat_of_nonneg (Int.le_of_lt h2), fun a b _ _ => rfl⟩

/-- A 5 x 5 matrix in 2 x 2 tiles on a 2 x 3 grid with offset 1 meets the hypotheses, for every content. -/
example : ∃ P : Params2, P.Valid ∧ (P.row.block = P.row.tile ∧ P.col.block = P.col.tile) ∧ P.row.size = P.col.size ∧
    P.row.tile = P.col.tile ∧ P.row.offset = P.col.offset ∧ (⟨1, 2⟩ : Coord2) ∈ P.ranks ∧ 0 < P.row.size ∧
    (∀ A : Int → Int → Int, ∃ tile, StoresElems P A tile) ∧ ∀ x : Int, 0 ≤ Int.natAbs x :=
  ⟨⟨⟨5, 2, 2, 2, 0, 1, 1⟩, ⟨5, 2, 2, 3, 0, 2, 1⟩⟩, by decide, by decide, rfl, rfl, rfl, by decide, by decide,
    fun A => storesElems_exists _ (by decide) A, fun _ => Nat.zero_le _⟩

end DLAF
