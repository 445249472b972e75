import Verif.Lemmas.PackIndex
import Verif.Lemmas.Norm
/- The local part of a range of tiles of a distributed matrix, one coordinate. -/
namespace DLAF
variable {p : Params}

theorem Plain.geo (hp : Plain p) : p.dist.global_tile_element_offset = 0 := by
  rw [hp.valid.gteo_eq, hp.offset, Int.zero_emod]

theorem Plain.tsz (hp : Plain p) {t : Int} : p.dist.global_tile_size_of t = min p.tile (p.size - t * p.tile) := by
  unfold Dist1.global_tile_size_of
  rw [hp.geo]
  have h3 : p.dist.size = p.size := rfl
  have h4 : p.dist.tileSize = p.tile := rfl
  rw [h3, h4]
  split
  · rename_i h; subst h; simp
  · simp

theorem Plain.begin (hp : Plain p) {t : Int} (ht : 0 ≤ t) (a : Int) :
    p.dist.global_element_from_global_tile_and_tile_element t a = t * p.tile + a := by
  rw [hp.valid.tileBegin_eq ht]
  have h : 0 ≤ t * p.tile := Int.mul_nonneg ht (Int.le_of_lt hp.valid.2.2.1)
  unfold Params.tileBegin
  rw [hp.offset]
  simp
  omega

theorem Plain.tileBegin (hp : Plain p) {t : Int} (ht : 0 ≤ t) : p.tileBegin t = t * p.tile := by
  have := hp.valid.tileBegin_eq ht 0
  rw [hp.begin ht] at this
  omega

theorem Plain.tileOf (hp : Plain p) (e : Int) : p.tileOf e = e / p.tile := by
  unfold Params.tileOf
  rw [hp.offset]
  simp

/-- Number of tiles. -/
theorem Plain.lt_nrTiles (hp : Plain p) {t : Int} (h0 : 0 ≤ t) : t < p.dist.nrTiles ↔ t * p.tile < p.size := by
  have ht : 0 < p.tile := hp.valid.2.2.1
  rw [hp.nrTiles_def]
  by_cases hs : p.size > 0
  · rw [if_pos hs]
    unfold ceilDiv
    show t < Int.tdiv _ _ ↔ _
    rw [Int.tdiv_eq_ediv_of_nonneg (by omega)]
    rw [Int.lt_iff_add_one_le, Int.le_ediv_iff_mul_le ht, Int.add_mul]
    omega
  · rw [if_neg hs]
    have : 0 ≤ t * p.tile := Int.mul_nonneg h0 (Int.le_of_lt ht)
    omega

/-- The local part of the tiles `[ib, ie)`: `n` elements in tiles `lt0, lt0 + 1, ...`. -/
structure LocalWin (p : Params) (ib ie : Int) (n nb : Nat) (lt0 : Int) : Prop where
  nb_eq : p.tile = nb
  nb_pos : 0 < nb
  n_eq : p.dist.local_element_distance_from_global_tile ib ie = n
  lt0_eq : p.dist.next_local_tile_from_global_tile ib = lt0
  lt0_nonneg : 0 ≤ lt0
  tiles : ∀ a : Nat, a * nb < n ↔ lt0 + a < p.dist.next_local_tile_from_global_tile ie
  range : ∀ a : Nat, a * nb < n → lt0 + a < p.dist.localNrTiles ∧
    ib ≤ p.dist.global_tile_from_local_tile (lt0 + a) ∧ p.dist.global_tile_from_local_tile (lt0 + a) < ie ∧
    p.dist.rank_global_tile (p.dist.global_tile_from_local_tile (lt0 + a)) = p.rank ∧
    p.dist.global_tile_size_of (p.dist.global_tile_from_local_tile (lt0 + a)) = ((min nb (n - a * nb) : Nat) : Int)
  mem : ∀ t, ib ≤ t → t < ie → p.dist.rank_global_tile t = p.rank → ∃ a : Nat, a * nb < n ∧
    p.dist.global_tile_from_local_tile (lt0 + a) = t

theorem Plain.localWin (hp : Plain p) {ib ie : Int} (h0 : 0 ≤ ib) (h1 : ib ≤ ie) (h2 : ie ≤ p.dist.nrTiles) :
    ∃ n nb : Nat, ∃ lt0, LocalWin p ib ie n nb lt0 := by
  have ht : 0 < p.tile := hp.valid.2.2.1
  obtain ⟨nb, hnb⟩ := Int.eq_ofNat_of_zero_le (Int.le_of_lt ht)
  have w := hp.valid.wf
  obtain ⟨lt0, hlt0⟩ : ∃ x, p.dist.next_local_tile_from_global_tile ib = x := ⟨_, rfl⟩
  obtain ⟨lt1, hlt1⟩ : ∃ x, p.dist.next_local_tile_from_global_tile ie = x := ⟨_, rfl⟩
  have hl0 : 0 ≤ lt0 := by rw [← hlt0]; exact w.cyc.next_local_nonneg h0
  have hl01 : lt0 ≤ lt1 := by rw [← hlt0, ← hlt1]; exact w.cyc.next_local_mono h0 h1
  have hl1 : lt1 ≤ p.dist.localNrTiles := by
    rw [← hlt1, w.localNrTiles_eq]; exact w.cyc.next_local_mono (by omega) h2
  have vis := C05_local_range_visits hp.valid h0 h1
  rw [hlt0, hlt1] at vis
  -- the tiles of the range
  have hg : ∀ lt, lt0 ≤ lt → lt < lt1 → ib ≤ p.dist.global_tile_from_local_tile lt ∧
      p.dist.global_tile_from_local_tile lt < ie ∧ p.dist.rank_global_tile (p.dist.global_tile_from_local_tile lt) = p.rank := by
    intro lt ha hb
    obtain ⟨x1, x2, x3, x4⟩ := C02_local_global_local hp.valid (lt := lt) (by omega) (by omega)
    exact (vis (p.dist.global_tile_from_local_tile lt)).2 ⟨lt, ha, hb, by rfl⟩
  have hmem : ∀ t, ib ≤ t → t < ie → p.dist.rank_global_tile t = p.rank → ∃ lt, lt0 ≤ lt ∧ lt < lt1 ∧
      p.dist.global_tile_from_local_tile lt = t := by
    intro t a b c
    obtain ⟨lt, x1, x2, x3⟩ := (vis t).1 ⟨a, b, c⟩
    exact ⟨lt, x1, x2, x3⟩
  have hdef : p.dist.local_element_distance_from_global_tile ib ie =
      if lt0 > lt1 - 1 then 0 else
        ((lt1 - 1) * p.tile + (p.dist.global_tile_size_of (p.dist.global_tile_from_local_tile (lt1 - 1)) - 1) + 1) -
          (lt0 * p.tile + 0) := by
    unfold Dist1.local_element_distance_from_global_tile Dist1.local_element_distance_from_local_tile
    rw [hlt0, hlt1]
    have hle : ∀ t te, p.dist.local_element_from_local_tile_and_tile_element t te = t * p.tile + te := by
      intro t te
      unfold Dist1.local_element_from_local_tile_and_tile_element util.element_from_tile_and_tile_element
      have : p.dist.local_tile_element_offset = 0 := by
        unfold Dist1.local_tile_element_offset; rw [hp.geo]; simp
      rw [this]
      show t * p.tile + te - _ = _
      simp
    dsimp only
    rw [hle, hle]
  by_cases hc : lt0 = lt1
  · rw [if_pos (by omega)] at hdef
    refine ⟨0, nb, lt0, hnb, by omega, hdef, hlt0, hl0, ?_, by omega, ?_⟩
    · intro a; rw [hlt1]; omega
    · intro t a b c
      obtain ⟨lt, x1, x2, x3⟩ := hmem t a b c
      omega
  · rw [if_neg (by omega)] at hdef
    obtain ⟨y1, y2, y3⟩ := hg (lt1 - 1) (by omega) (by omega)
    have hpos := w.global_tsz_pos (t := p.dist.global_tile_from_local_tile (lt1 - 1)) (by omega) (by omega)
    have hle : p.dist.global_tile_size_of (p.dist.global_tile_from_local_tile (lt1 - 1)) ≤ nb := by
      rw [hp.tsz, hnb]; omega
    obtain ⟨z, hz⟩ := Int.eq_ofNat_of_zero_le (Int.le_of_lt hpos)
    obtain ⟨k, hk⟩ := Int.eq_ofNat_of_zero_le (show 0 ≤ lt1 - 1 - lt0 by omega)
    have hn : p.dist.local_element_distance_from_global_tile ib ie = ((k * nb + z : Nat) : Int) := by
      rw [hdef, hz, hnb]
      have : (lt1 - 1) * (nb : Int) = lt0 * nb + k * nb := by
        rw [show lt1 - 1 = lt0 + k by omega]; ring
      rw [this]; push_cast; omega
    have hzpos : 0 < z := by omega
    have hznb : z ≤ nb := by omega
    have tiles : ∀ a : Nat, a * nb < k * nb + z ↔ a ≤ k := by
      intro a
      constructor
      · intro h
        by_contra hcon
        have : (k + 1) * nb ≤ a * nb := Nat.mul_le_mul_right _ (by omega)
        have e : (k + 1) * nb = k * nb + nb := by ring
        omega
      · intro h
        have : a * nb ≤ k * nb := Nat.mul_le_mul_right _ h
        omega
    refine ⟨k * nb + z, nb, lt0, hnb, by omega, hn, hlt0, hl0, ?_, ?_, ?_⟩
    · intro a
      rw [tiles, hlt1]
      omega
    · intro a ha
      have hak := (tiles a).1 ha
      obtain ⟨g1, g2, g3⟩ := hg (lt0 + a) (by omega) (by omega)
      refine ⟨by omega, g1, g2, g3, ?_⟩
      by_cases hlast : a = k
      · subst hlast
        rw [show lt0 + (a : Int) = lt1 - 1 by omega, hz]
        congr 1
        omega
      · have hinc := C05_increasing hp.valid (a := lt0 + a) (b := lt1 - 1) (by omega) (by omega)
        have hlt := (hp.lt_nrTiles (t := p.dist.global_tile_from_local_tile (lt1 - 1)) (by omega)).1 (by omega)
        rw [hp.tsz, hnb]
        rw [hnb] at hlt
        have hm : (p.dist.global_tile_from_local_tile (lt0 + a) + 1) * (nb : Int) ≤
            p.dist.global_tile_from_local_tile (lt1 - 1) * nb := Int.mul_le_mul_of_nonneg_right (by omega) (by omega)
        rw [Int.add_mul] at hm
        have hm2 : (a + 1) * nb ≤ k * nb := Nat.mul_le_mul_right _ (by omega)
        rw [Nat.add_mul] at hm2
        generalize p.dist.global_tile_from_local_tile (lt0 + a) * (nb : Int) = u at *
        generalize p.dist.global_tile_from_local_tile (lt1 - 1) * (nb : Int) = v at *
        omega
    · intro t a b c
      obtain ⟨lt, x1, x2, x3⟩ := hmem t a b c
      obtain ⟨j, hj⟩ := Int.eq_ofNat_of_zero_le (show 0 ≤ lt - lt0 by omega)
      exact ⟨j, (tiles j).2 (by omega), by rw [show lt0 + (j : Int) = lt by omega]; exact x3⟩

/-- The first element of the range of tiles. -/
def Params.rangeBegin (p : Params) (ib : Int) : Int := p.dist.global_element_from_global_tile_and_tile_element ib 0

/-- The element, relative to the beginning of the range, at local position `x` of the window. -/
def subOf (p : Params) (ib lt0 : Int) (nb : Nat) (x : Nat) : Nat :=
  (p.dist.global_element_from_global_tile_and_tile_element
    (p.dist.global_tile_from_local_tile (lt0 + ((x / nb : Nat) : Int))) ((x % nb : Nat) : Int) - p.rangeBegin ib).toNat

/-- The number of elements of the range. -/
def Params.rangeSize (p : Params) (ib ie : Int) : Nat := (p.dist.global_tile_element_distance ib ie).toNat

/-- The owner of an element of the range. -/
def Params.ownerSub (p : Params) (ib : Int) (s : Nat) : Nat := (p.dist.rank_global_element (p.rangeBegin ib + s)).toNat

theorem Plain.rangeSize_spec (hp : Plain p) {ib ie : Int} (h0 : 0 ≤ ib) (h1 : ib < ie) (h2 : ie ≤ p.dist.nrTiles) (s : Nat) :
    s < p.rangeSize ib ie ↔ ib * p.tile + s < p.size ∧ ib * p.tile + s < ie * p.tile := by
  have hlast := (hp.lt_nrTiles (t := ie - 1) (by omega)).1 (by omega)
  rw [Int.sub_mul] at hlast
  have hm : (ib + 1) * p.tile ≤ ie * p.tile := Int.mul_le_mul_of_nonneg_right (by omega) (Int.le_of_lt hp.valid.2.2.1)
  rw [Int.add_mul] at hm
  have ht : 0 < p.tile := hp.valid.2.2.1
  unfold Params.rangeSize Dist1.global_tile_element_distance
  dsimp only
  rw [hp.begin h0, hp.begin (show 0 ≤ ie by omega)]
  have hs : p.dist.size = p.size := rfl
  rw [hs]
  by_cases he : ie = p.dist.nrTiles
  · rw [if_pos he]
    have := mt (hp.lt_nrTiles (t := ie) (by omega)).2 (by omega)
    omega
  · rw [if_neg he]
    have := (hp.lt_nrTiles (t := ie) (by omega)).1 (by omega)
    omega

/-- The window: elements, sub indices, ownership. -/
theorem LocalWin.sub_spec (hp : Plain p) {ib ie : Int} (h0 : 0 ≤ ib) (h1 : ib < ie) (h2 : ie ≤ p.dist.nrTiles) {n nb : Nat}
    {lt0 : Int} (w : LocalWin p ib ie n nb lt0) {x : Nat} (hx : x < n) :
    p.dist.global_element_from_global_tile_and_tile_element
      (p.dist.global_tile_from_local_tile (lt0 + ((x / nb : Nat) : Int))) ((x % nb : Nat) : Int) =
        p.rangeBegin ib + subOf p ib lt0 nb x ∧
    subOf p ib lt0 nb x < p.rangeSize ib ie ∧ p.dist.rank_global_element (p.rangeBegin ib + subOf p ib lt0 nb x) = p.rank := by
  have hax : x / nb * nb < n := lt_of_le_of_lt (Nat.div_mul_le_self x nb) hx
  obtain ⟨r1, r2, r3, r4, r5⟩ := w.range (x / nb) hax
  have hmod := Nat.mod_add_div x nb
  rw [Nat.mul_comm] at hmod
  have hml := Nat.mod_lt x w.nb_pos
  have hin : ((x % nb : Nat) : Int) < p.dist.global_tile_size_of (p.dist.global_tile_from_local_tile (lt0 + ((x / nb : Nat) : Int))) := by
    rw [r5]; omega
  have hg0 : 0 ≤ p.dist.global_tile_from_local_tile (lt0 + ((x / nb : Nat) : Int)) := by omega
  obtain ⟨e, ⟨e0, e1, e2, e3⟩, e4, _⟩ := C03_global_combine hp.valid hg0 (by omega) (te := ((x % nb : Nat) : Int)) (by omega) hin
  have hb : p.rangeBegin ib = ib * p.tile := by
    unfold Params.rangeBegin; rw [hp.begin h0]; omega
  have hm : ib * p.tile ≤ p.dist.global_tile_from_local_tile (lt0 + ((x / nb : Nat) : Int)) * p.tile :=
    Int.mul_le_mul_of_nonneg_right r2 (Int.le_of_lt hp.valid.2.2.1)
  have hm2 : (p.dist.global_tile_from_local_tile (lt0 + ((x / nb : Nat) : Int)) + 1) * p.tile ≤ ie * p.tile :=
    Int.mul_le_mul_of_nonneg_right (by omega) (Int.le_of_lt hp.valid.2.2.1)
  rw [Int.add_mul] at hm2
  have hsub : p.rangeBegin ib + (subOf p ib lt0 nb x : Nat) = e := by
    unfold subOf
    rw [← e4, hb]
    rw [hp.begin hg0] at e4
    omega
  refine ⟨by rw [hsub, e4], ?_, ?_⟩
  · rw [hp.rangeSize_spec h0 h1 h2, ← hb, hsub]
    rw [hp.begin hg0] at e4
    refine ⟨e1, ?_⟩
    rw [e4]
    have := w.nb_eq
    omega
  · rw [hsub]
    unfold Dist1.rank_global_element
    rw [e2, r4]

theorem LocalWin.ownList_eq (hp : Plain p) {ib ie : Int} (h0 : 0 ≤ ib) (h1 : ib < ie) (h2 : ie ≤ p.dist.nrTiles) {n nb : Nat}
    {lt0 : Int} (w : LocalWin p ib ie n nb lt0) :
    (List.range n).map (subOf p ib lt0 nb) = ownList (p.ownerSub ib) (p.rangeSize ib ie) p.rank.toNat := by
  have hrank : 0 ≤ p.rank := hp.valid.2.2.2.2.2.1.1
  have hnb := w.nb_pos
  have hb : p.rangeBegin ib = ib * p.tile := by
    unfold Params.rangeBegin; rw [hp.begin h0]; omega
  apply nat_sorted_ext
  · rw [List.pairwise_map]
    refine List.pairwise_lt_range.imp_of_mem ?_
    intro x y hx hy hxy
    rw [List.mem_range] at hx hy
    have e1 := (w.sub_spec hp h0 h1 h2 hx).1
    have e2 := (w.sub_spec hp h0 h1 h2 hy).1
    have hax : x / nb * nb < n := lt_of_le_of_lt (Nat.div_mul_le_self x nb) hx
    have hay : y / nb * nb < n := lt_of_le_of_lt (Nat.div_mul_le_self y nb) hy
    have r1 := (w.range _ hax).2.1
    have r2 := (w.range _ hay).2.1
    rw [hp.begin (by omega)] at e1 e2
    have hl0 := w.lt0_nonneg
    rcases Nat.lt_or_eq_of_le (Nat.div_le_div_right (c := nb) (Nat.le_of_lt hxy)) with h | h
    · have hinc := C05_increasing hp.valid (a := lt0 + ((x / nb : Nat) : Int)) (b := lt0 + ((y / nb : Nat) : Int)) (Int.add_nonneg hl0 (Int.natCast_nonneg _)) (by omega)
      have hm : (p.dist.global_tile_from_local_tile (lt0 + ((x / nb : Nat) : Int)) + 1) * p.tile ≤
          p.dist.global_tile_from_local_tile (lt0 + ((y / nb : Nat) : Int)) * p.tile :=
        Int.mul_le_mul_of_nonneg_right (by omega) (Int.le_of_lt hp.valid.2.2.1)
      rw [Int.add_mul] at hm
      have hml := Nat.mod_lt x hnb
      have := w.nb_eq
      omega
    · rw [← h] at e2
      have h3 := Nat.mod_add_div x nb
      have h4 := Nat.mod_add_div y nb
      rw [← h] at h4
      omega
  · exact ownList_sorted _ _ _
  · intro s
    rw [List.mem_map, mem_ownList]
    constructor
    · rintro ⟨x, hx, rfl⟩
      rw [List.mem_range] at hx
      obtain ⟨_, a, b⟩ := w.sub_spec hp h0 h1 h2 hx
      exact ⟨a, by unfold Params.ownerSub; rw [b]⟩
    · rintro ⟨hs, ho⟩
      obtain ⟨s1, s2⟩ := (hp.rangeSize_spec h0 h1 h2 s).1 hs
      have ht : 0 < p.tile := hp.valid.2.2.1
      have hib : 0 ≤ ib * p.tile := Int.mul_nonneg h0 (Int.le_of_lt ht)
      have he0 : 0 ≤ p.rangeBegin ib + s := by rw [hb]; omega
      obtain ⟨g1, g2, g3, g4, g5⟩ := C03_global_split hp.valid he0 (by rw [hb]; omega)
      have hto := hp.valid.tileOf_eq he0
      rw [hp.tileOf] at hto
      have hown : p.dist.rank_global_tile (p.dist.global_tile_from_global_element (p.rangeBegin ib + s)) = p.rank := by
        unfold Params.ownerSub at ho
        have hr : 0 ≤ p.dist.rank_global_element (p.rangeBegin ib + s) := by
          obtain ⟨o, ho1, _, ho3⟩ := C01_tile_owner hp.valid g2 g3
          have := (ho3 p.rank hrank hp.valid.2.2.2.2.2.1.2).1
          unfold Dist1.rank_global_element
          rw [show p.dist.rank_global_tile (p.dist.global_tile_from_global_element (p.rangeBegin ib + s)) = o from this]
          exact ho1.1
        unfold Dist1.rank_global_element at ho hr
        omega
      obtain ⟨a, ha, hga⟩ := w.mem (p.dist.global_tile_from_global_element (p.rangeBegin ib + s))
        (by rw [hto, hb]; exact (Int.le_ediv_iff_mul_le ht).2 (by omega))
        (by rw [hto, hb]; exact Int.ediv_lt_of_lt_mul ht (by omega)) hown
      have r5 := (w.range a ha).2.2.2.2
      rw [hga] at r5
      rw [r5] at g5
      obtain ⟨te, hte⟩ := Int.eq_ofNat_of_zero_le g4
      rw [hte] at g5 g1
      refine ⟨a * nb + te, List.mem_range.2 (by omega), ?_⟩
      unfold subOf
      have hd : (a * nb + te) / nb = a := by
        rw [Nat.add_comm, Nat.add_mul_div_right _ _ hnb, Nat.div_eq_of_lt (by omega)]; omega
      have hmd : (a * nb + te) % nb = te := by
        rw [Nat.add_comm, Nat.add_mul_mod_self_right, Nat.mod_eq_of_lt (by omega)]
      rw [hd, hmd, hga]
      rw [show p.dist.global_element_from_global_tile_and_tile_element
        (p.dist.global_tile_from_global_element (p.rangeBegin ib + s)) ((te : Nat) : Int) = p.rangeBegin ib + s from g1]
      omega

end DLAF
