import Verif.Lemmas.Layout
import Verif.Props.Distribution
import Mathlib.Data.List.Sort
/- The local tiles of a rank, as the global tiles owned by it. -/
namespace DLAF

/-- `0, 1, .., n-1` as integers. -/
def ints (n : Int) : List Int := (List.range n.toNat).map fun i : Nat => (i : Int)

theorem mem_ints {n a : Int} : a ∈ ints n ↔ 0 ≤ a ∧ a < n := by
  unfold ints
  simp only [List.mem_map, List.mem_range]
  constructor
  · rintro ⟨k, hk, rfl⟩; omega
  · rintro ⟨h0, h1⟩; exact ⟨a.toNat, by omega, by omega⟩

theorem ints_sorted (n : Int) : (ints n).Pairwise (· < ·) := by
  unfold ints
  rw [List.pairwise_map]
  exact List.pairwise_lt_range.imp (by intro a b h; omega)

/-- Two strictly increasing lists with the same members are equal. -/
theorem sorted_ext {l m : List Int} (hl : l.Pairwise (· < ·)) (hm : m.Pairwise (· < ·))
    (h : ∀ a, a ∈ l ↔ a ∈ m) : l = m := by
  have nd : ∀ {l : List Int}, l.Pairwise (· < ·) → l.Nodup := fun h => h.imp (by intro a b h; omega)
  exact List.Perm.eq_of_pairwise (fun a b _ _ h1 h2 => absurd h1 (by omega)) hl hm
    ((List.perm_ext_iff_of_nodup (nd hl) (nd hm)).2 h)

/-- The local tiles of a rank are, in order, the global tiles it owns. -/
theorem Params.Valid.local_list {p : Params} (hp : p.Valid) :
    (ints p.dist.localNrTiles).map p.dist.global_tile_from_local_tile =
      (ints p.dist.nrTiles).filter fun t => p.dist.rank_global_tile t = p.rank := by
  apply sorted_ext
  · rw [List.pairwise_map]
    refine (ints_sorted _).imp_of_mem ?_
    intro a b ha hb h
    exact C05_increasing hp (mem_ints.1 ha).1 h
  · exact (ints_sorted _).filter _
  · intro a
    have hv := C05_local_range_visits hp (a := 0) (b := p.dist.nrTiles) (by omega) hp.wf.nrTiles_nonneg a
    have h0 : p.dist.next_local_tile_from_global_tile 0 = 0 := hp.wf.cyc.next_local_zero
    rw [h0, ← hp.wf.localNrTiles_eq] at hv
    simp only [List.mem_map, List.mem_filter, mem_ints, decide_eq_true_eq]
    constructor
    · rintro ⟨lt, ⟨h1, h2⟩, rfl⟩
      have := hv.2 ⟨lt, h1, h2, rfl⟩
      exact ⟨⟨this.1, this.2.1⟩, this.2.2⟩
    · rintro ⟨⟨h1, h2⟩, h3⟩
      obtain ⟨lt, a1, a2, a3⟩ := hv.1 ⟨h1, h2, h3⟩
      exact ⟨lt, ⟨a1, a2⟩, a3⟩

/-- The same with local indices on the right. -/
theorem Params.Valid.local_list' {p : Params} (hp : p.Valid) :
    ints p.dist.localNrTiles =
      ((ints p.dist.nrTiles).filter fun t => p.dist.rank_global_tile t = p.rank).map
        p.dist.local_tile_from_global_tile := by
  rw [← hp.local_list, List.map_map]
  have : ∀ a ∈ ints p.dist.localNrTiles,
      (p.dist.local_tile_from_global_tile ∘ p.dist.global_tile_from_local_tile) a = a := fun a ha =>
    (C02_local_global_local hp (mem_ints.1 ha).1 (mem_ints.1 ha).2).1
  conv_lhs => rw [← List.map_id (ints p.dist.localNrTiles)]
  exact List.map_congr_left (fun a ha => (this a ha).symm)

/-- Pairs in column-major order. -/
def pairs (rows cols : List Int) : List Coord2 := cols.flatMap fun j => rows.map fun i => ⟨i, j⟩

theorem mem_pairs {rows cols : List Int} {c : Coord2} : c ∈ pairs rows cols ↔ c.row ∈ rows ∧ c.col ∈ cols := by
  unfold pairs
  simp only [List.mem_flatMap, List.mem_map]
  constructor
  · rintro ⟨j, hj, i, hi, rfl⟩; exact ⟨hi, hj⟩
  · rintro ⟨hi, hj⟩; exact ⟨c.col, hj, c.row, hi, rfl⟩

theorem pairs_filter (P Q : Int → Bool) (rows cols : List Int) :
    (pairs rows cols).filter (fun c => P c.row && Q c.col) = pairs (rows.filter P) (cols.filter Q) := by
  unfold pairs
  induction cols with
  | nil => rfl
  | cons j cols ih =>
    rw [List.flatMap_cons, List.filter_append, ih, List.filter_cons]
    by_cases h : Q j = true
    · rw [if_pos h, List.flatMap_cons]
      congr 1
      rw [List.filter_map]
      congr 1
      apply List.filter_congr
      intro i _
      simp [h]
    · rw [if_neg h]
      have : (rows.map fun i => (⟨i, j⟩ : Coord2)).filter (fun c => P c.row && Q c.col) = [] := by
        rw [List.filter_eq_nil_iff]
        intro c hc
        obtain ⟨i, _, rfl⟩ := List.mem_map.1 hc
        simp [h]
      rw [this, List.nil_append]

theorem pairs_map (f g : Int → Int) (rows cols : List Int) :
    (pairs rows cols).map (fun c => ⟨f c.row, g c.col⟩) = pairs (rows.map f) (cols.map g) := by
  unfold pairs
  rw [List.map_flatMap, List.flatMap_map]
  congr 1
  funext j
  rw [List.map_map, List.map_map]
  rfl

theorem pairs_nodup {rows cols : List Int} (hr : rows.Nodup) (hc : cols.Nodup) : (pairs rows cols).Nodup := by
  unfold pairs
  rw [List.nodup_flatMap]
  refine ⟨fun j _ => hr.map (fun a b h => by simpa using h), ?_⟩
  refine hc.imp_of_mem ?_
  intro a b ha hb hab c h1 h2
  obtain ⟨i, _, rfl⟩ := List.mem_map.1 h1
  obtain ⟨i', _, he⟩ := List.mem_map.1 h2
  simp only [Coord2.mk.injEq] at he
  exact hab he.2.symm

theorem ints_nodup (n : Int) : (ints n).Nodup := (ints_sorted n).imp (by intro a b h; omega)

end DLAF
