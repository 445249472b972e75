import Verif.Model.DistRedBand
import Verif.Lemmas.DistBtTasks
import Verif.Lemmas.DistElemPhase
import Verif.Lemmas.CollectiveList
import Verif.Lemmas.RedBandStep
/- Distributed reduction to band: where things are. -/
namespace DLAF
open scoped Classical

theorem mod_band_le {nb band : Nat} (hnb : 0 < nb) (hd : nb % band = 0) (m : Nat) : m * band % nb + band ≤ nb := by
  have hml := Nat.mod_lt (m * band) hnb
  have hdvd : band ∣ m * band % nb := by
    rw [Nat.dvd_mod_iff (Nat.dvd_of_mod_eq_zero hd)]
    exact Nat.dvd_mul_left _ _
  obtain ⟨q, hq⟩ := hdvd
  obtain ⟨r, hr⟩ := Nat.dvd_of_mod_eq_zero hd
  have hqr : q + 1 ≤ r := by
    by_contra h
    have : r ≤ q := by omega
    have := Nat.mul_le_mul_left band this
    omega
  have h4 := Nat.mul_le_mul_left band hqr
  rw [Nat.mul_add] at h4
  omega

namespace DistRed

/-- A matrix of order `n` in square tiles of `nb` on a grid, and an iteration `j` of the reduction to band. -/
structure Geo (P : Params2) (n nb band j : Nat) : Prop where
  a1 : Ax P.row n nb
  a2 : Ax P.col n nb
  hb : 0 < band
  hd : nb % band = 0
  hj : j * band < n - band - 1

/-- The processes of the column of the panel. -/
def rc (P : Params2) (nb band j : Nat) : Int := P.col.dist.rank_global_tile ((j * band / nb : Nat) : Int)
def onCol (P : Params2) (nb band j : Nat) : List Coord2 := P.ranks.filter fun r => r.col = rc P nb band j

/-- The pieces of the rows from `(j + 1) * band` on. -/
def pc (nb n band j i : Nat) : Nat × Nat := pieceOf nb n ((j + 1) * band) i

section
variable {P : Params2} {n nb band j : Nat}

theorem mem_onCol {r : Coord2} : r ∈ onCol P nb band j ↔ r ∈ P.ranks ∧ r.col = rc P nb band j := by
  unfold onCol
  simp

theorem onCol_nodup : (onCol P nb band j).Nodup := P.ranks_nodup.filter _

variable (h : Geo P n nb band j)
include h

theorem Geo.nbp : 0 < nb := h.a1.nb_pos
theorem Geo.e0 : (j + 1) * band = j * band + band := by rw [Nat.add_mul, Nat.one_mul]
theorem Geo.r0n : (j + 1) * band < n := by have := h.e0; have := h.hj; omega
theorem Geo.row {r : Coord2} (hr : r ∈ P.ranks) : Ax (P.row.onRank r.row) n nb :=
  h.a1.onRank (Params2.mem_ranks.1 hr .Row).1 (Params2.mem_ranks.1 hr .Row).2
theorem Geo.col {r : Coord2} (hr : r ∈ P.ranks) : Ax (P.col.onRank r.col) n nb :=
  h.a2.onRank (Params2.mem_ranks.1 hr .Col).1 (Params2.mem_ranks.1 hr .Col).2

theorem Geo.c0_div : j * band / nb * nb + j * band % nb = j * band := by
  have := Nat.div_add_mod (j * band) nb
  rw [Nat.mul_comm] at this
  exact this

theorem Geo.r0_div : (j + 1) * band / nb * nb + (j + 1) * band % nb = (j + 1) * band := by
  have := Nat.div_add_mod ((j + 1) * band) nb
  rw [Nat.mul_comm] at this
  exact this

theorem Geo.modc : j * band % nb + band ≤ nb := mod_band_le h.nbp h.hd j
theorem Geo.modr : (j + 1) * band % nb + band ≤ nb := mod_band_le h.nbp h.hd (j + 1)

omit h in
theorem rows_eq (r : Coord2) : rows band (P.on r) j = View.tiles (P.row.onRank r.row).dist (((j + 1) * band : Nat) : Int) := rfl

section
variable {r : Coord2} (hr : r ∈ P.ranks)
include hr

theorem Geo.mem_rows {i : Int} : i ∈ rows band (P.on r) j ↔
    0 ≤ i ∧ i < (P.row.onRank r.row).dist.localNrTiles ∧ (j + 1) * band / nb ≤ (P.row.onRank r.row).gn i := by
  rw [rows_eq]
  exact (h.row hr).mem_view

theorem Geo.cut_eq {i : Int} (hi : i ∈ rows band (P.on r) j) :
    cut band (P.on r) j i = if (P.row.onRank r.row).gn i = (j + 1) * band / nb then (j + 1) * band % nb else 0 := by
  rw [h.mem_rows hr] at hi
  unfold cut r0
  have e1 : (P.on r).row = (P.row.onRank r.row).dist := rfl
  rw [e1, (h.row hr).panelCut hi.1, Int.toNat_natCast]

theorem Geo.hgt_eq {i : Int} (hi : i ∈ rows band (P.on r) j) :
    hgt band (P.on r) j i = (pc nb n band j ((P.row.onRank r.row).gn i)).2 := by
  rw [h.mem_rows hr] at hi
  unfold hgt r0 pc pieceOf
  have e1 : (P.on r).row = (P.row.onRank r.row).dist := rfl
  rw [e1, (h.row hr).panelCut hi.1]
  have := (h.row hr).sz hi.1 hi.2.1
  have e2 : (P.row.onRank r.row).dist.global_tile_from_local_tile i = (P.row.onRank r.row).gl i := rfl
  rw [e2, this]
  dsimp only
  omega

/-- Where the piece of a tile is. -/
theorem Geo.piece_at {i : Int} (hi : i ∈ rows band (P.on r) j) :
    (P.row.onRank r.row).gn i * nb + cut band (P.on r) j i = (pc nb n band j ((P.row.onRank r.row).gn i)).1 ∧
    cut band (P.on r) j i + (pc nb n band j ((P.row.onRank r.row).gn i)).2 = min nb (n - (P.row.onRank r.row).gn i * nb) := by
  have hi' := (h.mem_rows hr).1 hi
  rw [h.cut_eq hr hi]
  unfold pc pieceOf
  refine ⟨rfl, ?_⟩
  dsimp only
  have h1 := h.modr
  have h2 := h.r0_div
  have h3 := h.r0n
  have h4 := (h.row hr).gn_lt hi'.1 hi'.2.1
  split
  · rename_i e
    rw [e] at h4 ⊢
    omega
  · omega

/-- Pieces are in the rows of the panel. -/
theorem Geo.piece_range {i : Int} (hi : i ∈ rows band (P.on r) j) :
    (j + 1) * band ≤ (pc nb n band j ((P.row.onRank r.row).gn i)).1 ∧
    (pc nb n band j ((P.row.onRank r.row).gn i)).1 + (pc nb n band j ((P.row.onRank r.row).gn i)).2 ≤ n := by
  obtain ⟨p1, p2⟩ := h.piece_at hr hi
  have hi' := (h.mem_rows hr).1 hi
  have h2 := h.r0_div
  have h1 := h.modr
  have hh := h.hb
  rw [h.cut_eq hr hi] at p1 p2
  have h4 := (h.row hr).gn_lt hi'.1 hi'.2.1
  refine ⟨?_, by omega⟩
  rw [← p1]
  split
  · rename_i e; rw [e]; omega
  · have : (j + 1) * band / nb + 1 ≤ (P.row.onRank r.row).gn i := by omega
    have := Nat.mul_le_mul_right nb this
    rw [Nat.add_mul] at this
    omega

/-- Tiles that are not in the panel are above it. -/
theorem Geo.not_rows {i : Int} (h0 : 0 ≤ i) (h1 : i < (P.row.onRank r.row).dist.localNrTiles) (hi : i ∉ rows band (P.on r) j) :
    (P.row.onRank r.row).gn i * nb + nb ≤ (j + 1) * band := by
  rw [h.mem_rows hr] at hi
  have : (P.row.onRank r.row).gn i + 1 ≤ (j + 1) * band / nb := by
    by_contra hc
    exact hi ⟨h0, h1, by omega⟩
  have := Nat.mul_le_mul_right nb this
  rw [Nat.add_mul] at this
  have := h.r0_div
  omega

theorem Geo.head_iff : head band (P.on r) j = true ↔ P.row.dist.rank_global_tile (((j + 1) * band / nb : Nat) : Int) = r.row := by
  unfold head r0
  have e1 : (P.on r).row = (P.row.onRank r.row).dist := rfl
  rw [e1]
  exact (h.row hr).hasTop

/-- The first tile of the panel. -/
theorem Geo.head_tile (hh : head band (P.on r) j = true) :
    View.begin' (P.on r).row ((r0 band j : Nat) : Int) ∈ rows band (P.on r) j ∧
    (P.row.onRank r.row).gn (View.begin' (P.on r).row ((r0 band j : Nat) : Int)) = (j + 1) * band / nb := by
  rw [h.head_iff hr] at hh
  have a := h.row hr
  have hlt : (((j + 1) * band / nb : Nat) : Int) < (P.row.onRank r.row).dist.nrTiles := by
    have := (a.lt_nt ((j + 1) * band / nb)).2 (by have := h.r0_div; have := h.r0n; omega)
    rw [a.nt]; omega
  have b := a.plain.lc_bounds (t := (((j + 1) * band / nb : Nat) : Int)) (Int.natCast_nonneg _) hlt hh
  have e := a.plain.gl_lc (t := (((j + 1) * band / nb : Nat) : Int)) (Int.natCast_nonneg _) hh
  have eb : View.begin' (P.on r).row ((r0 band j : Nat) : Int) = (P.row.onRank r.row).lc (((j + 1) * band / nb : Nat) : Int) := by
    unfold View.begin' r0
    have e1 : (P.on r).row = (P.row.onRank r.row).dist := rfl
    rw [e1, a.gt]
    exact (a.plain.lc_nx (Int.natCast_nonneg _) hh).symm
  have g := a.gn_cast b.1
  have hg : (P.row.onRank r.row).gn ((P.row.onRank r.row).lc (((j + 1) * band / nb : Nat) : Int)) = (j + 1) * band / nb := by omega
  rw [eb]
  exact ⟨(h.mem_rows hr).2 ⟨b.1, b.2, by omega⟩, hg⟩

/-- The tile with the head. -/
theorem Geo.is_head {i : Int} (hi : i ∈ rows band (P.on r) j) :
    (head band (P.on r) j = true ∧ i = View.begin' (P.on r).row ((r0 band j : Nat) : Int)) ↔ (P.row.onRank r.row).gn i = (j + 1) * band / nb := by
  have hi' := (h.mem_rows hr).1 hi
  have a := h.row hr
  constructor
  · rintro ⟨h1, h2⟩
    rw [h2]
    exact (h.head_tile hr h1).2
  · intro hg
    have h1 : head band (P.on r) j = true := by
      rw [h.head_iff hr, ← hg, a.gn_cast hi'.1]
      exact a.plain.gl_own hi'.1
    obtain ⟨h2, h3⟩ := h.head_tile hr h1
    have h2' := (h.mem_rows hr).1 h2
    refine ⟨h1, a.plain.gl_inj hi'.1 h2'.1 ?_⟩
    rw [← a.gn_cast hi'.1, ← a.gn_cast h2'.1, hg, h3]

theorem Geo.first_eq {i : Int} (hi : i ∈ rows band (P.on r) j) (q : Nat) :
    first band (P.on r) j q i = if (P.row.onRank r.row).gn i = (j + 1) * band / nb then q else 0 := by
  unfold first
  by_cases hg : (P.row.onRank r.row).gn i = (j + 1) * band / nb
  · rw [if_pos hg, if_pos ((h.is_head hr hi).2 hg)]
  · rw [if_neg hg, if_neg (fun hc => hg ((h.is_head hr hi).1 hc))]

/-- The piece with the head. -/
theorem Geo.head_piece {i : Int} (hi : i ∈ rows band (P.on r) j) (hg : (P.row.onRank r.row).gn i = (j + 1) * band / nb) :
    (pc nb n band j ((P.row.onRank r.row).gn i)).1 = (j + 1) * band ∧
    min band (n - (j + 1) * band) ≤ (pc nb n band j ((P.row.onRank r.row).gn i)).2 := by
  obtain ⟨p1, p2⟩ := h.piece_at hr hi
  rw [h.cut_eq hr hi, if_pos hg] at p1 p2
  have := h.r0_div
  have := h.modr
  rw [hg] at p1 p2 ⊢
  omega

/-- The other pieces start below the first block. -/
theorem Geo.tail_piece {i : Int} (hi : i ∈ rows band (P.on r) j) (hg : (P.row.onRank r.row).gn i ≠ (j + 1) * band / nb) :
    (j + 1) * band + band ≤ (pc nb n band j ((P.row.onRank r.row).gn i)).1 := by
  obtain ⟨p1, p2⟩ := h.piece_at hr hi
  have hi' := (h.mem_rows hr).1 hi
  rw [h.cut_eq hr hi, if_neg hg] at p1
  have h1 : (j + 1) * band / nb + 1 ≤ (P.row.onRank r.row).gn i := by omega
  have := Nat.mul_le_mul_right nb h1
  rw [Nat.add_mul] at this
  have := h.r0_div
  have := h.modr
  omega

omit h hr in
theorem rootCol_on (hP : Ax P.col n nb) (r : Coord2) : rootCol band (P.on r) j = rc P nb band j := by
  unfold rootCol rc c0
  have e1 : (P.on r).col = (P.col.onRank r.col).dist := rfl
  have e2 : (P.col.onRank r.col).dist.global_tile_from_global_element ((j * band : Nat) : Int) =
    P.col.dist.global_tile_from_global_element ((j * band : Nat) : Int) := rfl
  rw [e1, e2, hP.gt]
  rfl

/-- The column of the panel, on the processes that have it. -/
theorem Geo.bc_eq (ho : r.col = rc P nb band j) :
    bc band (P.on r) j = (P.col.onRank r.col).lc ((j * band / nb : Nat) : Int) ∧ 0 ≤ bc band (P.on r) j ∧
    bc band (P.on r) j < (P.col.onRank r.col).dist.localNrTiles ∧ (P.col.onRank r.col).gn (bc band (P.on r) j) = j * band / nb := by
  have a := h.col hr
  have ho' : (P.col.onRank r.col).dist.rank_global_tile ((j * band / nb : Nat) : Int) = (P.col.onRank r.col).rank := ho.symm
  have hlt : ((j * band / nb : Nat) : Int) < (P.col.onRank r.col).dist.nrTiles := by
    have := (a.lt_nt (j * band / nb)).2 (by have := h.c0_div; have := h.hj; omega)
    rw [a.nt]; omega
  have b := a.plain.lc_bounds (t := ((j * band / nb : Nat) : Int)) (Int.natCast_nonneg _) hlt ho'
  have e := a.plain.gl_lc (t := ((j * band / nb : Nat) : Int)) (Int.natCast_nonneg _) ho'
  have g := a.gn_cast b.1
  have eb : bc band (P.on r) j = (P.col.onRank r.col).lc ((j * band / nb : Nat) : Int) := by
    unfold bc View.begin' c0
    have e1 : (P.on r).col = (P.col.onRank r.col).dist := rfl
    rw [e1, a.gt]
    exact (a.plain.lc_nx (Int.natCast_nonneg _) ho').symm
  rw [eb]
  exact ⟨rfl, b.1, b.2, by omega⟩

/-- Other local tile columns do not meet the columns of the panel. -/
theorem Geo.other_col (ho : r.col = rc P nb band j) {l : Int} (h0 : 0 ≤ l) (hl : l ≠ bc band (P.on r) j) {y : Nat}
    (h1 : (P.col.onRank r.col).gn l * nb ≤ y) (h2 : y < (P.col.onRank r.col).gn l * nb + nb) : ¬ (j * band ≤ y ∧ y < j * band + band) := by
  obtain ⟨b1, b2, b3, b4⟩ := h.bc_eq hr ho
  have a := h.col hr
  intro hy
  have hm := h.modc
  have hd := h.c0_div
  refine hl (a.plain.gl_inj h0 b2 ?_)
  rw [← a.gn_cast h0, ← a.gn_cast b2, b4]
  congr 1
  by_contra hne
  rcases Nat.lt_or_gt_of_ne hne with hlt | hgt
  · have := Nat.mul_le_mul_right nb (Nat.succ_le_of_lt hlt)
    rw [Nat.succ_mul] at this
    omega
  · have := Nat.mul_le_mul_right nb (Nat.succ_le_of_lt hgt)
    rw [Nat.succ_mul] at this
    omega

end

/-! ### sums over the processes of a column -/

variable {K : Type*} [RCLike K]

/-- The rows below the head, in the pieces of a process. -/
theorem Geo.tail_sum {r : Coord2} (hr : r ∈ P.ranks) {i : Int} (hi : i ∈ rows band (P.on r) j) {q : Nat} (hq : q < min band (n - band - 1 - j * band))
    (f : Nat → K) :
    ∑ ρ ∈ Finset.range (hgt band (P.on r) j i - first band (P.on r) j q i),
      f ((pc nb n band j ((P.row.onRank r.row).gn i)).1 + (first band (P.on r) j q i + ρ)) =
    ∑ x ∈ Finset.range (pc nb n band j ((P.row.onRank r.row).gn i)).2,
      if (j + 1) * band + q ≤ (pc nb n band j ((P.row.onRank r.row).gn i)).1 + x then f ((pc nb n band j ((P.row.onRank r.row).gn i)).1 + x) else 0 := by
  rw [h.hgt_eq hr hi, h.first_eq hr hi]
  have e0 := h.e0
  by_cases hg : (P.row.onRank r.row).gn i = (j + 1) * band / nb
  · obtain ⟨p1, p2⟩ := h.head_piece hr hi hg
    rw [if_pos hg, p1]
    generalize (pc nb n band j ((P.row.onRank r.row).gn i)).2 = m at *
    have hqm : q ≤ m := by omega
    rw [← Finset.sum_filter, ← Finset.sum_image (s := Finset.range (m - q)) (g := fun ρ => q + ρ) (f := fun x => f ((j + 1) * band + x))
      (fun a _ b _ e => by dsimp only at e; omega)]
    refine Finset.sum_congr (Finset.ext fun x => ?_) fun _ _ => rfl
    simp only [Finset.mem_image, Finset.mem_range, Finset.mem_filter]
    constructor
    · rintro ⟨a, ha, rfl⟩; omega
    · intro hx; exact ⟨x - q, by omega, by omega⟩
  · have := h.tail_piece hr hi hg
    rw [if_neg hg, Nat.sub_zero]
    refine Finset.sum_congr rfl fun x _ => ?_
    rw [if_pos (by omega), Nat.zero_add]

/-- Sums over the rows from the head on. -/
theorem Geo.sum_ranks {q : Nat} (hq : q < min band (n - band - 1 - j * band)) (f : Nat → K) {U : Int → K}
    (hU : ∀ t, 0 ≤ t → t < P.row.grid → U t = ∑ i ∈ (View.tiles (P.row.onRank t).dist (((j + 1) * band : Nat) : Int)).toFinset,
      ∑ x ∈ Finset.range (pc nb n band j ((P.row.onRank t).gn i)).2,
        if (j + 1) * band + q ≤ (pc nb n band j ((P.row.onRank t).gn i)).1 + x then f ((pc nb n band j ((P.row.onRank t).gn i)).1 + x) else 0) :
    ((irange 0 P.row.grid).map U).sum = ∑ x ∈ Finset.Ico ((j + 1) * band + q) n, f x := by
  have e0 := h.e0
  have e1 : (irange 0 P.row.grid).map U = (irange 0 P.row.grid).map fun t =>
      ∑ i ∈ (View.tiles (P.row.onRank t).dist (((j + 1) * band : Nat) : Int)).toFinset, (fun m => ∑ x ∈ Finset.range (pc nb n band j m).2,
        if (j + 1) * band + q ≤ (pc nb n band j m).1 + x then f ((pc nb n band j m).1 + x) else 0) ((P.row.onRank t).gn i) :=
    List.map_congr_left fun t ht => by rw [mem_irange] at ht; exact hU t ht.1 ht.2
  rw [e1]
  refine (h.a1.sum_ranks ((j + 1) * band) (fun m => ∑ x ∈ Finset.range (pc nb n band j m).2,
        if (j + 1) * band + q ≤ (pc nb n band j m).1 + x then f ((pc nb n band j m).1 + x) else 0)).trans ?_
  unfold pc
  rw [sum_pieces h.nbp h.r0n (fun x => if (j + 1) * band + q ≤ x then f x else 0), ← Finset.sum_filter]
  refine Finset.sum_congr (Finset.ext fun x => ?_) fun _ _ => rfl
  simp only [Finset.mem_filter, Finset.mem_Ico]
  omega

/-- The process with the head. -/
theorem Geo.sum_head (v : K) {U : Int → K}
    (hU : ∀ t, 0 ≤ t → t < P.row.grid → U t = if P.row.dist.rank_global_tile (((j + 1) * band / nb : Nat) : Int) = t then v else 0) :
    ((irange 0 P.row.grid).map U).sum = v := by
  have a := h.a1
  have hlt : (j + 1) * band / nb < (n + nb - 1) / nb := (a.lt_nt _).2 (by have := h.r0_div; have := h.r0n; omega)
  have e1 : (irange 0 P.row.grid).map U = (irange 0 P.row.grid).map fun t =>
      ∑ i ∈ (View.tiles (P.row.onRank t).dist (((j + 1) * band : Nat) : Int)).toFinset,
        (fun m => if m = (j + 1) * band / nb then v else 0) ((P.row.onRank t).gn i) := by
    refine List.map_congr_left fun t ht => ?_
    rw [mem_irange] at ht
    have at' : Ax (P.row.onRank t) n nb := a.onRank ht.1 ht.2
    rw [hU t ht.1 ht.2]
    refine Eq.symm ((at'.sum_view ((j + 1) * band) (fun m => if m = (j + 1) * band / nb then v else 0)).trans ?_)
    rw [Finset.sum_ite_eq']
    refine Eq.symm ?_
    refine if_congr ?_ rfl rfl
    rw [Finset.mem_filter, Finset.mem_Ico]
    constructor
    · intro e; exact ⟨⟨Nat.le_refl _, hlt⟩, e⟩
    · intro e; exact e.2
  rw [e1]
  refine (a.sum_ranks ((j + 1) * band) (fun m => if m = (j + 1) * band / nb then v else 0)).trans ?_
  rw [Finset.sum_ite_eq', if_pos (Finset.mem_Ico.2 ⟨Nat.le_refl _, hlt⟩)]

end
end DistRed
end DLAF
