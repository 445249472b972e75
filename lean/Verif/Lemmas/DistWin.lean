import Verif.Lemmas.DistElem
/- Views of a distributed matrix: the local pieces of the rows from an element on. -/
namespace DLAF

/-- The piece of tile `i`, in the view from element `off` on. -/
def pieceOf (nb n off i : Nat) : Nat × Nat :=
  (i * nb + (if i = off / nb then off % nb else 0), min nb (n - i * nb) - (if i = off / nb then off % nb else 0))

theorem pieces_eq (nb n off : Nat) : pieces nb n off = (upto (off / nb) ((n + nb - 1) / nb)).map (pieceOf nb n off) := rfl

/-- A distribution of `n` elements in tiles of `nb`. -/
structure Ax (p : Params) (n nb : Nat) : Prop where
  plain : Plain p
  size : p.size = n
  tile : p.tile = nb

/-- The global index of a local tile, as a natural number. -/
def Params.gn (p : Params) (i : Int) : Nat := (p.gl i).toNat

section
variable {p : Params} {n nb : Nat} (h : Ax p n nb)
include h

theorem Ax.nb_pos : 0 < nb := by have := h.plain.tile_pos; have := h.tile; omega

theorem Ax.gt (e : Nat) : p.dist.global_tile_from_global_element e = ((e / nb : Nat) : Int) := by
  rw [h.plain.valid.tileOf_eq (by omega), h.plain.tileOf, h.tile, Int.natCast_ediv]

theorem Ax.te (e : Nat) : p.dist.tile_element_from_global_element e = ((e % nb : Nat) : Int) := by
  have hp := h.nb_pos
  have hdm := Nat.div_add_mod e nb
  have hml := Nat.mod_lt e hp
  unfold Dist1.tile_element_from_global_element
  rw [h.plain.geo, tile_element_eq (t := ((e / nb : Nat) : Int)) (re := ((e % nb : Nat) : Int))]
  · simp
  · have : p.dist.tileSize = p.tile := rfl
    have := h.tile; omega
  · exact Int.natCast_nonneg _
  · exact Int.natCast_nonneg _
  · have : p.dist.tileSize = p.tile := rfl
    have := h.tile; omega
  · have : p.dist.tileSize = p.tile := rfl
    rw [this, h.tile, Int.add_zero, Int.mul_comm]
    exact_mod_cast hdm.symm

theorem Ax.cm (e : Nat) : cmod (e : Int) p.dist.tileSize = ((e % nb : Nat) : Int) := by
  have e1 : p.dist.tileSize = nb := h.tile
  rw [e1]
  show Int.tmod _ _ = _
  rw [Int.tmod_eq_emod_of_nonneg (by omega), Int.natCast_emod]

theorem Ax.nt : p.dist.nrTiles = (((n + nb - 1) / nb : Nat) : Int) := by
  have hp := h.nb_pos
  have h0 := h.plain.nrTiles_nonneg
  have key : ∀ t : Nat, (t : Int) < p.dist.nrTiles ↔ t < (n + nb - 1) / nb := by
    intro t
    rw [h.plain.lt_nrTiles (by omega), h.tile, h.size, Nat.lt_iff_add_one_le, Nat.le_div_iff_mul_le hp, Nat.add_mul]
    have : (t : Int) * nb < n ↔ t * nb < n := by exact_mod_cast Iff.rfl
    rw [this]; omega
  have a := key p.dist.nrTiles.toNat
  have b := key ((n + nb - 1) / nb)
  omega

theorem Ax.lt_nt (t : Nat) : t < (n + nb - 1) / nb ↔ t * nb < n := by
  have hp := h.nb_pos
  rw [Nat.lt_iff_add_one_le, Nat.le_div_iff_mul_le hp, Nat.add_mul]
  omega

theorem Ax.gn_cast {i : Int} (hi : 0 ≤ i) : ((p.gn i : Nat) : Int) = p.gl i := by
  have := h.plain.gl_nonneg hi
  unfold Params.gn
  omega

theorem Ax.gn_lt {i : Int} (hi : 0 ≤ i) (hl : i < p.dist.localNrTiles) : p.gn i * nb < n := by
  rw [← h.lt_nt]
  have a := h.plain.gl_lt hi hl
  have b := h.gn_cast hi
  have c := h.nt
  omega

theorem Ax.sz {i : Int} (hi : 0 ≤ i) (hl : i < p.dist.localNrTiles) :
    p.dist.global_tile_size_of (p.gl i) = ((min nb (n - p.gn i * nb) : Nat) : Int) := by
  have a := h.gn_lt hi hl
  rw [h.plain.tsz, h.size, h.tile, ← h.gn_cast hi]
  have : ((p.gn i : Nat) : Int) * (nb : Int) = ((p.gn i * nb : Nat) : Int) := by push_cast; rfl
  rw [this]
  omega

/-- The local tiles of a view. -/
theorem Ax.mem_view {off : Nat} {i : Int} : i ∈ View.tiles p.dist off ↔ 0 ≤ i ∧ i < p.dist.localNrTiles ∧ off / nb ≤ p.gn i := by
  unfold View.tiles View.begin'
  rw [h.gt, mem_irange]
  have h0 := h.plain.nx_nonneg (s := ((off / nb : Nat) : Int)) (Int.natCast_nonneg _)
  constructor
  · rintro ⟨a, b⟩
    have h1 : 0 ≤ i := by
      have : p.nx ((off / nb : Nat) : Int) ≤ i := a
      omega
    refine ⟨h1, b, ?_⟩
    by_contra hc
    have := (h.plain.lt_nx h1 (s := ((off / nb : Nat) : Int)) (Int.natCast_nonneg _)).2 (by rw [← h.gn_cast h1]; omega)
    have : p.nx ((off / nb : Nat) : Int) ≤ i := a
    omega
  · rintro ⟨a, b, c⟩
    refine ⟨?_, b⟩
    by_contra hc
    have h2 : i < p.nx ((off / nb : Nat) : Int) := by
      have : ¬ p.nx ((off / nb : Nat) : Int) ≤ i := hc
      omega
    have := (h.plain.lt_nx a (s := ((off / nb : Nat) : Int)) (Int.natCast_nonneg _)).1 h2
    rw [← h.gn_cast a] at this
    omega

omit h in
theorem view_nodup (d : Dist1) (off : Int) : (View.tiles d off).Nodup := irange_nodup _ _

theorem Ax.hasTop {off : Nat} : View.hasTop p.dist off = true ↔ p.dist.rank_global_tile ((off / nb : Nat) : Int) = p.rank := by
  unfold View.hasTop
  rw [h.gt, decide_eq_true_iff]
  exact Iff.rfl

theorem Ax.panelCut {off : Nat} {i : Int} (hi : 0 ≤ i) :
    View.panelCut p.dist off i = ((if p.gn i = off / nb then off % nb else 0 : Nat) : Int) := by
  unfold View.panelCut
  rw [h.cm]
  have hb : View.begin' p.dist off = p.nx ((off / nb : Nat) : Int) := by unfold View.begin'; rw [h.gt]
  rw [hb]
  have key : (p.dist.rank_global_tile ((off / nb : Nat) : Int) = p.rank ∧ i = p.nx ((off / nb : Nat) : Int)) ↔ p.gn i = off / nb := by
    constructor
    · rintro ⟨a, b⟩
      rw [← h.plain.lc_nx (Int.natCast_nonneg _) a] at b
      have := h.plain.gl_lc (t := ((off / nb : Nat) : Int)) (Int.natCast_nonneg _) a
      rw [← b, ← h.gn_cast hi] at this
      omega
    · intro a
      have e : p.gl i = ((off / nb : Nat) : Int) := by rw [← h.gn_cast hi, a]
      have b := h.plain.gl_own hi
      rw [e] at b
      refine ⟨b, ?_⟩
      rw [← h.plain.lc_nx (Int.natCast_nonneg _) b, ← e, h.plain.lc_gl hi]
  by_cases hc : p.gn i = off / nb
  · rw [if_pos ⟨h.hasTop.2 (key.2 hc).1, (key.2 hc).2⟩, if_pos hc]
  · rw [if_neg (fun hh => hc (key.1 ⟨h.hasTop.1 hh.1, hh.2⟩)), if_neg hc]; rfl

theorem Ax.matrixCut {off : Nat} {i : Int} {has : Bool} (hi : 0 ≤ i) (hh : p.gn i = off / nb → off % nb ≠ 0 → has = true) :
    View.matrixCut p.dist off has i = ((if p.gn i = off / nb then off % nb else 0 : Nat) : Int) := by
  unfold View.matrixCut
  rw [h.gt, h.te]
  have e := h.gn_cast hi
  by_cases hc : p.gn i = off / nb
  · rw [if_pos hc]
    by_cases h0 : off % nb = 0
    · rw [h0]; split <;> rfl
    · rw [if_pos]
      refine ⟨hh hc h0, ?_⟩
      show p.gl i = _
      omega
  · rw [if_neg hc, if_neg]
    · rfl
    · rintro ⟨_, a⟩
      have : p.gl i = ((off / nb : Nat) : Int) := a
      omega

/-- Sums over the local tiles of a view. -/
theorem Ax.sum_view {K : Type*} [AddCommMonoid K] (off : Nat) (f : Nat → K) :
    ∑ i ∈ (View.tiles p.dist off).toFinset, f (p.gn i) =
      ∑ t ∈ (Finset.Ico (off / nb) ((n + nb - 1) / nb)).filter (fun t : Nat => p.dist.rank_global_tile t = p.rank), f t := by
  refine Finset.sum_bij (fun i _ => p.gn i) ?_ ?_ ?_ ?_
  · intro i hi
    rw [List.mem_toFinset, h.mem_view] at hi
    rw [Finset.mem_filter, Finset.mem_Ico, h.lt_nt]
    refine ⟨⟨hi.2.2, h.gn_lt hi.1 hi.2.1⟩, ?_⟩
    rw [h.gn_cast hi.1]
    exact h.plain.gl_own hi.1
  · intro i hi j hj e
    rw [List.mem_toFinset, h.mem_view] at hi hj
    refine h.plain.gl_inj hi.1 hj.1 ?_
    rw [← h.gn_cast hi.1, ← h.gn_cast hj.1, e]
  · intro t ht
    rw [Finset.mem_filter, Finset.mem_Ico] at ht
    have a := h.plain.lc_bounds (t := (t : Int)) (by omega) (by rw [h.nt]; omega) ht.2
    have b := h.plain.gl_lc (t := (t : Int)) (by omega) ht.2
    have c := h.gn_cast a.1
    refine ⟨p.lc t, ?_, by omega⟩
    rw [List.mem_toFinset, h.mem_view]
    exact ⟨a.1, a.2, by omega⟩
  · intro i _; rfl

end

/-- Sums over all processes of the sums over their tiles of a view. -/
theorem Ax.sum_ranks {K : Type*} [Field K] [StarRing K] {p : Params} {n nb : Nat} (h : Ax p n nb) (off : Nat) (f : Nat → K) :
    ((irange 0 p.grid).map fun q => ∑ i ∈ (View.tiles (p.onRank q).dist off).toFinset, f ((p.onRank q).gn i)).sum =
      ∑ t ∈ Finset.Ico (off / nb) ((n + nb - 1) / nb), f t := by
  rw [← sum_owners h.plain]
  congr 1
  refine List.map_congr_left fun q hq => ?_
  rw [mem_irange] at hq
  have hq' : Ax (p.onRank q) n nb := ⟨h.plain.onRank hq.1 hq.2, h.size, h.tile⟩
  rw [hq'.sum_view]
  rfl

/-- Sums over the pieces of the rows from `off` on. -/
theorem sum_pieces {K : Type*} [AddCommMonoid K] {nb n off : Nat} (hb : 0 < nb) (ho : off < n) (f : Nat → K) :
    ∑ t ∈ Finset.Ico (off / nb) ((n + nb - 1) / nb), ∑ x ∈ Finset.range (pieceOf nb n off t).2, f ((pieceOf nb n off t).1 + x) =
      ∑ x ∈ Finset.Ico off n, f x := by
  rw [← (pieces_chain hb ho).sum f, pieces_eq, List.map_map]
  have e1 : ((fun p : Nat × Nat => ∑ r ∈ Finset.range p.2, f (p.1 + r)) ∘ pieceOf nb n off) =
      fun t => ∑ x ∈ Finset.range (pieceOf nb n off t).2, f ((pieceOf nb n off t).1 + x) := rfl
  rw [e1]
  generalize (fun t => ∑ x ∈ Finset.range (pieceOf nb n off t).2, f ((pieceOf nb n off t).1 + x)) = g
  generalize (n + nb - 1) / nb = e
  unfold upto
  rw [List.range'_eq_map_range, List.map_map, Finset.sum_Ico_eq_sum_range]
  generalize e - off / nb = m
  induction m with
  | zero => rfl
  | succ m ih => rw [Finset.sum_range_succ, ih, List.range_succ, List.map_append, List.sum_append]; simp

end DLAF
