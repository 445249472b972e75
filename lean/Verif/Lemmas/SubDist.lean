import Verif.Lemmas.Dist2
namespace DLAF
variable {p : Params}

theorem Params.Valid.sub (hp : p.Valid) {o n : Int} (ho : 0 ≤ o) (hn : 0 ≤ n) : (p.sub o n).Valid := by
  obtain ⟨h1, h2, h3, h4, h5, h6, h7, h8⟩ := hp
  exact ⟨hn, h2, h3, h4, h5, h6, h7, by show 0 ≤ p.offset + o; omega⟩

theorem Params.Valid.subBuild_eq (hp : p.Valid) {o n : Int} (ho : 0 ≤ o) (hn : 0 ≤ n) :
    p.dist.subBuild o n = (p.sub o n).dist := by
  have w := hp.wf
  have hv := hp.sub ho hn
  have hb : 0 < p.block := hp.2.1
  have hg : 0 < p.grid := hp.2.2.2.2.1
  have h0 := hp.2.2.2.2.2.2.2
  have hs0 := hp.2.2.2.2.2.2.1.1
  have e1 : cmod (p.dist.offset + o) p.block = cmod (p.offset + o) p.block := by
    unfold cmod
    rw [Int.tmod_eq_emod_of_nonneg (by have := w.offset_nonneg; omega),
      Int.tmod_eq_emod_of_nonneg (by omega), hp.offset_eq, Int.emod_add_emod]
  have e2 : cmod (p.dist.src + cdiv (p.dist.offset + o) p.block) p.grid =
      cmod (p.src + cdiv (p.offset + o) p.block) p.grid := by
    unfold cmod cdiv
    have q1 : 0 ≤ p.dist.offset + o := by have := w.offset_nonneg; omega
    rw [Int.tdiv_eq_ediv_of_nonneg q1, Int.tdiv_eq_ediv_of_nonneg (by omega)]
    have d1 := Int.ediv_nonneg q1 (Int.le_of_lt hb)
    have d2 := Int.ediv_nonneg (show 0 ≤ p.offset + o by omega) (Int.le_of_lt hb)
    have := w.src_nonneg
    rw [Int.tmod_eq_emod_of_nonneg (by omega), Int.tmod_eq_emod_of_nonneg (by omega), hp.src_eq,
      hp.offset_eq, Int.emod_add_emod]
    have : (p.offset + o) / p.block = (p.offset % p.block + o) / p.block + p.offset / p.block := by
      have : p.offset + o = (p.offset % p.block + o) + p.block * (p.offset / p.block) := by
        have := Int.mul_ediv_add_emod p.offset p.block; omega
      rw [this, Int.add_mul_ediv_left _ _ (by omega)]
    rw [this]
    congr 1; ring
  -- the two normalised states agree except on members that are recomputed
  have hn1 : Dist1.compute_global_nr_tiles (Dist1.normalize { p.dist with offset := p.dist.offset + o, size := n }) =
    { offset := cmod (p.offset + o) p.block, size := n, localSize := p.dist.localSize,
      nrTiles := (p.sub o n).dist.nrTiles, localNrTiles := p.dist.localNrTiles,
      blockSize := p.block, tileSize := p.tile, rank := p.rank, grid := p.grid,
      src := cmod (p.src + cdiv (p.offset + o) p.block) p.grid } := by
    rw [← e1, ← e2]
    unfold Dist1.compute_global_nr_tiles Dist1.normalize
    congr 1
    show (if n > 0 then ceilDiv (n + cmod (cmod (p.dist.offset + o) p.block) p.tile) p.tile else 0) =
      (if n > 0 then ceilDiv (n + cmod (cmod (p.offset + o) p.block) p.tile) p.tile else 0)
    rw [e1]
  unfold Dist1.subBuild
  rw [hn1]
  rfl

end DLAF
