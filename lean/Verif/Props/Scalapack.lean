import Verif.Props.Layout
/- C12: matrices on a user's column-major buffer use the ScaLAPACK block-cyclic layout. -/
namespace DLAF

/-- The parameters the C API passes to the distribution for one coordinate: `make_layout`,
src/c_api/utils.cpp:37-51 (size, block = tile, grid size and rank of the grid, source rank of the
descriptor, no offset). -/
def capiParams (n nb np iproc isrc : Nat) : Params :=
  { size := n, block := nb, tile := nb, grid := np, rank := iproc, src := isrc, offset := 0 }

theorem capiParams_valid {n nb np iproc isrc : Nat} (hnb : 0 < nb) (h1 : iproc < np) (h2 : isrc < np) :
    (capiParams n nb np iproc isrc).Valid := by
  unfold Params.Valid capiParams
  simp only
  refine ⟨by omega, by omega, by omega, by simp, by omega, ⟨by omega, by omega⟩, ⟨by omega, by omega⟩,
    by omega⟩

variable {n nb np iproc isrc : Nat}

/-- C12: the owner of a global index is the ScaLAPACK owner (for any tile size dividing the block). -/
theorem C12_owner {p : Params} (hp : p.Valid) (ho : p.offset = 0) {nb np isrc i : Nat}
    (h1 : p.block = nb) (h2 : p.grid = np) (h3 : p.src = isrc) :
    p.dist.rank_global_element i = indxg2p i nb isrc np := by
  rw [hp.owner_eq (by omega)]
  unfold Params.owner indxg2p
  rw [ho, h1, h2, h3]
  push_cast
  rw [Int.zero_add, Int.add_comm]

/-- C12: the local index of a global index, on its owner, is the ScaLAPACK local index. -/
theorem C12_local_index {p : Params} (hp : p.Valid) (ho : p.offset = 0) {nb np isrc i : Nat}
    (h1 : p.block = nb) (h2 : p.grid = np) (h3 : p.src = isrc)
    (hr : p.rank = indxg2p i nb isrc np) :
    p.dist.local_element_from_global_element i = indxg2l i nb np := by
  have w := hp.wf
  have hO : p.dist.offset = 0 := by rw [hp.offset_eq, ho]; simp
  have hS : p.dist.src = p.src := by
    rw [hp.src_eq, ho]
    have := hp.2.2.2.2.2.2.1
    simp [Int.emod_eq_of_lt this.1 this.2]
  rw [w.local_elem (by omega)]
  unfold util.local_tile_from_global_tile
  have hown : p.dist.rank = util.rank_global_tile i p.dist.blockSize p.dist.grid p.dist.src p.dist.offset := by
    rw [← w.rank_elem (by omega), C12_owner hp ho h1 h2 h3]
    exact hr
  rw [if_pos hown, hO]
  have hbp : 0 < p.block := hp.2.1
  have hgp : 0 < p.grid := hp.2.2.2.2.1
  show cdiv (cdiv (i + 0) p.block) p.grid * p.block + cmod (i + 0) p.block - (if _ then 0 else 0) = _
  rw [h1, h2]
  simp only [Int.add_zero, ite_self, Int.sub_zero]
  unfold indxg2l cdiv cmod
  push_cast
  rw [Int.tdiv_eq_ediv_of_nonneg (a := (i : Int)) (by omega),
    Int.tdiv_eq_ediv_of_nonneg (Int.ediv_nonneg (by omega) (by omega)),
    Int.tmod_eq_emod_of_nonneg (by omega), Int.ediv_ediv_of_nonneg (by omega), Int.mul_comm]

/-- C12: the local size is NUMROC. -/
theorem C12_numroc {p : Params} (hp : p.Valid) (ho : p.offset = 0) {n nb np iproc isrc : Nat}
    (h0 : p.size = n) (h1 : p.block = nb) (h2 : p.grid = np) (h3 : p.src = isrc) (h4 : p.rank = iproc) :
    p.dist.localSize = numroc n nb iproc isrc np := by
  have w := hp.wf
  have hO : p.dist.offset = 0 := by rw [hp.offset_eq, ho]; simp
  have hS : p.dist.src = p.src := by
    rw [hp.src_eq, ho]
    have := hp.2.2.2.2.2.2.1
    simp [Int.emod_eq_of_lt this.1 this.2]
  have hsl := hp.2.2.2.2.2.2.1
  have hrl := hp.2.2.2.2.2.1
  rw [w.localSize_next]
  unfold util.next_local_tile_from_global_tile
  rw [hO, hS]
  simp only [show p.dist.rank = p.rank from rfl, show p.dist.grid = p.grid from rfl,
    show p.dist.blockSize = p.block from rfl, show p.dist.size = p.size from rfl,
    h0, h1, h2, h3, h4, Int.add_zero, ite_self, Int.sub_zero]
  rw [h2, h4] at hrl
  rw [h2, h3] at hsl
  unfold cdiv cmod
  rw [show ((iproc : Int) + np - isrc) = ((np + iproc - isrc : Nat) : Int) by omega]
  simp only [← Int.ofNat_tdiv, ← Int.ofNat_tmod]
  unfold numroc
  simp only
  norm_cast
  split_ifs <;> first | omega | (push_cast; ring_nf) | skip
  all_goals first | rfl | (push_cast; ring)

/-- C12: global element (i, j) of a matrix on a user's buffer is at the ScaLAPACK position of the
ScaLAPACK owner's buffer. -/
theorem C12_address {p q : Params} (hp : p.Valid) (hq : q.Valid) (hpo : p.offset = 0)
    (hqo : q.offset = 0) {mb nb npr npc rsrc csrc : Nat}
    (hp1 : p.block = mb) (hp2 : p.grid = npr) (hp3 : p.src = rsrc)
    (hq1 : q.block = nb) (hq2 : q.grid = npc) (hq3 : q.src = csrc)
    {ld : Int} (hld : 1 ≤ ld) {m : MatrixMem} (hm : setUpPreallocated (dist2 p q) ld = some m)
    {i j : Nat} (hi : (i : Int) < p.size) (hj : (j : Int) < q.size)
    (hri : p.rank = indxg2p i mb rsrc npr) (hrj : q.rank = indxg2p j nb csrc npc) :
    m.elemAddr (dist2 p q) (p.dist.local_element_from_global_element i)
        (q.dist.local_element_from_global_element j) =
      some (.whole, indxg2l i mb npr + indxg2l j nb npc * ld) := by
  have li := C12_local_index hp hpo hp1 hp2 hp3 hri
  have lj := C12_local_index hq hqo hq1 hq2 hq3 hrj
  have hin : ∀ {p : Params} (hp : p.Valid) {i : Nat} (_ : (i : Int) < p.size)
      (_ : p.rank = p.dist.rank_global_element i),
      p.dist.local_element_from_global_element i < p.dist.localSize := by
    intro p hp i hi hr
    have w := hp.wf
    rw [w.local_elem (by omega), w.localSize_next]
    exact w.cycE.local_lt (by omega) hi (by rw [← w.rank_elem (by omega)]; exact hr)
  have h1 := hin hp hi (by rw [C12_owner hp hpo hp1 hp2 hp3]; exact hri)
  have h2 := hin hq hj (by rw [C12_owner hq hqo hq1 hq2 hq3]; exact hrj)
  have := (colMajor_addr hp hq hld hm
    (i := p.dist.local_element_from_global_element i)
    (j := q.dist.local_element_from_global_element j)
    ⟨⟨by rw [li]; omega, h1⟩, ⟨by rw [lj]; omega, h2⟩⟩).1
  rw [this, li, lj, Int.mul_comm]

/-- C12 instance: what the C API builds, in the terms of the ScaLAPACK descriptor. -/
theorem C12_capi_address {m n mb nb npr npc myrow mycol rsrc csrc : Nat} (hmb : 0 < mb) (hnb : 0 < nb)
    (h1 : myrow < npr) (h2 : rsrc < npr) (h3 : mycol < npc) (h4 : csrc < npc) {lld : Nat}
    (hld : max 1 (numroc m mb myrow rsrc npr) ≤ lld) :
    ∃ mem, setUpPreallocated (dist2 (capiParams m mb npr myrow rsrc) (capiParams n nb npc mycol csrc)) lld
        = some mem ∧
      ∀ i j : Nat, i < m → j < n → myrow = indxg2p i mb rsrc npr → mycol = indxg2p j nb csrc npc →
        mem.elemAddr (dist2 (capiParams m mb npr myrow rsrc) (capiParams n nb npc mycol csrc))
          ((capiParams m mb npr myrow rsrc).dist.local_element_from_global_element i)
          ((capiParams n nb npc mycol csrc).dist.local_element_from_global_element j) =
        some (ChunkId.whole, (indxg2l i mb npr + indxg2l j nb npc * lld : Int)) := by
  have v1 := capiParams_valid (n := m) hmb h1 h2
  have v2 := capiParams_valid (n := n) hnb h3 h4
  have hs := C12_numroc v1 rfl (n := m) (nb := mb) (np := npr) (iproc := myrow) (isrc := rsrc)
    rfl rfl rfl rfl rfl
  obtain ⟨mem, hm⟩ := colMajor_accepts v1 v2 (by simp [capiParams]) (by simp [capiParams]) (ld := lld)
    (by rw [hs]; omega)
  refine ⟨mem, hm, ?_⟩
  intro i j hi hj hr hc
  exact C12_address v1 v2 rfl rfl rfl rfl rfl rfl rfl rfl (by omega) hm (by simp [capiParams, hi])
    (by simp [capiParams, hj]) (by simp [capiParams, ← hr]) (by simp [capiParams, ← hc])

example : numroc 13 3 1 2 3 = 3 ∧ indxg2p 7 3 2 3 = 1 ∧ indxg2l 7 3 3 = 1 ∧ numroc 13 3 2 2 3 = 6 := by
  decide

end DLAF
