import Verif.Spec.Layout
import Verif.Lemmas.Layout
/- C11, C12, C13: memory layouts, ScaLAPACK addressing, sub-tiles. -/
namespace DLAF

/-! ### C11 -/

theorem elemAddr_eq {p q : Params} (hp : p.Valid) (hq : q.Valid) {m : MatrixMem} {α : Type}
    {f : α → Option Tile} {l : List α} (hm : mapOpt f l = some m.tiles)
    (hl : ∀ i j : Int, 0 ≤ i → i < p.dist.localNrTiles → 0 ≤ j → j < q.dist.localNrTiles →
      ∃ a, l[(tile_linear_index (dist2 p q) i j).toNat]? = some a)
    {i j : Int} (h : (dist2 p q).LocalElem i j) :
    ∃ ti tj ei ej a t, 0 ≤ ti ∧ ti < p.dist.localNrTiles ∧ 0 ≤ tj ∧ tj < q.dist.localNrTiles ∧
      0 ≤ ei ∧ ei < p.dist.local_tile_size_of ti ∧ 0 ≤ ej ∧ ej < q.dist.local_tile_size_of tj ∧
      i = p.dist.E ti + ei ∧ j = q.dist.E tj + ej ∧
      l[(tile_linear_index (dist2 p q) ti tj).toNat]? = some a ∧ f a = some t ∧
      m.elemAddr (dist2 p q) i j = some (t.addr ei ej) := by
  obtain ⟨⟨h1, h2⟩, h3, h4⟩ := h
  obtain ⟨ti, ei, e1, e2, a1, a2, a3, a4, a5⟩ := hp.local_split h1 h2
  obtain ⟨tj, ej, f1, f2, b1, b2, b3, b4, b5⟩ := hq.local_split h3 h4
  obtain ⟨a, ha⟩ := hl ti tj a1 a2 b1 b2
  have hk := mapOpt_getElem? hm (tile_linear_index (dist2 p q) ti tj).toNat
  rw [ha, Option.bind_some] at hk
  have hlen := mapOpt_length hm
  have hlt : (tile_linear_index (dist2 p q) ti tj).toNat < m.tiles.length := by
    rw [hlen]; exact (List.getElem?_eq_some_iff.1 ha).1
  rw [List.getElem?_eq_getElem hlt] at hk
  refine ⟨ti, tj, ei, ej, a, m.tiles[(tile_linear_index (dist2 p q) ti tj).toNat], a1, a2, b1, b2, a3,
    a4, b3, b4, a5, b5, ha, hk.symm, ?_⟩
  unfold MatrixMem.elemAddr
  simp only [show (dist2 p q).row = p.dist from rfl, show (dist2 p q).col = q.dist from rfl, e1, e2, f1,
    f2]
  rw [List.getElem?_eq_getElem hlt]
  rfl

/-- A pair (x, y) with `x < ld` is determined by `x + ld * y`. -/
theorem lin_inj {ld x y x' y' : Int} (h0 : 0 ≤ x) (h1 : x < ld) (h0' : 0 ≤ x') (h1' : x' < ld)
    (h : x + ld * y = x' + ld * y') : x = x' ∧ y = y' := by
  have hy : y = y' := by
    rcases Int.lt_trichotomy y y' with hlt | he | hlt
    · have := Int.mul_le_mul_of_nonneg_left (show y + 1 ≤ y' by omega) (show 0 ≤ ld by omega)
      have e : ld * (y + 1) = ld * y + ld := by ring
      omega
    · exact he
    · have := Int.mul_le_mul_of_nonneg_left (show y' + 1 ≤ y by omega) (show 0 ≤ ld by omega)
      have e : ld * (y' + 1) = ld * y' + ld := by ring
      omega
  subst hy
  exact ⟨by omega, rfl⟩

theorem lin_lt {ld x y n : Int} (h0 : 0 ≤ x) (h1 : x < ld) (hy : 0 ≤ y) (hyn : y < n) :
    0 ≤ x + ld * y ∧ x + ld * y < ld * n := by
  have := Int.mul_le_mul_of_nonneg_left (show y + 1 ≤ n by omega) (show 0 ≤ ld by omega)
  have e : ld * (y + 1) = ld * y + ld := by ring
  have := Int.mul_nonneg (show 0 ≤ ld by omega) hy
  omega

theorem MemView.sub_eq {v w : MemView} {o s : Int} (h : v.sub o s = some w) (hs : 0 < s) :
    w.chunk = v.chunk ∧ w.offset = o + v.offset := by
  unfold MemView.sub at h
  split at h
  · simp only [Option.some.injEq] at h
    subst h
    simp [hs]
  · simp at h

theorem Tile.create_eq {r c ld : Int} {v : MemView} {t : Tile} (h : Tile.create r c v ld = some t) :
    t = ⟨r, c, v, ld⟩ := by
  unfold Tile.create at h
  split at h
  · simpa using h.symm
  · simp at h

theorem Tile.create_accept {r c ld : Int} {v : MemView} (hr : 1 ≤ r) (hc : 1 ≤ c) (hld : r ≤ ld)
    (hv : r + ld * (c - 1) ≤ v.size) : ∃ t, Tile.create r c v ld = some t := by
  unfold Tile.create
  rw [if_pos]
  · exact ⟨_, rfl⟩
  · refine ⟨⟨by omega, by omega⟩, by omega, Or.inr ?_⟩
    unfold Tile.linearSize
    rw [if_neg (by omega)]
    exact hv

theorem min_tile_mem_pos {ld m n : Int} (hm : 1 ≤ m) (hn : 1 ≤ n) (hld : 1 ≤ ld) :
    min_tile_mem_size ld m n = m + ld * (n - 1) ∧ 0 < min_tile_mem_size ld m n := by
  have : min_tile_mem_size ld m n = m + ld * (n - 1) := by
    unfold min_tile_mem_size; rw [if_neg (by omega)]
  have h2 := Int.mul_nonneg (show 0 ≤ ld by omega) (show 0 ≤ n - 1 by omega)
  omega

/-- address of a local element in a column-major buffer -/
theorem colMajor_addr {p q : Params} (hp : p.Valid) (hq : q.Valid) {ld : Int} {m : MatrixMem}
    (hld : 1 ≤ ld) (hm : setUpPreallocated (dist2 p q) ld = some m) {i j : Int}
    (h : (dist2 p q).LocalElem i j) :
    m.elemAddr (dist2 p q) i j = some (.whole, i + ld * j) ∧
    p.dist.localSize ≤ ld ∧ ∀ c, m.chunkSize c = p.dist.localSize + ld * (q.dist.localSize - 1) := by
  unfold setUpPreallocated at hm
  simp only [Option.bind_eq_some_iff, Option.map_eq_some_iff] at hm
  obtain ⟨n, hn, ts, hts, rfl⟩ := hm
  have hne : ¬ (p.dist.localSize = 0 ∨ q.dist.localSize = 0) := by
    obtain ⟨⟨h1, h2⟩, h3, h4⟩ := h
    have h2 : i < p.dist.localSize := h2
    have h4 : j < q.dist.localSize := h4
    omega
  unfold colMajorMinMemSize at hn
  simp only [show (dist2 p q).row = p.dist from rfl, show (dist2 p q).col = q.dist from rfl,
    if_neg hne] at hn
  split at hn
  swap
  · simp at hn
  rename_i hc
  simp only [Option.some.injEq] at hn
  have hsz : min_tile_mem_size ld p.dist.localSize q.dist.localSize =
    p.dist.localSize + ld * (q.dist.localSize - 1) := by
    unfold min_tile_mem_size; rw [if_neg hne]
  refine ⟨?_, hc.1, fun c => by simp only; rw [← hn, hsz]⟩
  obtain ⟨ti, tj, ei, ej, a, t, a1, a2, b1, b2, a3, a4, b3, b4, a5, b5, ha, hf, he⟩ :=
    elemAddr_eq hp hq (m := ⟨ts, fun _ => n⟩) hts
      (fun i j h1 h2 h3 h4 => ⟨_, localTiles_getElem? (dist2 p q) h1 h2 h3 h4⟩) h
  rw [he]
  rw [localTiles_getElem? (dist2 p q) a1 a2 b1 b2] at ha
  simp only [Option.some.injEq] at ha
  subst ha
  unfold colMajorTile at hf
  simp only [Option.bind_eq_some_iff] at hf
  obtain ⟨v, hv, ht⟩ := hf
  simp only [show (dist2 p q).row = p.dist from rfl, show (dist2 p q).col = q.dist from rfl,
    Int.toNat_of_nonneg a1, Int.toNat_of_nonneg b1] at hv ht
  have := MemView.sub_eq hv (min_tile_mem_pos (by omega) (by omega) hld).2
  rw [Tile.create_eq ht]
  simp only [Tile.addr, Tile.linearIndex, this.1, this.2]
  congr 2
  rw [a5, b5]
  unfold Dist1.E
  ring

theorem colMajor_sound {p q : Params} (hp : p.Valid) (hq : q.Valid) {ld : Int} {m : MatrixMem}
    (hld : 1 ≤ ld) (hm : setUpPreallocated (dist2 p q) ld = some m) : MemorySound (dist2 p q) m := by
  constructor
  · intro i j h
    obtain ⟨h1, h2, h3⟩ := colMajor_addr hp hq hld hm h
    refine ⟨_, h1, ?_⟩
    rw [h3]
    obtain ⟨⟨i1, i2⟩, i3, i4⟩ := h
    have i2 : i < p.dist.localSize := i2
    have i4 : j < q.dist.localSize := i4
    have := Int.mul_nonneg (show 0 ≤ ld by omega) i3
    have := Int.mul_le_mul_of_nonneg_left (show j ≤ q.dist.localSize - 1 by omega) (show 0 ≤ ld by omega)
    constructor
    · simp only; omega
    · simp only; omega
  · intro i j i' j' h h' he
    obtain ⟨h1, h2, h3⟩ := colMajor_addr hp hq hld hm h
    obtain ⟨h1', _, _⟩ := colMajor_addr hp hq hld hm h'
    rw [h1, h1'] at he
    simp only [Option.some.injEq, Prod.mk.injEq, true_and] at he
    obtain ⟨⟨i1, i2⟩, i3, i4⟩ := h
    obtain ⟨⟨k1, k2⟩, k3, k4⟩ := h'
    have i2 : i < p.dist.localSize := i2
    have k2 : i' < p.dist.localSize := k2
    exact lin_inj i1 (by omega) k1 (by omega) he

theorem tiles_sound {p q : Params} (hp : p.Valid) (hq : q.Valid) {al : Int} {ld : LdSpec} {m : MatrixMem}
    (hm : setUpTiles (dist2 p q) al ld = some m) : MemorySound (dist2 p q) m := by
  unfold setUpTiles at hm
  simp only [Option.map_eq_some_iff] at hm
  obtain ⟨ts, hts, rfl⟩ := hm
  have key : ∀ i j, (dist2 p q).LocalElem i j → ∃ ti tj ei ej l,
      0 ≤ ti ∧ 0 ≤ tj ∧ 0 ≤ ei ∧ ei < l ∧ 0 ≤ ej ∧ ej < q.dist.local_tile_size_of tj ∧
      i = p.dist.E ti + ei ∧ j = q.dist.E tj + ej ∧
      compute_ld al (p.dist.local_tile_size_of ti) ld = some l ∧
      MatrixMem.elemAddr ⟨ts, fun c => match c with
        | .tile i j => (compute_ld al ((dist2 p q).row.local_tile_size_of i) ld).getD 0
          * (dist2 p q).col.local_tile_size_of j
        | _ => 0⟩ (dist2 p q) i j = some (.tile ti tj, ei + l * ej) := by
    intro i j h
    obtain ⟨ti, tj, ei, ej, a, t, a1, a2, b1, b2, a3, a4, b3, b4, a5, b5, ha, hf, he⟩ :=
      elemAddr_eq hp hq (m := ⟨ts, fun c => match c with
        | .tile i j => (compute_ld al ((dist2 p q).row.local_tile_size_of i) ld).getD 0
          * (dist2 p q).col.local_tile_size_of j
        | _ => 0⟩) hts
        (fun i j h1 h2 h3 h4 => ⟨_, localTiles_getElem? (dist2 p q) h1 h2 h3 h4⟩) h
    rw [localTiles_getElem? (dist2 p q) a1 a2 b1 b2] at ha
    simp only [Option.some.injEq] at ha
    subst ha
    unfold tilesTile at hf
    simp only [Option.bind_eq_some_iff] at hf
    obtain ⟨l, hl, v, hv, ht⟩ := hf
    simp only [show (dist2 p q).row = p.dist from rfl, show (dist2 p q).col = q.dist from rfl,
      Int.toNat_of_nonneg a1, Int.toNat_of_nonneg b1] at hl hv ht
    unfold MemView.alloc at hv
    split at hv
    swap
    · simp at hv
    simp only [Option.some.injEq] at hv
    subst hv
    have hl' := compute_ld_some hl
    refine ⟨ti, tj, ei, ej, l, a1, b1, a3, by omega, b3, b4, a5, b5, hl, ?_⟩
    rw [he, Tile.create_eq ht]
    simp [Tile.addr, Tile.linearIndex]
  constructor
  · intro i j h
    obtain ⟨ti, tj, ei, ej, l, a1, b1, a3, a4, b3, b4, a5, b5, hl, he⟩ := key i j h
    refine ⟨_, he, ?_⟩
    simp only [show (dist2 p q).row = p.dist from rfl, show (dist2 p q).col = q.dist from rfl, hl,
      Option.getD_some]
    exact lin_lt a3 a4 b3 b4
  · intro i j i' j' h h' hee
    obtain ⟨ti, tj, ei, ej, l, a1, b1, a3, a4, b3, b4, a5, b5, hl, he⟩ := key i j h
    obtain ⟨ti', tj', ei', ej', l', a1', b1', a3', a4', b3', b4', a5', b5', hl', he'⟩ := key i' j' h'
    replace hee := he.symm.trans (hee.trans he')
    simp only [Option.some.injEq, Prod.mk.injEq, ChunkId.tile.injEq] at hee
    obtain ⟨⟨rfl, rfl⟩, h3⟩ := hee
    rw [hl] at hl'
    simp only [Option.some.injEq] at hl'
    subst hl'
    obtain ⟨h4, h5⟩ := lin_inj a3 a4 a3' a4' h3
    omega

theorem blocks_sound {p q : Params} (hp : p.Valid) (hq : q.Valid) {al : Int} {ld : LdSpec}
    {m : MatrixMem} (hm : setUpBlocks (dist2 p q) al ld = some m) : MemorySound (dist2 p q) m := by
  by_cases hNp : p.dist.localNrTiles ≤ 0
  · have h0 : p.dist.localSize = 0 := by
      rw [hp.wf.localSize_eq, Dist1.compute_local_size, if_pos (by have := hp.wf.localNrTiles_nonneg; omega)]
    constructor
    · rintro i j ⟨⟨h1, h2⟩, _⟩
      have h2 : i < p.dist.localSize := h2
      omega
    · rintro i j _ _ ⟨⟨h1, h2⟩, _⟩
      have h2 : i < p.dist.localSize := h2
      omega
  by_cases hNq : q.dist.localNrTiles ≤ 0
  · have h0 : q.dist.localSize = 0 := by
      rw [hq.wf.localSize_eq, Dist1.compute_local_size, if_pos (by have := hq.wf.localNrTiles_nonneg; omega)]
    constructor
    · rintro i j ⟨_, h1, h2⟩
      have h2 : j < q.dist.localSize := h2
      omega
    · rintro i j _ _ ⟨_, h1, h2⟩
      have h2 : j < q.dist.localSize := h2
      omega
  obtain ⟨res, hres, lres, ores⟩ := hp.wf.blockEntries (by omega)
  obtain ⟨ces, hces, lces, oces⟩ := hq.wf.blockEntries (by omega)
  unfold setUpBlocks at hm
  split at hm
  swap
  · simp at hm
  simp only [Option.bind_eq_some_iff, Option.map_eq_some_iff] at hm
  obtain ⟨ces', hces', res', hres', ts, hts, rfl⟩ := hm
  rw [show (dist2 p q).row = p.dist from rfl, hres] at hres'
  rw [show (dist2 p q).col = q.dist from rfl, hces] at hces'
  simp only [Option.some.injEq] at hres' hces'
  subst hres' hces'
  have hget : ∀ i j : Int, 0 ≤ i → i < p.dist.localNrTiles → 0 ≤ j → j < q.dist.localNrTiles →
      ∃ ce re, ces[j.toNat]? = some ce ∧ res[i.toNat]? = some re ∧
      (ces.flatMap fun ce => res.map fun re => (ce, re))[(tile_linear_index (dist2 p q) i j).toNat]? =
        some (ce, re) := by
    intro i j h1 h2 h3 h4
    have hi : i.toNat < res.length := by omega
    have hj : j.toNat < ces.length := by omega
    have := grid_getElem? (fun (c r : BlockEntry) => (c, r)) res ces i.toNat j.toNat hi
    have e : (tile_linear_index (dist2 p q) i j).toNat = i.toNat + res.length * j.toNat := by
      unfold tile_linear_index
      rw [show (dist2 p q).row.localNrTiles = (res.length : Int) from lres.symm]
      obtain ⟨a, rfl⟩ := Int.eq_ofNat_of_zero_le h1
      obtain ⟨b, rfl⟩ := Int.eq_ofNat_of_zero_le h3
      have : ((a : Int) + res.length * b) = ((a + res.length * b : Nat) : Int) := by push_cast; ring
      simp only [this, Int.toNat_natCast]
    refine ⟨ces[j.toNat], res[i.toNat], List.getElem?_eq_getElem hj, List.getElem?_eq_getElem hi, ?_⟩
    rw [e, this, List.getElem?_eq_getElem hj, List.getElem?_eq_getElem hi]
    rfl
  have key : ∀ i j, (dist2 p q).LocalElem i j → ∃ bi bj l,
      0 ≤ i - p.dist.Q bi ∧ i - p.dist.Q bi < l ∧ 0 ≤ j - q.dist.Q bj ∧
      j - q.dist.Q bj < q.dist.single_tile_per_block.local_tile_size_of bj ∧
      compute_ld al (p.dist.single_tile_per_block.local_tile_size_of bi) ld = some l ∧
      MatrixMem.elemAddr ⟨ts, fun c => match c with
          | .block jb ib =>
            (compute_ld al ((dist2 p q).row.single_tile_per_block.local_tile_size_of ib) ld).getD 0
              * (dist2 p q).col.single_tile_per_block.local_tile_size_of jb
          | _ => 0⟩ (dist2 p q) i j =
        some (.block bj bi, (i - p.dist.Q bi) + l * (j - q.dist.Q bj)) := by
    intro i j h
    obtain ⟨ti, tj, ei, ej, a, t, a1, a2, b1, b2, a3, a4, b3, b4, a5, b5, ha, hf, he⟩ :=
      elemAddr_eq hp hq (m := ⟨ts, fun c => match c with
          | .block jb ib =>
            (compute_ld al ((dist2 p q).row.single_tile_per_block.local_tile_size_of ib) ld).getD 0
              * (dist2 p q).col.single_tile_per_block.local_tile_size_of jb
          | _ => 0⟩) hts
        (fun i j h1 h2 h3 h4 => by obtain ⟨ce, re, _, _, h⟩ := hget i j h1 h2 h3 h4; exact ⟨_, h⟩) h
    obtain ⟨ce, re, hce, hre, hcr⟩ := hget ti tj a1 a2 b1 b2
    rw [hcr] at ha
    simp only [Option.some.injEq] at ha
    subst ha
    have okr := ores _ _ hre
    have okc := oces _ _ hce
    rw [Int.toNat_of_nonneg a1] at okr
    rw [Int.toNat_of_nonneg b1] at okc
    unfold blockTile at hf
    simp only [Option.bind_eq_some_iff] at hf
    obtain ⟨l, hl, mv, hmv, v, hv, ht⟩ := hf
    unfold MemView.alloc at hmv
    split at hmv
    swap
    · simp at hmv
    simp only [Option.some.injEq] at hmv
    subst hmv
    have hl' := compute_ld_some hl
    have hcs := okc.sz
    have hrs := okr.sz
    have hcf := okc.fits
    have hrf := okr.fits
    have hcel := okc.el
    have hrel := okr.el
    have hcn := okc.el_nonneg
    have hrn := okr.el_nonneg
    have hcb := okc.bsz
    have hrb := okr.bsz
    have hvp : 0 < (ce.sz - 1) * l + re.sz := by
      have := Int.mul_nonneg (show 0 ≤ ce.sz - 1 by omega) (show 0 ≤ l by omega)
      omega
    have hv' := MemView.sub_eq hv hvp
    refine ⟨re.bl, ce.bl, l, by omega, by omega, by omega, by omega, by rw [← hrb]; exact hl, ?_⟩
    rw [he, Tile.create_eq ht]
    simp only [Tile.addr, Tile.linearIndex, hv'.1, hv'.2]
    congr 2
    rw [a5, b5, hcel, hrel]
    ring
  constructor
  · intro i j h
    obtain ⟨bi, bj, l, c1, c2, c3, c4, c5, c6⟩ := key i j h
    refine ⟨_, c6, ?_⟩
    simp only [show (dist2 p q).row = p.dist from rfl, show (dist2 p q).col = q.dist from rfl, c5,
      Option.getD_some]
    exact lin_lt c1 c2 c3 c4
  · intro i j i' j' h h' hee
    obtain ⟨bi, bj, l, c1, c2, c3, c4, c5, c6⟩ := key i j h
    obtain ⟨bi', bj', l', c1', c2', c3', c4', c5', c6'⟩ := key i' j' h'
    replace hee := c6.symm.trans (hee.trans c6')
    simp only [Option.some.injEq, Prod.mk.injEq, ChunkId.block.injEq] at hee
    obtain ⟨⟨rfl, rfl⟩, h3⟩ := hee
    rw [c5] at c5'
    simp only [Option.some.injEq] at c5'
    subst c5'
    obtain ⟨h4, h5⟩ := lin_inj c1 c2 c1' c2' h3
    omega

/-- C11: whenever the constructor accepts (layout, ld), no two local elements share an address and
all addresses are inside the allocation. -/
theorem C11_no_alias {p q : Params} (hp : p.Valid) (hq : q.Valid) (layout : AllocationLayout)
    (alignment : Int) (ld : LdSpec) {m : MatrixMem}
    (hm : setUp layout (dist2 p q) alignment ld = some m) : MemorySound (dist2 p q) m := by
  unfold setUp at hm
  split at hm
  · rename_i h0
    have h0 : p.dist.localSize = 0 ∨ q.dist.localSize = 0 := h0
    constructor
    · rintro i j ⟨⟨h1, h2⟩, h3, h4⟩
      have h2 : i < p.dist.localSize := h2
      have h4 : j < q.dist.localSize := h4
      omega
    · rintro i j _ _ ⟨⟨h1, h2⟩, h3, h4⟩
      have h2 : i < p.dist.localSize := h2
      have h4 : j < q.dist.localSize := h4
      omega
  · cases layout with
    | ColMajor =>
      unfold setUpColMajor at hm
      simp only [Option.bind_eq_some_iff] at hm
      obtain ⟨l, hl, hm⟩ := hm
      exact colMajor_sound hp hq (compute_ld_some hl).1 hm
    | Blocks => exact blocks_sound hp hq hm
    | Tiles => exact tiles_sound hp hq hm

/-- C11 for matrices on a user's buffer: same, the buffer being the documented minimum size. -/
theorem C11_user_buffer {p q : Params} (hp : p.Valid) (hq : q.Valid) {ld : Int} {m : MatrixMem}
    (hld : 1 ≤ ld) (hm : setUpPreallocated (dist2 p q) ld = some m) :
    MemorySound (dist2 p q) m := colMajor_sound hp hq hld hm

/-! Acceptance: the layouts are available for all the documented cases. -/

theorem colMajor_accepts {p q : Params} (hp : p.Valid) (hq : q.Valid) (hpo : p.offset % p.block = 0)
    (hqo : q.offset % q.block = 0) {ld : Int} (hld : max 1 p.dist.localSize ≤ ld) :
    ∃ m, setUpPreallocated (dist2 p q) ld = some m := by
  have hpn := hp.wf.localSize_nonneg
  have hqn := hq.wf.localSize_nonneg
  have hmin : colMajorMinMemSize (dist2 p q) ld =
      some (min_tile_mem_size ld p.dist.localSize q.dist.localSize) := by
    unfold colMajorMinMemSize
    rw [if_pos]
    · rfl
    · refine ⟨?_, hp.offset_eq.trans hpo, hq.offset_eq.trans hqo⟩
      split
      · omega
      · show p.dist.localSize ≤ ld
        omega
  have : ∃ ts, mapOpt (colMajorTile (dist2 p q) ld
      ⟨.whole, 0, min_tile_mem_size ld p.dist.localSize q.dist.localSize⟩)
      (localTiles (dist2 p q)) = some ts := by
    apply mapOpt_isSome
    intro ij hij
    rw [mem_localTiles] at hij
    have h1 : (ij.1 : Int) < p.dist.localNrTiles := by
      have : ij.1 < p.dist.localNrTiles.toNat := hij.1
      omega
    have h2 : (ij.2 : Int) < q.dist.localNrTiles := by
      have : ij.2 < q.dist.localNrTiles.toNat := hij.2
      omega
    obtain ⟨a1, a2, a3, a4, a5⟩ := hp.wf.E_bounds (by omega) h1
    obtain ⟨b1, b2, b3, b4, b5⟩ := hq.wf.E_bounds (by omega) h2
    unfold Dist1.E at *
    have hl1 : 1 ≤ ld := by omega
    obtain ⟨c1, c2⟩ := min_tile_mem_pos a2 b2 hl1
    obtain ⟨e1, e2⟩ := min_tile_mem_pos (m := p.dist.localSize) (n := q.dist.localSize)
      (by omega) (by omega) hl1
    have hfit : p.dist.local_element_from_local_tile_and_tile_element ij.1 0 +
        q.dist.local_element_from_local_tile_and_tile_element ij.2 0 * ld +
        min_tile_mem_size ld (p.dist.local_tile_size_of ij.1) (q.dist.local_tile_size_of ij.2) ≤
        min_tile_mem_size ld p.dist.localSize q.dist.localSize := by
      rw [c1, e1]
      have := Int.mul_le_mul_of_nonneg_left
        (show q.dist.local_element_from_local_tile_and_tile_element ij.2 0 +
          (q.dist.local_tile_size_of ij.2 - 1) ≤ q.dist.localSize - 1 by omega) (show 0 ≤ ld by omega)
      have r : ld * (q.dist.local_element_from_local_tile_and_tile_element ij.2 0 +
          (q.dist.local_tile_size_of ij.2 - 1)) =
        q.dist.local_element_from_local_tile_and_tile_element ij.2 0 * ld +
          ld * (q.dist.local_tile_size_of ij.2 - 1) := by ring
      omega
    unfold colMajorTile MemView.sub
    simp only [show (dist2 p q).row = p.dist from rfl, show (dist2 p q).col = q.dist from rfl]
    rw [if_pos hfit, Option.bind_some]
    exact Tile.create_accept a2 b2 (by omega) (by simp only; omega)
  obtain ⟨ts, hts⟩ := this
  exact ⟨_, by unfold setUpPreallocated; rw [hmin, Option.bind_some, hts]; rfl⟩

theorem tiles_accepts {p q : Params} (hp : p.Valid) (hq : q.Valid) {al : Int} (ha : 0 < al)
    {ld : LdSpec} (hld : ∀ v, ld = .value v → max 1 p.dist.localSize ≤ v) :
    ∃ m, setUpTiles (dist2 p q) al ld = some m := by
  have : ∃ ts, mapOpt (tilesTile (dist2 p q) al ld) (localTiles (dist2 p q)) = some ts := by
    apply mapOpt_isSome
    intro ij hij
    rw [mem_localTiles] at hij
    have h1 : (ij.1 : Int) < p.dist.localNrTiles := by
      have : ij.1 < p.dist.localNrTiles.toNat := hij.1
      omega
    have h2 : (ij.2 : Int) < q.dist.localNrTiles := by
      have : ij.2 < q.dist.localNrTiles.toNat := hij.2
      omega
    obtain ⟨a1, a2, a3, a4, a5⟩ := hp.wf.E_bounds (by omega) h1
    obtain ⟨b1, b2, b3, b4, b5⟩ := hq.wf.E_bounds (by omega) h2
    obtain ⟨l, hl⟩ := compute_ld_accept (rows := p.dist.local_tile_size_of ij.1) (ld := ld) ha
      (by intro v hv; have := hld v hv; omega)
    have hl' := compute_ld_some hl
    have hm := Int.mul_nonneg (show 0 ≤ l by omega) (show 0 ≤ q.dist.local_tile_size_of ij.2 by omega)
    unfold tilesTile
    simp only [show (dist2 p q).row = p.dist from rfl, show (dist2 p q).col = q.dist from rfl, hl,
      Option.bind_some, MemView.alloc, if_pos hm]
    have r : l * (q.dist.local_tile_size_of ij.2 - 1) = l * q.dist.local_tile_size_of ij.2 - l := by ring
    exact Tile.create_accept a2 b2 (by omega) (by simp only; omega)
  obtain ⟨ts, hts⟩ := this
  exact ⟨_, by unfold setUpTiles; rw [hts]; rfl⟩

theorem Dist1.WF.bsz_le {d : Dist1} (w : d.WF) (hN : 0 < d.localNrTiles) {b : Int} (hb : 0 ≤ b) :
    d.single_tile_per_block.local_tile_size_of b ≤ d.localSize := by
  obtain ⟨a1, a2, a3, a4⟩ := w.Q_bounds hN
  unfold Dist1.local_tile_size_of
  rw [w.helper.2]
  show (if b = 0 then min (d.blockSize - _) d.localSize else min d.blockSize (d.localSize + _ - b * d.blockSize)) ≤ _
  split
  · omega
  · have := Int.mul_le_mul_of_nonneg_right (show 1 ≤ b by omega) (show 0 ≤ d.blockSize by omega)
    omega

theorem blocks_accepts {p q : Params} (hp : p.Valid) (hq : q.Valid) {al : Int} (ha : 0 < al)
    (hN : 0 < p.dist.localNrTiles) (hM : 0 < q.dist.localNrTiles)
    {ld : LdSpec} (hld : ∀ v, ld = .value v → max 1 p.dist.localSize ≤ v) :
    ∃ m, setUpBlocks (dist2 p q) al ld = some m := by
  obtain ⟨res, hres, lres, ores⟩ := hp.wf.blockEntries hN
  obtain ⟨ces, hces, lces, oces⟩ := hq.wf.blockEntries hM
  have : ∃ ts, mapOpt (fun e : BlockEntry × BlockEntry => blockTile al ld e.1 e.2)
      (ces.flatMap fun ce => res.map fun re => (ce, re)) = some ts := by
    apply mapOpt_isSome
    intro e he
    rw [grid_mem (fun (c r : BlockEntry) => (c, r))] at he
    obtain ⟨ce, hce, re, hre, rfl⟩ := he
    obtain ⟨i, hi⟩ := List.mem_iff_getElem?.1 hre
    obtain ⟨j, hj⟩ := List.mem_iff_getElem?.1 hce
    have okr := ores _ _ hi
    have okc := oces _ _ hj
    have hi' : i < res.length := (List.getElem?_eq_some_iff.1 hi).1
    have hj' : j < ces.length := (List.getElem?_eq_some_iff.1 hj).1
    obtain ⟨_, a2, a3, _⟩ := hp.wf.E_bounds (t := i) (by omega) (by omega)
    obtain ⟨_, b2, b3, _⟩ := hq.wf.E_bounds (t := j) (by omega) (by omega)
    have hbl := hp.wf.bsz_le hN okr.bl.1
    obtain ⟨l, hl⟩ := compute_ld_accept (rows := re.bsz) (ld := ld) ha
      (by intro v hv; have := hld v hv; have := okr.bsz; omega)
    have hl' := compute_ld_some hl
    have hcs := okc.sz
    have hrs := okr.sz
    have hcf := okc.fits
    have hrf := okr.fits
    have hcn := okc.el_nonneg
    have hrn := okr.el_nonneg
    have hm := Int.mul_nonneg (show 0 ≤ l by omega) (show 0 ≤ ce.bsz by omega)
    have hfit : re.el + l * ce.el + ((ce.sz - 1) * l + re.sz) ≤ l * ce.bsz := by
      have := Int.mul_le_mul_of_nonneg_left (show ce.el + ce.sz ≤ ce.bsz by omega) (show 0 ≤ l by omega)
      have r : l * (ce.el + ce.sz) = l * ce.el + (ce.sz - 1) * l + l := by ring
      omega
    simp only [blockTile, hl, Option.bind_some, MemView.alloc, if_pos hm, MemView.sub, if_pos hfit]
    have r : l * (ce.sz - 1) = (ce.sz - 1) * l := by ring
    exact Tile.create_accept (by omega) (by omega) (by omega) (by simp only; omega)
  obtain ⟨ts, hts⟩ := this
  unfold setUpBlocks
  rw [if_pos ⟨hp.wf.helper.1.symm, hq.wf.helper.1.symm⟩]
  simp only [show (dist2 p q).row = p.dist from rfl, show (dist2 p q).col = q.dist from rfl,
    hres, hces, Option.bind_some, hts, Option.map_some]
  exact ⟨_, rfl⟩

/-- C11 (the cases above are not vacuous): every layout is accepted with a compact or padded leading
dimension, or with an explicit one not smaller than the local number of rows; the column-major layout
needs a zero offset. -/
theorem C11_accepted {p q : Params} (hp : p.Valid) (hq : q.Valid) (layout : AllocationLayout)
    (ho : layout = .ColMajor → p.offset % p.block = 0 ∧ q.offset % q.block = 0)
    {alignment : Int} (ha : 0 < alignment) (ld : LdSpec)
    (hld : ∀ v, ld = .value v → max 1 p.dist.localSize ≤ v) :
    ∃ m, setUp layout (dist2 p q) alignment ld = some m := by
  unfold setUp
  split
  · obtain ⟨l, hl⟩ := compute_ld_accept (rows := 0) (ld := ld) ha
      (by intro v hv; have := hld v hv; omega)
    rw [hl]; exact ⟨_, rfl⟩
  · rename_i h0
    have h0 : ¬ (p.dist.localSize = 0 ∨ q.dist.localSize = 0) := h0
    cases layout with
    | ColMajor =>
      obtain ⟨l, hl⟩ := compute_ld_accept (rows := p.dist.localSize) (ld := ld) ha hld
      have hl' := compute_ld_some hl
      obtain ⟨m, hm⟩ := colMajor_accepts hp hq (ho rfl).1 (ho rfl).2 (ld := l) (by omega)
      exact ⟨m, by
        simp only [setUpColMajor, show (dist2 p q).row = p.dist from rfl, hl, Option.bind_some, hm]⟩
    | Blocks =>
      exact blocks_accepts hp hq ha (hp.wf.pos_of_localSize (by omega))
        (hq.wf.pos_of_localSize (by omega)) hld
    | Tiles => exact tiles_accepts hp hq ha hld

example : ∃ p q : Params, p.Valid ∧ q.Valid ∧ p.offset = 4 ∧ p.dist.localSize = 13 ∧
    p.dist.localNrTiles = 5 ∧ p.dist.local_nr_blocks = 2 ∧ q.dist.localNrTiles = 2 ∧
    (setUp .Blocks (dist2 p q) 8 .padded).isSome ∧ (setUp .Tiles (dist2 p q) 8 (.value 20)).isSome ∧
    setUp .ColMajor (dist2 p q) 8 .compact = none :=
  ⟨⟨25, 12, 3, 2, 0, 0, 4⟩, ⟨5, 12, 3, 1, 0, 0, 4⟩, by decide, by decide, rfl, by decide, by decide,
    by decide, by decide,
    Option.isSome_iff_exists.2 (C11_accepted (by decide) (by decide) .Blocks (by simp) (by decide) _
      (by simp)),
    Option.isSome_iff_exists.2 (C11_accepted (by decide) (by decide) .Tiles (by simp) (by decide) _
      (by intro v h; simp at h; subst h; decide)), by decide⟩

end DLAF
