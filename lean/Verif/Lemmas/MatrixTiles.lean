import Verif.Lemmas.Data
import Verif.Props.Layout
import Verif.Lemmas.Redistribute
/- Tiles of an allocated matrix: sizes and addresses. -/
namespace DLAF

theorem Tile.create_wf {r c ld : Int} {v : MemView} {t : Tile} (h : Tile.create r c v ld = some t) :
    t.rows = r ∧ t.cols = c ∧ 0 ≤ r ∧ 0 ≤ c ∧ max 1 r ≤ t.ld := by
  unfold Tile.create at h
  split at h
  · rename_i hc
    simp only [Option.some.injEq] at h
    subst h
    exact ⟨rfl, rfl, hc.1.1, hc.1.2, hc.2.1⟩
  · simp at h

theorem prealloc_tile {p q : Params} {ld : Int}
    {m : MatrixMem} (hm : setUpPreallocated (dist2 p q) ld = some m) {i j : Int} (hi : 0 ≤ i)
    (hi' : i < p.dist.localNrTiles) (hj : 0 ≤ j) (hj' : j < q.dist.localNrTiles) :
    ∃ t, m.tiles[(tile_linear_index (dist2 p q) i j).toNat]? = some t ∧
      t.rows = p.dist.local_tile_size_of i ∧ t.cols = q.dist.local_tile_size_of j ∧
      0 ≤ t.rows ∧ 0 ≤ t.cols ∧ max 1 t.rows ≤ t.ld := by
  unfold setUpPreallocated at hm
  simp only [Option.bind_eq_some_iff, Option.map_eq_some_iff] at hm
  obtain ⟨n, hn, ts, hts, rfl⟩ := hm
  have hk := mapOpt_getElem? hts (tile_linear_index (dist2 p q) i j).toNat
  have hg := localTiles_getElem? (dist2 p q) hi hi' hj hj'
  rw [hg, Option.bind_some] at hk
  have hlt : (tile_linear_index (dist2 p q) i j).toNat < ts.length := by
    rw [mapOpt_length hts]; exact (List.getElem?_eq_some_iff.1 hg).1
  rw [List.getElem?_eq_getElem hlt] at hk
  refine ⟨ts[(tile_linear_index (dist2 p q) i j).toNat], List.getElem?_eq_getElem hlt, ?_⟩
  replace hk := hk.symm
  unfold colMajorTile at hk
  simp only [Option.bind_eq_some_iff] at hk
  obtain ⟨v, _, ht⟩ := hk
  simp only [show (dist2 p q).row = p.dist from rfl, show (dist2 p q).col = q.dist from rfl,
    Int.toNat_of_nonneg hi, Int.toNat_of_nonneg hj] at ht
  obtain ⟨e1, e2, e3, e4, e5⟩ := Tile.create_wf ht
  exact ⟨e1, e2, e1 ▸ e3, e2 ▸ e4, e1 ▸ e5⟩

theorem tiles_tile {p q : Params} {al : Int} {ld : LdSpec}
    {m : MatrixMem} (hm : setUpTiles (dist2 p q) al ld = some m) {i j : Int} (hi : 0 ≤ i)
    (hi' : i < p.dist.localNrTiles) (hj : 0 ≤ j) (hj' : j < q.dist.localNrTiles) :
    ∃ t, m.tiles[(tile_linear_index (dist2 p q) i j).toNat]? = some t ∧
      t.rows = p.dist.local_tile_size_of i ∧ t.cols = q.dist.local_tile_size_of j ∧
      0 ≤ t.rows ∧ 0 ≤ t.cols ∧ max 1 t.rows ≤ t.ld := by
  unfold setUpTiles at hm
  simp only [Option.map_eq_some_iff] at hm
  obtain ⟨ts, hts, rfl⟩ := hm
  have hk := mapOpt_getElem? hts (tile_linear_index (dist2 p q) i j).toNat
  have hg := localTiles_getElem? (dist2 p q) hi hi' hj hj'
  rw [hg, Option.bind_some] at hk
  have hlt : (tile_linear_index (dist2 p q) i j).toNat < ts.length := by
    rw [mapOpt_length hts]; exact (List.getElem?_eq_some_iff.1 hg).1
  rw [List.getElem?_eq_getElem hlt] at hk
  refine ⟨ts[(tile_linear_index (dist2 p q) i j).toNat], List.getElem?_eq_getElem hlt, ?_⟩
  replace hk := hk.symm
  unfold tilesTile at hk
  simp only [Option.bind_eq_some_iff] at hk
  obtain ⟨_, _, v, _, ht⟩ := hk
  simp only [show (dist2 p q).row = p.dist from rfl, show (dist2 p q).col = q.dist from rfl,
    Int.toNat_of_nonneg hi, Int.toNat_of_nonneg hj] at ht
  obtain ⟨e1, e2, e3, e4, e5⟩ := Tile.create_wf ht
  exact ⟨e1, e2, e1 ▸ e3, e2 ▸ e4, e1 ▸ e5⟩

theorem blocks_tile {p q : Params} (hp : p.Valid) (hq : q.Valid) {al : Int} {ld : LdSpec}
    {m : MatrixMem} (hm : setUpBlocks (dist2 p q) al ld = some m) {i j : Int} (hi : 0 ≤ i)
    (hi' : i < p.dist.localNrTiles) (hj : 0 ≤ j) (hj' : j < q.dist.localNrTiles) :
    ∃ t, m.tiles[(tile_linear_index (dist2 p q) i j).toNat]? = some t ∧
      t.rows = p.dist.local_tile_size_of i ∧ t.cols = q.dist.local_tile_size_of j ∧
      0 ≤ t.rows ∧ 0 ≤ t.cols ∧ max 1 t.rows ≤ t.ld := by
  obtain ⟨res, hres, lres, ores⟩ := hp.wf.blockEntries (by omega)
  obtain ⟨ces, hces, lces, oces⟩ := hq.wf.blockEntries (by omega)
  unfold setUpBlocks at hm
  split at hm
  swap
  · simp at hm
  simp only [Option.bind_eq_some_iff, Option.map_eq_some_iff] at hm
  obtain ⟨ces', hces', res', hres', ts, hts, rfl⟩ := hm
  rw [show (dist2 p q).row = p.dist from rfl, hres] at hres'
  rw [show (dist2 p q).col = q.dist from rfl, hces] at hces'
  simp only [Option.some.injEq] at hres' hces'
  subst hres' hces'
  have hir : i.toNat < res.length := by omega
  have hjc : j.toNat < ces.length := by omega
  have hg := grid_getElem? (fun (c r : BlockEntry) => (c, r)) res ces i.toNat j.toNat hir
  have e : (tile_linear_index (dist2 p q) i j).toNat = i.toNat + res.length * j.toNat := by
    unfold tile_linear_index
    rw [show (dist2 p q).row.localNrTiles = (res.length : Int) from lres.symm]
    obtain ⟨a, rfl⟩ := Int.eq_ofNat_of_zero_le hi
    obtain ⟨b, rfl⟩ := Int.eq_ofNat_of_zero_le hj
    have : ((a : Int) + res.length * b) = ((a + res.length * b : Nat) : Int) := by push_cast; ring
    simp only [this, Int.toNat_natCast]
  rw [List.getElem?_eq_getElem hjc, List.getElem?_eq_getElem hir] at hg
  have hk := mapOpt_getElem? hts (tile_linear_index (dist2 p q) i j).toNat
  rw [e] at hk ⊢
  rw [hg] at hk
  simp only [Option.bind_some] at hk
  have hlt : i.toNat + res.length * j.toNat < ts.length := by
    rw [mapOpt_length hts]; exact (List.getElem?_eq_some_iff.1 hg).1
  rw [List.getElem?_eq_getElem hlt] at hk
  refine ⟨ts[i.toNat + res.length * j.toNat], List.getElem?_eq_getElem hlt, ?_⟩
  replace hk := hk.symm
  change blockTile al ld ces[j.toNat] res[i.toNat] = _ at hk
  unfold blockTile at hk
  simp only [Option.bind_eq_some_iff] at hk
  obtain ⟨_, _, _, _, v, _, ht⟩ := hk
  have okr := ores i.toNat _ (List.getElem?_eq_getElem hir)
  have okc := oces j.toNat _ (List.getElem?_eq_getElem hjc)
  have sr := okr.sz
  have sc := okc.sz
  rw [Int.toNat_of_nonneg hi] at sr
  rw [Int.toNat_of_nonneg hj] at sc
  obtain ⟨e1, e2, e3, e4, e5⟩ := Tile.create_wf ht
  exact ⟨e1.trans sr, e2.trans sc, e1 ▸ e3, e2 ▸ e4, e1 ▸ e5⟩

/-- Every local tile of an allocated matrix exists and has the size given by the distribution. -/
theorem Allocated.tile {p q : Params} (hp : p.Valid) (hq : q.Valid) {m : MatrixMem}
    (h : Allocated (dist2 p q) m) {i j : Int} (hi : 0 ≤ i) (hi' : i < p.dist.localNrTiles) (hj : 0 ≤ j)
    (hj' : j < q.dist.localNrTiles) :
    ∃ t, m.tiles[(tile_linear_index (dist2 p q) i j).toNat]? = some t ∧
      t.rows = p.dist.local_tile_size_of i ∧ t.cols = q.dist.local_tile_size_of j ∧
      0 ≤ t.rows ∧ 0 ≤ t.cols ∧ max 1 t.rows ≤ t.ld := by
  rcases h with ⟨layout, al, ld, hm⟩ | ⟨ld, hld, hm⟩
  · unfold setUp at hm
    have b1 := hp.wf.E_bounds hi hi'
    have b2 := hq.wf.E_bounds hj hj'
    have n1 : ¬ ((dist2 p q).row.localSize = 0 ∨ (dist2 p q).col.localSize = 0) := by
      show ¬ (p.dist.localSize = 0 ∨ q.dist.localSize = 0)
      omega
    rw [if_neg n1] at hm
    cases layout with
    | ColMajor =>
      unfold setUpColMajor at hm
      simp only [Option.bind_eq_some_iff] at hm
      obtain ⟨l, hl, hm⟩ := hm
      exact prealloc_tile hm hi hi' hj hj'
    | Blocks => exact blocks_tile hp hq hm hi hi' hj hj'
    | Tiles => exact tiles_tile hm hi hi' hj hj'
  · exact prealloc_tile hm hi hi' hj hj'

theorem Allocated.sound {p q : Params} (hp : p.Valid) (hq : q.Valid) {m : MatrixMem}
    (h : Allocated (dist2 p q) m) : MemorySound (dist2 p q) m := by
  rcases h with ⟨layout, al, ld, hm⟩ | ⟨ld, hld, hm⟩
  · exact C11_no_alias hp hq layout al ld hm
  · exact C11_user_buffer hp hq hld hm

/-- Element (ei, ej) of local tile (i, j) is local element (E i + ei, E j + ej). -/
theorem tileAt_elem {p q : Params} (hp : p.Valid) (hq : q.Valid) {a : MatrixObj}
    (hd : a.dist = dist2 p q) {i j ei ej : Int} (hi : 0 ≤ i) (hi' : i < p.dist.localNrTiles) (hj : 0 ≤ j)
    (hj' : j < q.dist.localNrTiles) (h1 : 0 ≤ ei) (h2 : ei < p.dist.local_tile_size_of i) (h3 : 0 ≤ ej)
    (h4 : ej < q.dist.local_tile_size_of j) {t : TileRef} (ht : a.tileAt i j = some t) :
    a.elem (p.dist.E i + ei) (q.dist.E j + ej) = some (t.addr ei ej) ∧
      (dist2 p q).LocalElem (p.dist.E i + ei) (q.dist.E j + ej) := by
  have e1 : p.dist.E i + ei = p.dist.local_element_from_local_tile_and_tile_element i ei := by
    unfold Dist1.E Dist1.local_element_from_local_tile_and_tile_element
      util.element_from_tile_and_tile_element
    omega
  have e2 : q.dist.E j + ej = q.dist.local_element_from_local_tile_and_tile_element j ej := by
    unfold Dist1.E Dist1.local_element_from_local_tile_and_tile_element
      util.element_from_tile_and_tile_element
    omega
  have b1 := hp.wf.E_bounds hi hi'
  have b2 := hq.wf.E_bounds hj hj'
  constructor
  · unfold MatrixObj.elem MatrixMem.elemAddr
    unfold MatrixObj.tileAt at ht
    rw [hd] at ht ⊢
    simp only [show (dist2 p q).row = p.dist from rfl, show (dist2 p q).col = q.dist from rfl]
    obtain ⟨r1, r2⟩ := hp.local_combine hi hi' h1 h2
    obtain ⟨r3, r4⟩ := hq.local_combine hj hj' h3 h4
    rw [e1, e2, r1, r2, r3, r4]
    rw [Option.map_eq_some_iff] at ht
    obtain ⟨t', ht', rfl⟩ := ht
    rw [ht']
    rfl
  · exact ⟨⟨by omega, show p.dist.E i + ei < p.dist.localSize by omega⟩,
      by omega, show q.dist.E j + ej < q.dist.localSize by omega⟩

end DLAF
