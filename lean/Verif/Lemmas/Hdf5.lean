import Verif.Spec.Hdf5
import Verif.Lemmas.MatrixTiles
import Verif.Lemmas.Norm
import Verif.Props.MatrixRef
/- HDF5: the transfers of a process are exactly the scalars it owns. -/
namespace DLAF

def triples (n m k : Nat) : List (Nat × Nat × Nat) :=
  (List.range n).flatMap fun a => (List.range m).flatMap fun b => (List.range k).map fun c => (a, b, c)

theorem mem_triples {n m k : Nat} {u : Nat × Nat × Nat} : u ∈ triples n m k ↔ u.1 < n ∧ u.2.1 < m ∧ u.2.2 < k := by
  unfold triples
  simp only [List.mem_flatMap, List.mem_map, List.mem_range]
  constructor
  · rintro ⟨a, ha, b, hb, c, hc, rfl⟩
    exact ⟨ha, hb, hc⟩
  · rintro ⟨h1, h2, h3⟩
    exact ⟨u.1, h1, u.2.1, h2, u.2.2, h3, rfl⟩

theorem slab_eq {dims count start : Dim3} (hx : 0 ≤ start.x ∧ 0 ≤ count.x ∧ start.x + count.x ≤ dims.x)
    (hy : 0 ≤ start.y ∧ 0 ≤ count.y ∧ start.y + count.y ≤ dims.y)
    (hz : 0 ≤ start.z ∧ 0 ≤ count.z ∧ start.z + count.z ≤ dims.z) :
    slab dims count start = some ((triples count.x.toNat count.y.toNat count.z.toNat).map fun u =>
      ((start.x + u.1) * dims.y + (start.y + u.2.1)) * dims.z + (start.z + u.2.2)) := by
  unfold slab triples
  rw [if_pos ⟨hx, hy, hz⟩]
  simp only [List.map_flatMap, List.map_map]
  rfl

/-- A local tile position: the global element, its owner and its local position. -/
theorem tile_elem_pos {p : Params} (hp : p.Valid) {t e : Int} (ht : 0 ≤ t) (htN : t < p.dist.localNrTiles) (he : 0 ≤ e)
    (he' : e < p.dist.local_tile_size_of t) :
    let g := p.dist.global_element_from_global_tile_and_tile_element (p.dist.global_tile_from_local_tile t) 0 + e
    0 ≤ g ∧ g < p.size ∧ p.owner g = p.rank ∧ p.localPos g = p.dist.E t + e := by
  intro g
  have e1 : p.dist.E t + e = p.dist.local_element_from_local_tile_and_tile_element t e := by
    unfold Dist1.E Dist1.local_element_from_local_tile_and_tile_element util.element_from_tile_and_tile_element
    omega
  obtain ⟨c1, c2⟩ := hp.local_combine ht htN he he'
  have b := hp.wf.E_bounds ht htN
  have hg : p.dist.global_element_from_local_element (p.dist.E t + e) = g := by
    unfold Dist1.global_element_from_local_element
    rw [e1, c1, c2]
    show _ = p.dist.global_element_from_global_tile_and_tile_element _ 0 + e
    unfold Dist1.global_element_from_global_tile_and_tile_element util.element_from_tile_and_tile_element
    dsimp only
    omega
  obtain ⟨d1, d2, d3, d4⟩ := C03_local_global_local hp (e := p.dist.E t + e) (by omega) (by omega)
  rw [hg] at d1 d2 d3 d4
  refine ⟨d3, d4, d2, ?_⟩
  rw [← hp.localPos_eq d3, d2]
  exact d1

/-- Every owned element is in a local tile. -/
theorem owned_pos {p : Params} (hp : p.Valid) {g : Int} (hg : 0 ≤ g) (hg' : g < p.size) (ho : p.owner g = p.rank) :
    ∃ t e, 0 ≤ t ∧ t < p.dist.localNrTiles ∧ 0 ≤ e ∧ e < p.dist.local_tile_size_of t ∧
      g = p.dist.global_element_from_global_tile_and_tile_element (p.dist.global_tile_from_local_tile t) 0 + e := by
  obtain ⟨o1, o2, _⟩ := hp.owned_elem hg hg' ho
  obtain ⟨t, e, _, _, a1, a2, a3, a4, a5⟩ := hp.local_split o1 o2
  refine ⟨t, e, a1, a2, a3, a4, ?_⟩
  obtain ⟨d1, d2, d3, d4⟩ := tile_elem_pos hp a1 a2 a3 a4
  have h1 := hp.localPos_eq hg
  have h2 := hp.localPos_eq d1
  rw [ho] at h1
  rw [d3, d4, ← a5, ← show (p.onRank p.rank).dist = p.dist from rfl] at h2
  have r1 := C03_owned_global_local_global hp hg ho
  have r2 := C03_owned_global_local_global hp d1 d3
  rw [← r1, ← r2]
  exact congrArg _ h2.symm

/-- The addresses of the scalars of a matrix. -/
structure OwnsScalar (p q : Params) (comps : Int) (mem : MatrixMem) (u : Int × ScalarAddr) (i j c : Int) : Prop where
  row : 0 ≤ i ∧ i < p.size
  col : 0 ≤ j ∧ j < q.size
  comp : 0 ≤ c ∧ c < comps
  rowOwner : p.owner i = p.rank
  colOwner : q.owner j = q.rank
  addr : ∃ a, mem.elemAddr (dist2 p q) (p.localPos i) (q.localPos j) = some a ∧
    u = ((j * p.size + i) * comps + c, (a.1, a.2 * comps + c))

theorem datasetMap_spec {p q : Params} (hp : p.Valid) (hq : q.Valid) {mem : MatrixMem} (hm : Allocated (dist2 p q) mem)
    (T : ElemType) (hT : 0 < T.comps) :
    ∃ l, datasetMap T ⟨q.size, p.size, T.comps⟩ (dist2 p q) mem = some l ∧
      ∀ u, u ∈ l ↔ ∃ i j c, OwnsScalar p q T.comps mem u i j c := by
  let gr : Int → Int := fun t => p.dist.global_element_from_global_tile_and_tile_element (p.dist.global_tile_from_local_tile t) 0
  let gc : Int → Int := fun t => q.dist.global_element_from_global_tile_and_tile_element (q.dist.global_tile_from_local_tile t) 0
  let tl : Nat × Nat → List (Int × ScalarAddr) := fun ij =>
    match mem.tiles[(tile_linear_index (dist2 p q) ij.1 ij.2).toNat]? with
    | none => []
    | some t => (triples t.cols.toNat t.rows.toNat T.comps.toNat).map fun u =>
      (((gc ij.2 + u.1) * p.size + (gr ij.1 + u.2.1)) * T.comps + u.2.2,
        (t.view.chunk, t.view.offset * T.comps + ((u.1 * t.ld + u.2.1) * T.comps + u.2.2)))
  have hmap : ∀ ij ∈ localTiles (dist2 p q),
      ((mem.tiles[(tile_linear_index (dist2 p q) ij.1 ij.2).toNat]?).bind fun t =>
        mapTile T ⟨q.size, p.size, T.comps⟩ (dist2 p q) t ij) = some (tl ij) := by
    rintro ⟨i, j⟩ hij
    obtain ⟨h1, h2⟩ := mem_localTiles'.1 hij
    have h1 : (i : Int) < p.dist.localNrTiles := h1
    have h2 : (j : Int) < q.dist.localNrTiles := h2
    obtain ⟨t, ht, t1, t2, t3, t4, t5⟩ := hm.tile hp hq (Int.natCast_nonneg i) h1 (Int.natCast_nonneg j) h2
    dsimp only [tl]
    rw [ht, Option.bind_some]
    dsimp only
    have pos1 := hp.wf.E_bounds (Int.natCast_nonneg i) h1
    have pos2 := hq.wf.E_bounds (Int.natCast_nonneg j) h2
    obtain ⟨a1, a2, _⟩ := tile_elem_pos hp (Int.natCast_nonneg i) h1 (e := 0) (by omega) (by omega)
    obtain ⟨b1, b2, _⟩ := tile_elem_pos hp (Int.natCast_nonneg i) h1 (e := p.dist.local_tile_size_of i - 1) (by omega) (by omega)
    obtain ⟨c1, c2, _⟩ := tile_elem_pos hq (Int.natCast_nonneg j) h2 (e := 0) (by omega) (by omega)
    obtain ⟨d1, d2, _⟩ := tile_elem_pos hq (Int.natCast_nonneg j) h2 (e := q.dist.local_tile_size_of j - 1) (by omega) (by omega)
    unfold mapTile
    dsimp only
    rw [slab_eq (dims := ⟨q.size, p.size, T.comps⟩) (count := ⟨t.cols, t.rows, T.comps⟩)
        (by refine ⟨?_, t4, ?_⟩
            · show 0 ≤ gc j; dsimp only [gc]; omega
            · show gc j + _ ≤ _; dsimp only [gc]; omega)
        (by refine ⟨?_, t3, ?_⟩
            · show 0 ≤ gr i; dsimp only [gr]; omega
            · show gr i + _ ≤ _; dsimp only [gr]; omega)
        (by dsimp only; omega),
      slab_eq (dims := ⟨t.cols, t.ld, T.comps⟩) (count := ⟨t.cols, t.rows, T.comps⟩) (start := ⟨0, 0, 0⟩)
        (by dsimp only; omega) (by dsimp only; omega) (by dsimp only; omega)]
    simp only [Option.bind_some, List.length_map, if_true, List.map_map, List.zip_map']
    congr 1
    apply List.map_congr_left
    intro u _
    simp only [Function.comp_apply, Int.zero_add]
    rfl
  refine ⟨((localTiles (dist2 p q)).map tl).flatten, ?_, ?_⟩
  · unfold datasetMap
    rw [mapOpt_eq_map hmap]
    rfl
  · intro u
    simp only [List.mem_flatten, List.mem_map, exists_exists_and_eq_and]
    constructor
    · rintro ⟨⟨i, j⟩, hij, hu⟩
      obtain ⟨h1, h2⟩ := mem_localTiles'.1 hij
      have h1 : (i : Int) < p.dist.localNrTiles := h1
      have h2 : (j : Int) < q.dist.localNrTiles := h2
      obtain ⟨t, ht, t1, t2, t3, t4, t5⟩ := hm.tile hp hq (Int.natCast_nonneg i) h1 (Int.natCast_nonneg j) h2
      dsimp only [tl] at hu
      rw [ht] at hu
      simp only [List.mem_map] at hu
      obtain ⟨⟨b, a, c⟩, hb, rfl⟩ := hu
      obtain ⟨hb1, hb2, hb3⟩ := mem_triples.1 hb
      dsimp only at hb1 hb2 hb3 ⊢
      obtain ⟨e1, e2, e3, e4⟩ := tile_elem_pos hp (Int.natCast_nonneg i) h1 (e := a) (by omega) (by omega)
      obtain ⟨f1, f2, f3, f4⟩ := tile_elem_pos hq (Int.natCast_nonneg j) h2 (e := b) (by omega) (by omega)
      obtain ⟨g1, g2⟩ := tileAt_elem hp hq (a := ⟨0, dist2 p q, mem⟩) rfl (Int.natCast_nonneg i) h1 (Int.natCast_nonneg j) h2
        (ei := a) (ej := b) (by omega) (by omega) (by omega) (by omega) (t := ⟨0, t⟩)
        (by unfold MatrixObj.tileAt; dsimp only; rw [ht]; rfl)
      refine ⟨gr i + a, gc j + b, c, ⟨e1, e2⟩, ⟨f1, f2⟩, by omega, e3, f3, ?_⟩
      unfold MatrixObj.elem at g1
      simp only [Option.map_eq_some_iff] at g1
      obtain ⟨x, g1, g3⟩ := g1
      refine ⟨x, ?_, ?_⟩
      · rw [e4, f4]; exact g1
      · simp only [TileRef.addr, Tile.addr, Tile.linearIndex, Prod.mk.injEq, true_and] at g3
        rw [g3]
        simp only [Prod.mk.injEq, true_and]
        ring
    · rintro ⟨i, j, c, hi, hj, hc, oi, oj, x, hx, rfl⟩
      obtain ⟨ti, ei, h1, h1', h2, h2', rfl⟩ := owned_pos hp hi.1 hi.2 oi
      obtain ⟨tj, ej, k1, k1', k2, k2', rfl⟩ := owned_pos hq hj.1 hj.2 oj
      obtain ⟨e1, e2, e3, e4⟩ := tile_elem_pos hp h1 h1' h2 h2'
      obtain ⟨f1, f2, f3, f4⟩ := tile_elem_pos hq k1 k1' k2 k2'
      obtain ⟨t, ht, t1, t2, t3, t4, t5⟩ := hm.tile hp hq h1 h1' k1 k1'
      obtain ⟨g1, g2⟩ := tileAt_elem hp hq (a := ⟨0, dist2 p q, mem⟩) rfl h1 h1' k1 k1'
        (ei := ei) (ej := ej) h2 h2' k2 k2' (t := ⟨0, t⟩)
        (by unfold MatrixObj.tileAt; dsimp only; rw [ht]; rfl)
      lift ti to Nat using h1
      lift tj to Nat using k1
      lift ei to Nat using h2
      lift ej to Nat using k2
      obtain ⟨c, rfl⟩ := Int.eq_ofNat_of_zero_le hc.1
      refine ⟨(ti, tj), mem_localTiles'.2 ⟨h1', k1'⟩, ?_⟩
      dsimp only [tl]
      rw [ht]
      simp only [List.mem_map]
      refine ⟨(ej, ei, c), mem_triples.2 ⟨by dsimp only; omega, by dsimp only; omega, by dsimp only; omega⟩, ?_⟩
      unfold MatrixObj.elem at g1
      simp only [Option.map_eq_some_iff] at g1
      obtain ⟨y, g1, g3⟩ := g1
      rw [e4, f4] at hx
      obtain rfl : x = y := by
        have := hx.symm.trans g1
        simpa using this
      simp only [TileRef.addr, Tile.addr, Tile.linearIndex, Prod.mk.injEq, true_and] at g3
      rw [g3]
      simp only [Prod.mk.injEq, true_and, gr, gc]
      ring

theorem storeAll_append {α E : Type} [DecidableEq α] (l m : List (α × E)) (s : α → E) :
    storeAll (l ++ m) s = storeAll m (storeAll l s) := by
  unfold storeAll; rw [List.foldl_append]

/-- If all stores to a position carry the same value, that is its value. -/
theorem storeAll_eq {α E : Type} [DecidableEq α] {x : α} {v : E} (l : List (α × E)) (m : α → E)
    (hall : ∀ u ∈ l, u.1 = x → u.2 = v) (h : (∃ u ∈ l, u.1 = x) ∨ m x = v) : storeAll l m x = v := by
  induction l generalizing m with
  | nil =>
    rcases h with ⟨u, hu, _⟩ | h
    · simp at hu
    · exact h
  | cons u l ih =>
    show storeAll l _ x = v
    apply ih _ (fun w hw => hall w (List.mem_cons_of_mem _ hw))
    by_cases hu : u.1 = x
    · right
      simp only
      rw [if_pos hu.symm]
      exact hall u List.mem_cons_self hu
    · rcases h with ⟨w, hw, hwx⟩ | h
      · rcases List.mem_cons.1 hw with rfl | hw
        · exact absurd hwx hu
        · exact Or.inl ⟨w, hw, hwx⟩
      · right
        simp only
        rw [if_neg (fun hc => hu hc.symm)]
        exact h

theorem filePos_inj {rows cols comps : Int} {i j c i' j' c' : Int} (hi : 0 ≤ i ∧ i < rows) (hc : 0 ≤ c ∧ c < comps)
    (hi' : 0 ≤ i' ∧ i' < rows) (hc' : 0 ≤ c' ∧ c' < comps)
    (h : (j * rows + i) * comps + c = (j' * rows + i') * comps + c') : i = i' ∧ j = j' ∧ c = c' := by
  obtain ⟨e1, e2⟩ := lin_inj (ld := comps) (y := j * rows + i) (y' := j' * rows + i') hc.1 hc.2 hc'.1 hc'.2
    (by linarith [Int.mul_comm comps (j * rows + i), Int.mul_comm comps (j' * rows + i')])
  obtain ⟨e3, e4⟩ := lin_inj (ld := rows) (y := j) (y' := j') hi.1 hi.2 hi'.1 hi'.2
    (by linarith [Int.mul_comm rows j, Int.mul_comm rows j'])
  exact ⟨e3, e4, e1⟩

end DLAF
