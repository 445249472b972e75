import Verif.Model.MatrixRef
import Verif.Lemmas.MatrixTiles
import Verif.Props.SubTile
import Verif.Props.SubDistribution
/- C27: sub-matrix references. -/
namespace DLAF

theorem mapOpt_mem {α β : Type} {f : α → Option β} {l : List α} {bs : List β} (h : mapOpt f l = some bs) :
    ∀ b ∈ bs, ∃ a ∈ l, f a = some b := by
  intro b hb
  obtain ⟨k, hk, rfl⟩ := List.getElem_of_mem hb
  have := mapOpt_getElem? h k
  rw [List.getElem?_eq_getElem hk] at this
  obtain ⟨a, ha, hf⟩ := Option.bind_eq_some_iff.1 this.symm
  exact ⟨a, List.mem_of_getElem? ha, hf⟩

theorem Tile.create_valid {r c ld : Int} {v : MemView} {t : Tile} (h : Tile.create r c v ld = some t) :
    t.Valid := by
  unfold Tile.Valid
  have h' := h
  unfold Tile.create at h
  split at h
  · simp only [Option.some.injEq] at h
    subst h
    exact h'
  · simp at h

/-- Every tile of a matrix satisfies the assertions of the tile constructor. -/
theorem Allocated.tile_valid {d : Distribution} {m : MatrixMem} (h : Allocated d m) :
    ∀ t ∈ m.tiles, t.Valid := by
  have hpre : ∀ ld, setUpPreallocated d ld = some m → ∀ t ∈ m.tiles, t.Valid := by
    intro ld hm t ht
    unfold setUpPreallocated at hm
    simp only [Option.bind_eq_some_iff, Option.map_eq_some_iff] at hm
    obtain ⟨n, hn, ts, hts, rfl⟩ := hm
    obtain ⟨ij, _, hf⟩ := mapOpt_mem hts t ht
    unfold colMajorTile at hf
    simp only [Option.bind_eq_some_iff] at hf
    obtain ⟨v, _, hf⟩ := hf
    exact Tile.create_valid hf
  rcases h with ⟨layout, al, ld, hm⟩ | ⟨ld, hld, hm⟩
  · unfold setUp at hm
    split at hm
    · simp only [Option.map_eq_some_iff] at hm
      obtain ⟨_, _, rfl⟩ := hm
      simp
    · cases layout with
      | ColMajor =>
        simp only [setUpColMajor, Option.bind_eq_some_iff] at hm
        obtain ⟨l, hl, hm⟩ := hm
        exact hpre l hm
      | Blocks =>
        simp only [setUpBlocks] at hm
        split at hm
        · simp only [Option.bind_eq_some_iff, Option.map_eq_some_iff] at hm
          obtain ⟨ces, _, res, _, ts, hts, rfl⟩ := hm
          intro t ht
          obtain ⟨ij, _, hf⟩ := mapOpt_mem hts t ht
          unfold blockTile at hf
          simp only [Option.bind_eq_some_iff] at hf
          obtain ⟨_, _, _, _, v, _, hf⟩ := hf
          exact Tile.create_valid hf
        · simp at hm
      | Tiles =>
        simp only [setUpTiles, Option.map_eq_some_iff] at hm
        obtain ⟨ts, hts, rfl⟩ := hm
        intro t ht
        obtain ⟨ij, _, hf⟩ := mapOpt_mem hts t ht
        unfold tilesTile at hf
        simp only [Option.bind_eq_some_iff] at hf
        obtain ⟨_, _, v, _, hf⟩ := hf
        exact Tile.create_valid hf
  · exact hpre ld hm

theorem Params.Valid.tileBegin_eq {p : Params} (h : p.Valid) {t : Int} (ht : 0 ≤ t) (a : Int) :
    p.dist.global_element_from_global_tile_and_tile_element t a = p.tileBegin t + a := by
  have htp : 0 < p.tile := h.2.2.1
  have hm := Int.mul_ediv_add_emod p.offset p.tile
  have hm0 := Int.emod_nonneg p.offset (b := p.tile) (by omega)
  have hm1 := Int.emod_lt_of_pos p.offset htp
  have e : (p.offset / p.tile + t) * p.tile = p.tile * (p.offset / p.tile) + t * p.tile := by ring
  have h1 : 0 < t → p.tile ≤ t * p.tile := fun h => by
    have := Int.mul_le_mul_of_nonneg_right (show 1 ≤ t by omega) (Int.le_of_lt htp)
    omega
  unfold Dist1.global_element_from_global_tile_and_tile_element util.element_from_tile_and_tile_element
    Params.tileBegin
  rw [h.gteo_eq, e]
  show t * p.tile + a - _ = _
  split
  · have := h1 (by omega); omega
  · have : t = 0 := by omega
    subst this
    omega

/-- One coordinate: tile `t` of the reference lies in the parent tile at the computed offset, and its
element `a` is parent element `o + tileBegin t + a`. -/
theorem ref_coord {p : Params} (hp : p.Valid) {o n : Int} (ho : 0 ≤ o) (hn : 0 ≤ n) (hon : o + n ≤ p.size)
    {t : Int} (ht : 0 ≤ t) (htN : t < (p.sub o n).dist.nrTiles)
    (hown : (p.sub o n).dist.rank_global_tile t = p.rank) :
    let pt := p.dist.global_tile_from_sub_distribution o t
    let off := p.dist.tile_element_offset_from_sub_distribution o t
    let lt := p.dist.local_tile_from_global_tile pt
    1 ≤ (p.sub o n).dist.global_tile_size_of t ∧ 0 ≤ off ∧
    (0 ≤ lt ∧ lt < p.dist.localNrTiles) ∧
    p.dist.local_tile_size_of lt = p.dist.global_tile_size_of pt ∧
    off + (p.sub o n).dist.global_tile_size_of t ≤ p.dist.global_tile_size_of pt ∧
    ∀ a, 0 ≤ a → a < (p.sub o n).dist.global_tile_size_of t →
      (0 ≤ (p.sub o n).tileBegin t + a ∧ (p.sub o n).tileBegin t + a < n) ∧
      p.owner (o + ((p.sub o n).tileBegin t + a)) = p.rank ∧
      p.dist.E lt + (off + a) = p.dist.local_element_from_global_element (o + ((p.sub o n).tileBegin t + a)) := by
  intro pt off lt
  have hs := hp.sub ho hn
  have ws := hs.wf
  have w := hp.wf
  have hpos := ws.global_tsz_pos ht htN
  -- every element
  have key : ∀ a, 0 ≤ a → a < (p.sub o n).dist.global_tile_size_of t →
      (0 ≤ (p.sub o n).tileBegin t + a ∧ (p.sub o n).tileBegin t + a < n) ∧
      p.owner (o + ((p.sub o n).tileBegin t + a)) = p.rank ∧
      p.dist.global_tile_from_global_element (o + ((p.sub o n).tileBegin t + a)) = pt ∧
      p.dist.tile_element_from_global_element (o + ((p.sub o n).tileBegin t + a)) = off + a := by
    intro a ha ha'
    obtain ⟨e, ⟨e0, e1, e2, e3⟩, e4, _⟩ := C03_global_combine hs ht htN ha ha'
    rw [hs.tileBegin_eq ht] at e4
    rw [← e4]
    have hel := C07_tile_from_sub hp ho hn e0
    have hel2 := C07_sub_element hp ho hn e0
    dsimp only at hel2
    rw [hp.subBuild_eq ho hn] at hel hel2
    rw [e2, e3] at hel
    refine ⟨⟨e0, e1⟩, ?_, hel.1.symm, hel.2.symm⟩
    rw [← hp.owner_eq (by omega), ← hel2.1]
    unfold Dist1.rank_global_element
    rw [e2]
    exact hown
  have hoff : 0 ≤ off := by
    obtain ⟨a1, a2, a3, a4⟩ := key 0 le_rfl (by omega)
    have := (C03_global_split hp (e := o + ((p.sub o n).tileBegin t + 0)) (by omega) (by omega)).2.2.2.1
    rw [a4] at this
    omega
  obtain ⟨b1, b2, b3, b4⟩ := key ((p.sub o n).dist.global_tile_size_of t - 1) (by omega) (by omega)
  have hlast := C03_global_split hp (e := o + ((p.sub o n).tileBegin t + ((p.sub o n).dist.global_tile_size_of t - 1)))
    (by omega) (by omega)
  rw [b3, b4] at hlast
  have hpown : p.dist.rank_global_tile pt = p.rank := by
    have := (hp.owned_elem (by omega) (by omega) b2).2.2.2.2.2
    rwa [b3] at this
  have hlt : 0 ≤ lt ∧ lt < p.dist.localNrTiles := by
    obtain ⟨ow, h1, h2, h3⟩ := C01_tile_owner hp hlast.2.1 hlast.2.2.1
    obtain ⟨k1, k2, _⟩ := h3 p.rank hp.2.2.2.2.2.1.1 hp.2.2.2.2.2.1.2
    exact k2 (by rw [← k1]; exact hpown.symm)
  refine ⟨hpos, hoff, hlt, ?_, by omega, ?_⟩
  · rw [w.local_tsz_eq hlt.1 hlt.2]
    congr 1
    exact C02_global_local_global hp hlast.2.1 hpown
  · intro a ha ha'
    obtain ⟨a1, a2, a3, a4⟩ := key a ha ha'
    refine ⟨a1, a2, ?_⟩
    have := (hp.owned_elem (by omega) (by omega) a2).2.2.2.2.1
    rw [this, a3, a4]
    show p.dist.E (p.dist.local_tile_from_global_tile pt) + (off + a) = _
    generalize p.dist.local_tile_from_global_tile pt = l
    generalize off + a = z
    unfold Dist1.E Dist1.local_element_from_local_tile_and_tile_element
      util.element_from_tile_and_tile_element
    omega

variable {p q : Params} {a : MatrixObj} {o n : Coord2} {r : MatrixRefObj}

/-- Everything about one tile of a reference. -/
theorem ref_tile (hp : p.Valid) (hq : q.Valid) (hd : a.dist = dist2 p q) (hm : Allocated a.dist a.mem)
    (hr : MatrixRefObj.create a o n = some r) {i j : Int}
    (hi : 0 ≤ i ∧ i < (p.sub o.row n.row).dist.nrTiles) (hj : 0 ≤ j ∧ j < (q.sub o.col n.col).dist.nrTiles)
    (hoi : (p.sub o.row n.row).dist.rank_global_tile i = p.rank)
    (hoj : (q.sub o.col n.col).dist.rank_global_tile j = q.rank) :
    ∃ u, r.globalTile ⟨i, j⟩ = some u ∧ u.WF ∧
      u.tile.rows = (p.sub o.row n.row).dist.global_tile_size_of i ∧
      u.tile.cols = (q.sub o.col n.col).dist.global_tile_size_of j ∧
      ∀ x y, (0 ≤ x ∧ x < u.tile.rows) → (0 ≤ y ∧ y < u.tile.cols) →
        (0 ≤ (p.sub o.row n.row).tileBegin i + x ∧ (p.sub o.row n.row).tileBegin i + x < n.row) ∧
        (0 ≤ (q.sub o.col n.col).tileBegin j + y ∧ (q.sub o.col n.col).tileBegin j + y < n.col) ∧
        a.elem (p.dist.local_element_from_global_element (o.row + ((p.sub o.row n.row).tileBegin i + x)))
          (q.dist.local_element_from_global_element (o.col + ((q.sub o.col n.col).tileBegin j + y))) =
          some (u.addr x y) := by
  unfold MatrixRefObj.create at hr
  rw [hd] at hr
  have hacc := (C07_sub_accepts (pr := p) (pc := q) (o := o) (n := n)).1 (by
    rw [Option.map_eq_some_iff] at hr
    obtain ⟨d, h1, _⟩ := hr
    exact Option.isSome_iff_exists.2 ⟨d, h1⟩)
  obtain ⟨⟨r1, r2, r3⟩, c1, c2, c3⟩ := hacc
  rw [Option.map_eq_some_iff] at hr
  obtain ⟨d, h1, rfl⟩ := hr
  have hdd : d = ⟨(p.sub o.row n.row).dist, (q.sub o.col n.col).dist⟩ := by
    unfold Distribution.sub at h1
    split at h1
    · rw [← hp.subBuild_eq r1 r2, ← hq.subBuild_eq c1 c2]
      exact (Option.some.inj h1).symm
    · simp at h1
  subst hdd
  obtain ⟨p1, p2, p3, p4, p5, p6⟩ := ref_coord hp r1 r2 r3 hi.1 hi.2 hoi
  obtain ⟨q1, q2, q3, q4, q5, q6⟩ := ref_coord hq c1 c2 c3 hj.1 hj.2 hoj
  generalize hpt : p.dist.global_tile_from_sub_distribution o.row i = pt at *
  generalize hqt : q.dist.global_tile_from_sub_distribution o.col j = qt at *
  generalize hpo : p.dist.tile_element_offset_from_sub_distribution o.row i = po at *
  generalize hqo : q.dist.tile_element_offset_from_sub_distribution o.col j = qo at *
  rw [hd] at hm
  obtain ⟨t, t1, t2, t3, t4, t5, t6⟩ := hm.tile hp hq p3.1 p3.2 q3.1 q3.2
  have htv : t.Valid := hm.tile_valid t (List.mem_of_getElem? t1)
  have hta : a.tileAt (p.dist.local_tile_from_global_tile pt) (q.dist.local_tile_from_global_tile qt) =
      some ⟨a.obj, t⟩ := by
    unfold MatrixObj.tileAt
    rw [hd, t1]
    rfl
  have hgt : a.globalTile ⟨pt, qt⟩ = some ⟨a.obj, t⟩ := by
    unfold MatrixObj.globalTile
    rw [hd]
    exact (if_pos ⟨p3, q3⟩).trans hta
  have hel : ∀ x y, (0 ≤ x ∧ x < (p.sub o.row n.row).dist.global_tile_size_of i) →
      (0 ≤ y ∧ y < (q.sub o.col n.col).dist.global_tile_size_of j) →
      (0 ≤ (p.sub o.row n.row).tileBegin i + x ∧ (p.sub o.row n.row).tileBegin i + x < n.row) ∧
      (0 ≤ (q.sub o.col n.col).tileBegin j + y ∧ (q.sub o.col n.col).tileBegin j + y < n.col) ∧
      a.elem (p.dist.local_element_from_global_element (o.row + ((p.sub o.row n.row).tileBegin i + x)))
        (q.dist.local_element_from_global_element (o.col + ((q.sub o.col n.col).tileBegin j + y))) =
        some (TileRef.addr ⟨a.obj, t⟩ (po + x) (qo + y)) := by
    intro x y hx hy
    obtain ⟨x1, x2, x3⟩ := p6 x hx.1 hx.2
    obtain ⟨y1, y2, y3⟩ := q6 y hy.1 hy.2
    refine ⟨x1, y1, ?_⟩
    rw [← x3, ← y3]
    exact (tileAt_elem hp hq hd p3.1 p3.2 q3.1 q3.2 (by omega) (by rw [p4]; omega) (by omega)
      (by rw [q4]; omega) hta).1
  unfold MatrixRefObj.globalTile
  rw [if_pos ⟨hi, hj⟩]
  dsimp only
  rw [hd]
  simp only [show (dist2 p q).row = p.dist from rfl, show (dist2 p q).col = q.dist from rfl, hpt, hqt, hpo, hqo,
    hgt, Option.bind_some, Distribution.tile_size_of]
  split
  · rename_i heq
    simp only [Coord2.mk.injEq] at heq
    refine ⟨_, rfl, ⟨t4, t5, t6⟩, by rw [t2, p4, heq.1], by rw [t3, q4, heq.2], ?_⟩
    intro x y hx hy
    have z1 : po = 0 := by omega
    have z2 : qo = 0 := by omega
    have := hel x y (by rw [← heq.1, ← p4, ← t2]; exact hx) (by rw [← heq.2, ← q4, ← t3]; exact hy)
    rw [z1, z2, Int.zero_add, Int.zero_add] at this
    exact this
  · have hvs : 0 ≤ t.view.size := by
      have hf := htv.facts
      rcases hf.2.2.2.2 with h | h
      · omega
      · have : 0 ≤ t.ld * (t.cols - 1) := Int.mul_nonneg (by omega) (by omega)
        omega
    obtain ⟨u, hu⟩ := (C13_subtile_accepts htv hvs ⟨⟨po, qo⟩, ⟨(p.sub o.row n.row).dist.global_tile_size_of i,
      (q.sub o.col n.col).dist.global_tile_size_of j⟩⟩).2 (by
        unfold SubTileSpec.Inside
        dsimp only
        omega)
    obtain ⟨u1, u2, _, u4⟩ := C13_subtile_addresses htv hu
    dsimp only at u1 u2
    rw [hu]
    refine ⟨⟨a.obj, u⟩, rfl, ?_, u1, u2, ?_⟩
    · have huv : u.Valid := by
        unfold Tile.subTile at hu
        split at hu
        · rw [Option.bind_eq_some_iff] at hu
          obtain ⟨v, _, hu⟩ := hu
          exact Tile.create_valid hu
        · simp at hu
      have hf := huv.facts
      exact ⟨hf.1, hf.2.1, by show max 1 u.rows ≤ u.ld; omega⟩
    · intro x y hx hy
      obtain ⟨_, ha⟩ := u4 x y hx.1 hx.2 hy.1 hy.2
      obtain ⟨e1, e2, e3⟩ := hel x y (by rw [← u1]; exact hx)
        (by rw [← u2]; exact hy)
      refine ⟨e1, e2, ?_⟩
      rw [e3]
      unfold TileRef.addr
      rw [ha]

theorem Params.Valid.localPos_here (hp : p.Valid) {e : Int} (he : 0 ≤ e) (ho : p.owner e = p.rank) :
    p.dist.local_element_from_global_element e = p.localPos e := by
  have := hp.localPos_eq he
  rw [ho] at this
  exact this

theorem create_facts (hp : p.Valid) (hq : q.Valid) (hd : a.dist = dist2 p q)
    (hr : MatrixRefObj.create a o n = some r) :
    (0 ≤ o.row ∧ 0 ≤ n.row ∧ o.row + n.row ≤ p.size) ∧ (0 ≤ o.col ∧ 0 ≤ n.col ∧ o.col + n.col ≤ q.size) ∧
    r = ⟨a, o, dist2 (p.sub o.row n.row) (q.sub o.col n.col)⟩ := by
  unfold MatrixRefObj.create at hr
  rw [hd] at hr
  rw [Option.map_eq_some_iff] at hr
  obtain ⟨d, h1, rfl⟩ := hr
  have hacc := (C07_sub_accepts (pr := p) (pc := q) (o := o) (n := n)).1 (Option.isSome_iff_exists.2 ⟨d, h1⟩)
  refine ⟨hacc.1, hacc.2, ?_⟩
  have : d = dist2 (p.sub o.row n.row) (q.sub o.col n.col) := by
    unfold Distribution.sub at h1
    split at h1
    · unfold dist2
      rw [← hp.subBuild_eq hacc.1.1 hacc.1.2.1, ← hq.subBuild_eq hacc.2.1 hacc.2.2.1]
      exact (Option.some.inj h1).symm
    · simp at h1
  rw [this]

/-- Ownership of a tile of the sub-matrix is ownership of the corresponding parent tile. -/
theorem sub_tile_owner (hp : p.Valid) {o n t : Int} (ho : 0 ≤ o) (hn : 0 ≤ n) (ht : 0 ≤ t) :
    (p.sub o n).dist.rank_global_tile t =
      p.dist.rank_global_tile (p.dist.global_tile_from_sub_distribution o t) := by
  have hs := hp.sub ho hn
  obtain ⟨b1, b2⟩ := hs.tileBegin_spec ht
  have h := C07_sub_element hp ho hn b1
  dsimp only at h
  rw [hp.subBuild_eq ho hn] at h
  unfold Dist1.rank_global_element at h
  rw [h.2.1] at h
  rw [hs.tileOf_eq b1, b2] at h
  exact h.1

/-- C27, reachability: every element (e1, e2) of the referenced rectangle that this process stores is reached
through the tile of the reference that contains it, at its position in that tile, and the address is the
one of parent element origin + (e1, e2). -/
theorem C27_reaches (hp : p.Valid) (hq : q.Valid) (hd : a.dist = dist2 p q) (hm : Allocated a.dist a.mem)
    (hr : MatrixRefObj.create a o n = some r) {e1 e2 : Int} (h1 : 0 ≤ e1 ∧ e1 < n.row)
    (h2 : 0 ≤ e2 ∧ e2 < n.col) (ho1 : p.owner (o.row + e1) = p.rank) (ho2 : q.owner (o.col + e2) = q.rank) :
    ∃ u, r.globalTile ⟨(p.sub o.row n.row).tileOf e1, (q.sub o.col n.col).tileOf e2⟩ = some u ∧
      ∃ x y, (0 ≤ x ∧ x < u.tile.rows) ∧ (0 ≤ y ∧ y < u.tile.cols) ∧
        x = e1 - (p.sub o.row n.row).tileBegin ((p.sub o.row n.row).tileOf e1) ∧
        y = e2 - (q.sub o.col n.col).tileBegin ((q.sub o.col n.col).tileOf e2) ∧
        a.elem (p.localPos (o.row + e1)) (q.localPos (o.col + e2)) = some (u.addr x y) := by
  obtain ⟨⟨r1, r2, r3⟩, ⟨c1, c2, c3⟩, _⟩ := create_facts hp hq hd hr
  have hs := hp.sub r1 r2
  have hs' := hq.sub c1 c2
  obtain ⟨s1, s2, s3, s4, s5⟩ := C03_global_split hs h1.1 h1.2
  obtain ⟨t1, t2, t3, t4, t5⟩ := C03_global_split hs' h2.1 h2.2
  have k1 := (C07_sub_element hp r1 r2 h1.1).1
  have k2 := (C07_sub_element hq c1 c2 h2.1).1
  rw [hp.subBuild_eq r1 r2, hp.owner_eq (by omega), ho1] at k1
  rw [hq.subBuild_eq c1 c2, hq.owner_eq (by omega), ho2] at k2
  obtain ⟨u, u1, _, u2, u3, u4⟩ := ref_tile hp hq hd hm hr ⟨s2, s3⟩ ⟨t2, t3⟩ k1 k2
  rw [hs.tileBegin_eq s2] at s1
  rw [hs'.tileBegin_eq t2] at t1
  rw [← hs.tileOf_eq h1.1, ← hs'.tileOf_eq h2.1]
  refine ⟨u, u1, (p.sub o.row n.row).dist.tile_element_from_global_element e1,
    (q.sub o.col n.col).dist.tile_element_from_global_element e2, ⟨s4, by rw [u2]; exact s5⟩,
    ⟨t4, by rw [u3]; exact t5⟩, by omega, by omega, ?_⟩
  have := (u4 _ _ ⟨s4, by rw [u2]; exact s5⟩ ⟨t4, by rw [u3]; exact t5⟩).2.2
  rw [s1, t1, hp.localPos_here (by omega) ho1, hq.localPos_here (by omega) ho2] at this
  exact this

/-- C27, confinement: whatever tile is obtained from the reference, each of its elements (x, y) is the parent
element origin + (first element of the tile + (x, y)), which lies in the referenced rectangle and is
stored by this process. -/
theorem C27_only (hp : p.Valid) (hq : q.Valid) (hd : a.dist = dist2 p q) (hm : Allocated a.dist a.mem)
    (hr : MatrixRefObj.create a o n = some r) {ij : Coord2} {u : TileRef} (hu : r.globalTile ij = some u)
    {x y : Int} (hx : 0 ≤ x ∧ x < u.tile.rows) (hy : 0 ≤ y ∧ y < u.tile.cols) :
    ∃ e1 e2, e1 = (p.sub o.row n.row).tileBegin ij.row + x ∧ e2 = (q.sub o.col n.col).tileBegin ij.col + y ∧
      (0 ≤ e1 ∧ e1 < n.row) ∧ (0 ≤ e2 ∧ e2 < n.col) ∧
      p.owner (o.row + e1) = p.rank ∧ q.owner (o.col + e2) = q.rank ∧
      a.elem (p.localPos (o.row + e1)) (q.localPos (o.col + e2)) = some (u.addr x y) := by
  obtain ⟨⟨r1, r2, r3⟩, ⟨c1, c2, c3⟩, hrr⟩ := create_facts hp hq hd hr
  have hu' := hu
  rw [hrr] at hu
  unfold MatrixRefObj.globalTile at hu
  split at hu
  swap
  · simp at hu
  rename_i hin
  obtain ⟨i, j⟩ := ij
  obtain ⟨hi, hj⟩ := hin
  dsimp only at hu
  rw [Option.bind_eq_some_iff] at hu
  obtain ⟨t, ht, _⟩ := hu
  rw [hd] at ht
  unfold MatrixObj.globalTile at ht
  rw [hd] at ht
  dsimp only at ht
  split at ht
  swap
  · simp at ht
  rename_i hl
  have hs := hp.sub r1 r2
  have hs' := hq.sub c1 c2
  -- a non-negative local index means that the tile is stored here
  have own : ∀ {p : Params}, p.Valid → ∀ {t : Int}, 0 ≤ p.dist.local_tile_from_global_tile t →
      p.dist.rank_global_tile t = p.rank := by
    intro p hp t h
    unfold Dist1.local_tile_from_global_tile util.local_tile_from_global_tile at h
    split at h
    · rename_i hh; exact hh.symm
    · omega
  have o1 : (p.sub o.row n.row).dist.rank_global_tile i = p.rank := by
    rw [sub_tile_owner hp r1 r2 hi.1]; exact own hp hl.1.1
  have o2 : (q.sub o.col n.col).dist.rank_global_tile j = q.rank := by
    rw [sub_tile_owner hq c1 c2 hj.1]; exact own hq hl.2.1
  obtain ⟨v, v1, _, v2, v3, v4⟩ := ref_tile hp hq hd hm hr hi hj o1 o2
  rw [hu'] at v1
  obtain rfl := Option.some.inj v1
  obtain ⟨w1, w2, w3⟩ := v4 x y hx hy
  have k1 := ((ref_coord hp r1 r2 r3 hi.1 hi.2 o1).2.2.2.2.2 x hx.1 (by rw [← v2]; exact hx.2)).2.1
  have k2 := ((ref_coord hq c1 c2 c3 hj.1 hj.2 o2).2.2.2.2.2 y hy.1 (by rw [← v3]; exact hy.2)).2.1
  refine ⟨_, _, rfl, rfl, w1, w2, k1, k2, ?_⟩
  rw [← hp.localPos_here (by omega) k1, ← hq.localPos_here (by omega) k2]
  exact w3

/-- C27, availability and shape: every tile of the reference that this process stores is available (no
assertion fails), through its global or its local index, with the size the sub-distribution announces. -/
theorem C27_tiles (hp : p.Valid) (hq : q.Valid) (hd : a.dist = dist2 p q) (hm : Allocated a.dist a.mem)
    (hr : MatrixRefObj.create a o n = some r) {li lj : Int}
    (hi : 0 ≤ li ∧ li < (p.sub o.row n.row).dist.localNrTiles)
    (hj : 0 ≤ lj ∧ lj < (q.sub o.col n.col).dist.localNrTiles) :
    ∃ u, r.localTile ⟨li, lj⟩ = some u ∧
      r.globalTile ⟨(p.sub o.row n.row).dist.global_tile_from_local_tile li,
        (q.sub o.col n.col).dist.global_tile_from_local_tile lj⟩ = some u ∧
      u.tile.rows = (p.sub o.row n.row).dist.local_tile_size_of li ∧
      u.tile.cols = (q.sub o.col n.col).dist.local_tile_size_of lj ∧
      1 ≤ u.tile.rows ∧ 1 ≤ u.tile.cols := by
  obtain ⟨⟨r1, r2, r3⟩, ⟨c1, c2, c3⟩, hrr⟩ := create_facts hp hq hd hr
  have hs := hp.sub r1 r2
  have hs' := hq.sub c1 c2
  obtain ⟨_, g1, g2, g3⟩ := C02_local_global_local hs hi.1 hi.2
  obtain ⟨_, k1, k2, k3⟩ := C02_local_global_local hs' hj.1 hj.2
  obtain ⟨u, u1, _, u2, u3, _⟩ := ref_tile hp hq hd hm hr ⟨g2, g3⟩ ⟨k2, k3⟩ g1 k1
  refine ⟨u, ?_, u1, ?_, ?_, ?_, ?_⟩
  · unfold MatrixRefObj.localTile
    rw [show r.dist.global_tile_index_of_local ⟨li, lj⟩ =
      ⟨(p.sub o.row n.row).dist.global_tile_from_local_tile li,
        (q.sub o.col n.col).dist.global_tile_from_local_tile lj⟩ by rw [hrr]; rfl]
    exact u1
  · rw [u2, hs.wf.local_tsz_eq hi.1 hi.2]
  · rw [u3, hs'.wf.local_tsz_eq hj.1 hj.2]
  · rw [u2]; exact hs.wf.global_tsz_pos g2 g3
  · rw [u3]; exact hs'.wf.global_tsz_pos k2 k3

/-- C27, rejection: exactly the rectangles inside the parent are accepted. -/
theorem C27_accepts (hd : a.dist = dist2 p q) :
    (MatrixRefObj.create a o n).isSome ↔
      (0 ≤ o.row ∧ 0 ≤ n.row ∧ o.row + n.row ≤ p.size) ∧ (0 ≤ o.col ∧ 0 ≤ n.col ∧ o.col + n.col ≤ q.size) := by
  unfold MatrixRefObj.create
  rw [hd, Option.isSome_map]
  exact C07_sub_accepts

/-- The hypotheses are met: an 11 x 7 matrix with 3 x 2 tiles on a 2 x 1 grid, seen from process (0, 0),
and its 6 x 4 sub-matrix at (2, 1); its first local tile is a 1 x 1 part of a parent tile. -/
example : ∃ (p q : Params) (a : MatrixObj) (o n : Coord2) (r : MatrixRefObj) (u : TileRef), p.Valid ∧ q.Valid ∧
    a.dist = dist2 p q ∧ Allocated a.dist a.mem ∧ MatrixRefObj.create a o n = some r ∧
    r.localTile ⟨0, 0⟩ = some u ∧ u.tile.rows = 1 ∧ u.tile.cols = 1 ∧
    (p.sub o.row n.row).dist.localNrTiles = 2 ∧ (q.sub o.col n.col).dist.localNrTiles = 3 := by
  obtain ⟨m, hm⟩ : ∃ m, setUp .Tiles (dist2 ⟨11, 3, 3, 2, 0, 0, 0⟩ ⟨7, 2, 2, 1, 0, 0, 0⟩) 8 .compact = some m :=
    Option.isSome_iff_exists.1 (by decide)
  have hp : (Params.mk 11 3 3 2 0 0 0).Valid := by decide
  have hq : (Params.mk 7 2 2 1 0 0 0).Valid := by decide
  obtain ⟨r, hr⟩ := Option.isSome_iff_exists.1 ((C27_accepts
    (a := ⟨0, dist2 ⟨11, 3, 3, 2, 0, 0, 0⟩ ⟨7, 2, 2, 1, 0, 0, 0⟩, m⟩) (o := ⟨2, 1⟩) (n := ⟨6, 4⟩) rfl).2 (by decide))
  obtain ⟨u, u1, _, u3, u4, _⟩ := C27_tiles hp hq (rfl) (Or.inl ⟨.Tiles, 8, .compact, hm⟩) hr (li := 0) (lj := 0)
    (by decide) (by decide)
  exact ⟨_, _, _, _, _, r, u, hp, hq, rfl, Or.inl ⟨.Tiles, 8, .compact, hm⟩, hr, u1, u3.trans (by decide),
    u4.trans (by decide), by decide, by decide⟩

end DLAF
