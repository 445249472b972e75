import Verif.Lemmas.MatrixTiles
import Verif.Props.SubDistribution
/- C21: local matrix and tile copies are exact and leave the rest unchanged. -/
namespace DLAF

/-- C21: copying a tile to a tile of the same shape gives it the same contents and changes no other cell,
for any two leading dimensions, any element type, in Debug and Release builds, and whatever the order in
which the elements are moved. -/
theorem C21_tile_copy {E : Type} (heavy isFloat : Bool) {s d : TileRef} (ws : s.WF) (wd : d.WF)
    (hsz : s.SameShape d) (hdis : ∀ x ∈ s.cells, x ∉ d.cells) :
    ∃ l, tileCopy heavy isFloat s d = some l ∧ ∀ l', l'.Perm l → ∀ m : Addr → E,
      d.contents (runAssigns l' m) = s.contents m ∧ ∀ x, x ∉ d.cells → runAssigns l' m x = m x := by
  refine ⟨_, tileCopy_eq ws wd hsz, fun l' hp m => ?_⟩
  have hl : s.cells.length = d.cells.length := by rw [s.cells_length, d.cells_length, hsz.1, hsz.2]
  have hsnd : (s.cells.zip d.cells).map Prod.snd = d.cells := List.map_snd_zip (by omega)
  rw [runAssigns_perm hp m (by rw [hsnd]; exact TileRef.cells_nodup wd) (by
    rintro ⟨a1, a2⟩ ha ⟨b1, b2⟩ hb he
    simp only at he
    subst he
    exact hdis _ (List.of_mem_zip ha).1 (List.of_mem_zip hb).2)]
  exact runAssigns_zip hl (TileRef.cells_nodup wd) hdis m

example : ∃ s d : TileRef, s.WF ∧ d.WF ∧ s.SameShape d ∧ (∀ x ∈ s.cells, x ∉ d.cells) ∧
    s.tile.ld ≠ d.tile.ld ∧ s.cells.length = 6 :=
  ⟨⟨0, ⟨2, 3, ⟨.whole, 4, 20⟩, 5⟩⟩, ⟨0, ⟨2, 3, ⟨.whole, 30, 20⟩, 2⟩⟩, by decide, by decide, by decide,
    by decide, by decide, by decide⟩

theorem mem_grid (n m : Nat) (ij : Nat × Nat) :
    ij ∈ ((List.range m).flatMap fun j => (List.range n).map fun i => (i, j)) ↔ ij.1 < n ∧ ij.2 < m := by
  simp only [List.mem_flatMap, List.mem_map, List.mem_range]
  constructor
  · rintro ⟨j, hj, i, hi, rfl⟩
    exact ⟨hi, hj⟩
  · rintro ⟨h1, h2⟩
    exact ⟨ij.2, h2, ij.1, h1, rfl⟩

theorem grid_nodup (n m : Nat) :
    ((List.range m).flatMap fun j => (List.range n).map fun i => (i, j)).Nodup := by
  rw [List.nodup_flatMap]
  constructor
  · intro j _
    exact List.Nodup.map (fun a b h => by simpa using h) List.nodup_range
  · apply List.Pairwise.imp_of_mem _ (List.nodup_range (n := m))
    intro a b _ _ hab x hx hy
    simp only [List.mem_map, List.mem_range] at hx hy
    obtain ⟨_, _, rfl⟩ := hx
    obtain ⟨_, _, h⟩ := hy
    simp only [Prod.mk.injEq] at h
    exact hab h.2.symm

theorem mapOpt_eq_map {α β : Type _} {f : α → Option β} {g : α → β} {l : List α}
    (h : ∀ a ∈ l, f a = some (g a)) : mapOpt f l = some (l.map g) := by
  induction l with
  | nil => rfl
  | cons a l ih =>
    simp only [mapOpt, h a List.mem_cons_self, ih fun b hb => h b (List.mem_cons_of_mem _ hb),
      List.map_cons]

/-- The two distributions have the same tile sizes over the copied range. -/
def SameRange (p p' : Params) (n b b' : Int) : Prop :=
  ∀ k, 0 ≤ k → k < n → p.dist.local_tile_size_of (b + k) = p'.dist.local_tile_size_of (b' + k)

theorem sumBelow_append (a n : Nat) (f : Int → Int) :
    sumBelow (a + n) f = sumBelow a f + sumBelow n fun k => f (a + k) := by
  unfold sumBelow
  rw [List.range_add, List.map_append, List.sum_append, List.map_map]
  congr 2

theorem localDistance_eq {p : Params} (hp : p.Valid) {b n : Int} (hb : 0 ≤ b) (hn : 0 ≤ n)
    (h : b + n ≤ p.dist.localNrTiles) :
    localDistance p.dist b (b + n) = sumBelow n.toNat fun k => p.dist.local_tile_size_of (b + k) := by
  obtain ⟨b, rfl⟩ := Int.eq_ofNat_of_zero_le hb
  obtain ⟨n, rfl⟩ := Int.eq_ofNat_of_zero_le hn
  have := C40_local_tile_distance hp (a := b) (b := b + n) (by omega) (by push_cast; omega)
  unfold localDistance
  rw [← Nat.cast_add, this, sumBelow_append]
  simp

theorem SameRange.distance {p p' : Params} (hp : p.Valid) (hp' : p'.Valid) {n b b' : Int}
    (hb : 0 ≤ b) (hb' : 0 ≤ b') (hn : 0 ≤ n) (h : b + n ≤ p.dist.localNrTiles)
    (h' : b' + n ≤ p'.dist.localNrTiles) (hs : SameRange p p' n b b') :
    localDistance p.dist b (b + n) = localDistance p'.dist b' (b' + n) := by
  rw [localDistance_eq hp hb hn h, localDistance_eq hp' hb' hn h']
  unfold sumBelow
  congr 1
  apply List.map_congr_left
  intro k hk
  rw [List.mem_range] at hk
  exact hs k (by omega) (by omega)

/-- Tile of an allocated matrix as a tile reference. -/
theorem Allocated.tileAt {p q : Params} (hp : p.Valid) (hq : q.Valid) {a : MatrixObj}
    (hd : a.dist = dist2 p q) (h : Allocated a.dist a.mem) {i j : Int} (hi : 0 ≤ i)
    (hi' : i < p.dist.localNrTiles) (hj : 0 ≤ j) (hj' : j < q.dist.localNrTiles) :
    ∃ t, a.tileAt i j = some t ∧ t.WF ∧ t.obj = a.obj ∧
      t.tile.rows = p.dist.local_tile_size_of i ∧ t.tile.cols = q.dist.local_tile_size_of j := by
  rw [hd] at h
  obtain ⟨t, h1, h2, h3, h4, h5, h6⟩ := h.tile hp hq hi hi' hj hj'
  refine ⟨⟨a.obj, t⟩, ?_, ⟨h4, h5, h6⟩, rfl, h2, h3⟩
  unfold MatrixObj.tileAt
  rw [hd, h1]
  rfl

/-- Two different tiles of a matrix share no cell. -/
theorem tileAt_disjoint {p q : Params} (hp : p.Valid) (hq : q.Valid) {a : MatrixObj}
    (hd : a.dist = dist2 p q) (h : Allocated a.dist a.mem) {i j i' j' : Int} (hi : 0 ≤ i)
    (hi' : i < p.dist.localNrTiles) (hj : 0 ≤ j) (hj' : j < q.dist.localNrTiles) (gi : 0 ≤ i')
    (gi' : i' < p.dist.localNrTiles) (gj : 0 ≤ j') (gj' : j' < q.dist.localNrTiles) {t t' : TileRef}
    (ht : a.tileAt i j = some t) (ht' : a.tileAt i' j' = some t') {x : Addr} (hx : x ∈ t.cells)
    (hx' : x ∈ t'.cells) : i = i' ∧ j = j' := by
  obtain ⟨t1, e1, e2, e3, e4, e5⟩ := h.tileAt hp hq hd hi hi' hj hj'
  obtain ⟨t2, f1, f2, f3, f4, f5⟩ := h.tileAt hp hq hd gi gi' gj gj'
  rw [ht] at e1
  rw [ht'] at f1
  simp only [Option.some.injEq] at e1 f1
  subst e1 f1
  obtain ⟨u, v, u1, u2, v1, v2, rfl⟩ := (t.mem_cells x).1 hx
  obtain ⟨u', v', u1', u2', v1', v2', he⟩ := (t'.mem_cells _).1 hx'
  rw [e4] at u2
  rw [e5] at v2
  rw [f4] at u2'
  rw [f5] at v2'
  obtain ⟨a1, a2⟩ := tileAt_elem hp hq hd hi hi' hj hj' u1 u2 v1 v2 ht
  obtain ⟨b1, b2⟩ := tileAt_elem hp hq hd gi gi' gj gj' u1' u2' v1' v2' ht'
  rw [hd] at h
  have hs := h.sound hp hq
  rw [← he] at b1
  have hab : a.mem.elemAddr (dist2 p q) (p.dist.E i + u) (q.dist.E j + v) =
      a.mem.elemAddr (dist2 p q) (p.dist.E i' + u') (q.dist.E j' + v') := by
    unfold MatrixObj.elem at a1 b1
    rw [hd] at a1 b1
    rw [Option.map_eq_some_iff] at a1 b1
    obtain ⟨y, y1, y2⟩ := a1
    obtain ⟨z, z1, z2⟩ := b1
    rw [y1, z1]
    rw [← z2] at y2
    simp only [Prod.mk.injEq, true_and] at y2
    rw [y2]
  obtain ⟨r1, r2⟩ := hs.injective _ _ _ _ a2 b2 hab
  have le1 : p.dist.E i + u = p.dist.local_element_from_local_tile_and_tile_element i u := by
    unfold Dist1.E Dist1.local_element_from_local_tile_and_tile_element
      util.element_from_tile_and_tile_element
    omega
  have le2 : p.dist.E i' + u' = p.dist.local_element_from_local_tile_and_tile_element i' u' := by
    unfold Dist1.E Dist1.local_element_from_local_tile_and_tile_element
      util.element_from_tile_and_tile_element
    omega
  have le3 : q.dist.E j + v = q.dist.local_element_from_local_tile_and_tile_element j v := by
    unfold Dist1.E Dist1.local_element_from_local_tile_and_tile_element
      util.element_from_tile_and_tile_element
    omega
  have le4 : q.dist.E j' + v' = q.dist.local_element_from_local_tile_and_tile_element j' v' := by
    unfold Dist1.E Dist1.local_element_from_local_tile_and_tile_element
      util.element_from_tile_and_tile_element
    omega
  rw [le1, le2] at r1
  rw [le3, le4] at r2
  have w1 := (hp.local_combine hi hi' u1 u2).1
  have w2 := (hp.local_combine gi gi' u1' u2').1
  have w3 := (hq.local_combine hj hj' v1 v2).1
  have w4 := (hq.local_combine gj gj' v1' v2').1
  rw [r1, w2] at w1
  rw [r2, w4] at w3
  exact ⟨w1.symm, w3.symm⟩

/-- The cells of the destination tiles of a range copy. -/
def InTiles (a : MatrixObj) (b sz : Coord2) (x : Addr) : Prop :=
  ∃ i j t, (0 ≤ i ∧ i < sz.row) ∧ (0 ≤ j ∧ j < sz.col) ∧ a.tileAt (b.row + i) (b.col + j) = some t ∧
    x ∈ t.cells

/-- C21: copying a range of local tiles between two different matrices with the same tile sizes over the
range gives each destination tile the contents of its source tile, changes nothing else, in whatever
order the tasks move the elements. -/
theorem C21_range_copy {E : Type} (heavy isFloat : Bool) {p q p' q' : Params} (hp : p.Valid) (hq : q.Valid)
    (hp' : p'.Valid) (hq' : q'.Valid) {src dst : MatrixObj} (hsd : src.dist = dist2 p q)
    (hdd : dst.dist = dist2 p' q') (hs : Allocated src.dist src.mem) (hd : Allocated dst.dist dst.mem)
    (hobj : src.obj ≠ dst.obj) {sz sb db : Coord2} (hsz : 0 ≤ sz.row ∧ 0 ≤ sz.col)
    (hsb : 0 ≤ sb.row ∧ 0 ≤ sb.col) (hdb : 0 ≤ db.row ∧ 0 ≤ db.col)
    (hse : sb.row + sz.row ≤ p.dist.localNrTiles ∧ sb.col + sz.col ≤ q.dist.localNrTiles)
    (hde : db.row + sz.row ≤ p'.dist.localNrTiles ∧ db.col + sz.col ≤ q'.dist.localNrTiles)
    (hr : SameRange p p' sz.row sb.row db.row) (hc : SameRange q q' sz.col sb.col db.col) :
    ∃ l, matrixCopyRange heavy isFloat sz sb src db dst = some l ∧
      ∀ l', l'.Perm l → ∀ m : Addr → E,
        (∀ i j, (0 ≤ i ∧ i < sz.row) → (0 ≤ j ∧ j < sz.col) →
          ∃ s d, src.tileAt (sb.row + i) (sb.col + j) = some s ∧
            dst.tileAt (db.row + i) (db.col + j) = some d ∧
            d.contents (runAssigns l' m) = s.contents m) ∧
        ∀ x, ¬ InTiles dst db sz x → runAssigns l' m x = m x := by
  -- tiles of the range
  have hS : ∀ i j : Int, (0 ≤ i ∧ i < sz.row) → (0 ≤ j ∧ j < sz.col) → ∃ s,
      src.tileAt (sb.row + i) (sb.col + j) = some s ∧ s.WF ∧ s.obj = src.obj ∧
      s.tile.rows = p.dist.local_tile_size_of (sb.row + i) ∧
      s.tile.cols = q.dist.local_tile_size_of (sb.col + j) := fun i j h1 h2 =>
    hs.tileAt hp hq hsd (by omega) (by omega) (by omega) (by omega)
  have hD : ∀ i j : Int, (0 ≤ i ∧ i < sz.row) → (0 ≤ j ∧ j < sz.col) → ∃ s,
      dst.tileAt (db.row + i) (db.col + j) = some s ∧ s.WF ∧ s.obj = dst.obj ∧
      s.tile.rows = p'.dist.local_tile_size_of (db.row + i) ∧
      s.tile.cols = q'.dist.local_tile_size_of (db.col + j) := fun i j h1 h2 =>
    hd.tileAt hp' hq' hdd (by omega) (by omega) (by omega) (by omega)
  let tl : List (Nat × Nat) :=
    (List.range sz.col.toNat).flatMap fun j => (List.range sz.row.toNat).map fun i => (i, j)
  have htl : ∀ ij : Nat × Nat, ij ∈ tl ↔ ij.1 < sz.row.toNat ∧ ij.2 < sz.col.toNat :=
    fun ij => mem_grid _ _ ij
  let S : Nat × Nat → TileRef := fun ij => (src.tileAt (sb.row + ij.1) (sb.col + ij.2)).getD ⟨0, ⟨0, 0, ⟨.whole, 0, 0⟩, 1⟩⟩
  let D : Nat × Nat → TileRef := fun ij => (dst.tileAt (db.row + ij.1) (db.col + ij.2)).getD ⟨0, ⟨0, 0, ⟨.whole, 0, 0⟩, 1⟩⟩
  have hSD : ∀ ij ∈ tl, src.tileAt (sb.row + ij.1) (sb.col + ij.2) = some (S ij) ∧
      dst.tileAt (db.row + ij.1) (db.col + ij.2) = some (D ij) ∧ (S ij).WF ∧ (D ij).WF ∧
      (S ij).SameShape (D ij) ∧ (S ij).obj = src.obj ∧ (D ij).obj = dst.obj := by
    intro ij hij
    obtain ⟨h1, h2⟩ := (htl ij).1 hij
    obtain ⟨s, a1, a2, a3, a4, a5⟩ := hS ij.1 ij.2 ⟨by omega, by omega⟩ ⟨by omega, by omega⟩
    obtain ⟨d, b1, b2, b3, b4, b5⟩ := hD ij.1 ij.2 ⟨by omega, by omega⟩ ⟨by omega, by omega⟩
    have e1 : S ij = s := by simp only [S, a1, Option.getD_some]
    have e2 : D ij = d := by simp only [D, b1, Option.getD_some]
    rw [e1, e2]
    refine ⟨a1, b1, a2, b2, ⟨?_, ?_⟩, a3, b3⟩
    · rw [a4, b4]; exact hr _ (by omega) (by omega)
    · rw [a5, b5]; exact hc _ (by omega) (by omega)
  have hl : matrixCopyRange heavy isFloat sz sb src db dst =
      some ((tl.map fun ij => (S ij).cells.zip (D ij).cells).flatten) := by
    unfold matrixCopyRange
    rw [hsd, hdd, if_pos ⟨hr.distance hp hp' hsb.1 hdb.1 hsz.1 hse.1 hde.1,
      hc.distance hq hq' hsb.2 hdb.2 hsz.2 hse.2 hde.2⟩]
    rw [mapOpt_eq_map (g := fun ij => (S ij).cells.zip (D ij).cells)]
    · rfl
    · intro ij hij
      obtain ⟨h1, h2, h3, h4, h5, _, _⟩ := hSD ij hij
      rw [h1, h2, Option.bind_some, Option.bind_some, tileCopy_eq h3 h4 h5]
  refine ⟨_, hl, fun l' hperm m => ?_⟩
  have hlen : ∀ ij ∈ tl, (S ij).cells.length = (D ij).cells.length := by
    intro ij hij
    obtain ⟨_, _, _, _, h5, _, _⟩ := hSD ij hij
    rw [TileRef.cells_length, TileRef.cells_length, h5.1, h5.2]
  have hsnd : ((tl.map fun ij => (S ij).cells.zip (D ij).cells).flatten).map Prod.snd =
      tl.flatMap fun ij => (D ij).cells := by
    rw [List.map_flatten, List.map_map, List.flatMap_def]
    congr 1
    apply List.map_congr_left
    intro ij hij
    exact List.map_snd_zip (by rw [hlen ij hij])
  have hnd : (tl.flatMap fun ij => (D ij).cells).Nodup := by
    rw [List.nodup_flatMap]
    refine ⟨fun ij hij => TileRef.cells_nodup (hSD ij hij).2.2.2.1, ?_⟩
    apply List.Pairwise.imp_of_mem _ (grid_nodup sz.row.toNat sz.col.toNat)
    intro a b ha hb hab x hx hy
    obtain ⟨a1, a2⟩ := (htl a).1 ha
    obtain ⟨b1, b2⟩ := (htl b).1 hb
    obtain ⟨r1, r2⟩ := tileAt_disjoint hp' hq' hdd hd (by omega) (by omega) (by omega) (by omega) (by omega)
      (by omega) (by omega) (by omega) (hSD a ha).2.1 (hSD b hb).2.1 hx hy
    exact hab (Prod.ext (by omega) (by omega))
  have hdis : ∀ a ∈ (tl.map fun ij => (S ij).cells.zip (D ij).cells).flatten,
      ∀ b ∈ (tl.map fun ij => (S ij).cells.zip (D ij).cells).flatten, a.1 ≠ b.2 := by
    intro a ha b hb he
    simp only [List.mem_flatten, List.mem_map] at ha hb
    obtain ⟨_, ⟨u, hu, rfl⟩, ha⟩ := ha
    obtain ⟨_, ⟨v, hv, rfl⟩, hb⟩ := hb
    have h1 := TileRef.cells_obj (List.of_mem_zip (a := a.1) (b := a.2) ha).1
    have h2 := TileRef.cells_obj (List.of_mem_zip (a := b.1) (b := b.2) hb).2
    rw [(hSD u hu).2.2.2.2.2.1] at h1
    rw [(hSD v hv).2.2.2.2.2.2] at h2
    rw [he] at h1
    exact hobj (h1.symm.trans h2)
  rw [runAssigns_perm hperm m (by rw [hsnd]; exact hnd) hdis]
  constructor
  · intro i j hi hj
    have hij : (i.toNat, j.toNat) ∈ tl := (htl _).2 ⟨by simp only; omega, by simp only; omega⟩
    obtain ⟨h1, h2, h3, h4, h5, h6, h7⟩ := hSD _ hij
    simp only [Int.toNat_of_nonneg hi.1, Int.toNat_of_nonneg hj.1] at h1 h2
    refine ⟨_, _, h1, h2, ?_⟩
    unfold TileRef.contents
    apply List.ext_getElem
    · simp [hlen _ hij]
    · intro k a b
      rw [List.getElem_map, List.getElem_map]
      simp only [List.length_map] at a b
      apply runAssigns_mem _ _ (by rw [hsnd]; exact hnd) hdis
      simp only [List.mem_flatten, List.mem_map]
      refine ⟨_, ⟨_, hij, rfl⟩, ?_⟩
      rw [List.mem_iff_getElem]
      exact ⟨k, by rw [List.length_zip]; omega, by simp [List.getElem_zip]⟩
  · intro x hx
    apply runAssigns_other
    rw [hsnd]
    intro hm
    rw [List.mem_flatMap] at hm
    obtain ⟨ij, hij, hm⟩ := hm
    obtain ⟨h1, h2⟩ := (htl ij).1 hij
    exact hx ⟨ij.1, ij.2, _, ⟨by omega, by omega⟩, ⟨by omega, by omega⟩, (hSD ij hij).2.1, hm⟩

/-- C21: copying a matrix to another one with the same distribution copies every local element and changes
no other memory, for any pair of layouts and leading dimensions, in whatever order elements are moved. -/
theorem C21_matrix_copy {E : Type} (heavy isFloat : Bool) {p q : Params} (hp : p.Valid) (hq : q.Valid)
    {src dst : MatrixObj} (hsd : src.dist = dist2 p q) (hdd : dst.dist = dist2 p q)
    (hs : Allocated src.dist src.mem) (hd : Allocated dst.dist dst.mem) (hobj : src.obj ≠ dst.obj) :
    ∃ l, matrixCopy heavy isFloat src dst = some l ∧ ∀ l', l'.Perm l → ∀ m : Addr → E,
      (∀ i j, (dist2 p q).LocalElem i j → ∃ a b, src.elem i j = some a ∧ dst.elem i j = some b ∧
        runAssigns l' m b = m a) ∧
      ∀ x, (∀ i j, (dist2 p q).LocalElem i j → dst.elem i j ≠ some x) → runAssigns l' m x = m x := by
  have hpn := hp.wf.localNrTiles_nonneg
  have hqn := hq.wf.localNrTiles_nonneg
  obtain ⟨l, hl, h⟩ := C21_range_copy (E := E) heavy isFloat hp hq hp hq hsd hdd hs hd hobj
    (sz := ⟨p.dist.localNrTiles, q.dist.localNrTiles⟩) (sb := ⟨0, 0⟩) (db := ⟨0, 0⟩) ⟨hpn, hqn⟩
    ⟨by simp, by simp⟩ ⟨by simp, by simp⟩ ⟨by simp, by simp⟩ ⟨by simp, by simp⟩
    (fun _ _ _ => rfl) (fun _ _ _ => rfl)
  refine ⟨l, ?_, fun l' hp' m => ?_⟩
  · unfold matrixCopy
    rw [hsd]
    exact hl
  obtain ⟨h1, h2⟩ := h l' hp' m
  constructor
  · intro i j hij
    obtain ⟨⟨i1, i2⟩, j1, j2⟩ := hij
    obtain ⟨ti, ei, _, _, a1, a2, a3, a4, rfl⟩ := hp.local_split i1 i2
    obtain ⟨tj, ej, _, _, b1, b2, b3, b4, rfl⟩ := hq.local_split j1 j2
    obtain ⟨s, d, hs', hd', hc⟩ := h1 ti tj ⟨a1, a2⟩ ⟨b1, b2⟩
    simp only [Int.zero_add] at hs' hd'
    refine ⟨s.addr ei ej, d.addr ei ej, (tileAt_elem hp hq hsd a1 a2 b1 b2 a3 a4 b3 b4 hs').1,
      (tileAt_elem hp hq hdd a1 a2 b1 b2 a3 a4 b3 b4 hd').1, ?_⟩
    obtain ⟨s', e1, _, _, e4, e5⟩ := hs.tileAt hp hq hsd a1 a2 b1 b2
    obtain ⟨d', f1, _, _, f4, f5⟩ := hd.tileAt hp hq hdd a1 a2 b1 b2
    rw [hs'] at e1
    rw [hd'] at f1
    simp only [Option.some.injEq] at e1 f1
    subst e1 f1
    unfold TileRef.contents TileRef.cells at hc
    rw [e4, e5, f4, f5] at hc
    have hk := congrArg (fun l => l[ei.toNat + (p.dist.local_tile_size_of ti).toNat * ej.toNat]?) hc
    rw [List.map_flatMap, List.map_flatMap] at hk
    have key : ∀ (g : Nat → Nat → E) (n c : Nat) (a b : Nat), a < n → b < c →
        ((List.range c).flatMap fun j => (List.range n).map fun i => g i j)[a + n * b]? = some (g a b) := by
      intro g n c a b ha hb
      rw [range_mul_flatMap (fun j i => g i j)]
      have hlt : a + n * b < c * n := by
        have := Nat.mul_le_mul_left n (show b + 1 ≤ c by omega)
        rw [Nat.mul_comm c n, Nat.mul_add] at *
        omega
      rw [List.getElem?_map, List.getElem?_range hlt, Option.map_some]
      have hn : 0 < n := by omega
      rw [Nat.add_mul_mod_self_left, Nat.mod_eq_of_lt ha, Nat.add_mul_div_left _ _ hn,
        Nat.div_eq_of_lt ha, Nat.zero_add]
    simp only [List.map_map, Function.comp_def] at hk
    rw [key (fun i j => runAssigns l' m (d.addr (i : Int) (j : Int))) _ _ _ _ (by omega) (by omega),
      key (fun i j => m (s.addr (i : Int) (j : Int))) _ _ _ _ (by omega) (by omega)] at hk
    simpa only [Option.some.injEq, Int.toNat_of_nonneg a3, Int.toNat_of_nonneg b3] using hk
  · intro x hx
    apply h2
    rintro ⟨i, j, t, hi, hj, ht, hm⟩
    simp only [Int.zero_add] at ht
    obtain ⟨t', e1, _, _, e4, e5⟩ := hd.tileAt hp hq hdd hi.1 hi.2 hj.1 hj.2
    rw [ht] at e1
    simp only [Option.some.injEq] at e1
    subst e1
    obtain ⟨u, v, u1, u2, v1, v2, rfl⟩ := (t.mem_cells x).1 hm
    rw [e4] at u2
    rw [e5] at v2
    obtain ⟨a1, a2⟩ := tileAt_elem hp hq hdd hi.1 hi.2 hj.1 hj.2 u1 u2 v1 v2 ht
    exact hx _ _ a2 a1

/-- A 5x4 matrix in 2x2 tiles on a 2x1 grid, rank (0,0), in two layouts. -/
def exP : Params := ⟨5, 2, 2, 2, 0, 0, 0⟩
def exQ : Params := ⟨4, 2, 2, 1, 0, 0, 0⟩

example : exP.Valid ∧ exQ.Valid ∧
    (∃ m, setUp .ColMajor (dist2 exP exQ) 1 .compact = some m ∧ m.tiles.length = 4) ∧
    (∃ m, setUp .Tiles (dist2 exP exQ) 4 .padded = some m ∧ m.tiles.length = 4) :=
  ⟨by decide, by decide, ⟨_, rfl, by decide⟩, ⟨_, rfl, by decide⟩⟩

/-! ### The size check of the range copy -/

/-- 4 rows in tiles of 3, and 4 rows in tiles of 2 (both one process). -/
def wideP : Params := ⟨4, 3, 3, 1, 0, 0, 0⟩
def narrowP : Params := ⟨4, 2, 2, 1, 0, 0, 0⟩
def oneQ : Params := ⟨1, 1, 1, 1, 0, 0, 0⟩

def wideM : MatrixObj := ⟨0, dist2 wideP oneQ, (setUp .Tiles (dist2 wideP oneQ) 1 .compact).getD ⟨[], fun _ => 0⟩⟩
def narrowM : MatrixObj :=
  ⟨1, dist2 narrowP oneQ, (setUp .Tiles (dist2 narrowP oneQ) 1 .compact).getD ⟨[], fun _ => 0⟩⟩

/-- C21 does not extend to matrices of the same size with different tile sizes, although the function's
only (Release) check accepts them: the check compares the total length of the range, not the tiles.  Here
row 2 of the source tile (0,0) is written past the end of the destination tile (0,0). -/
theorem C21_tile_size_mismatch_accepted :
    ∃ l, matrixCopy false true wideM narrowM = some l ∧
      (∃ t, narrowM.tileAt 0 0 = some t ∧ t.tile.rows = 2 ∧ t.tile.view.size = 2 ∧
        ((0, .tile 0 0, 2), (1, t.tile.view.chunk, 2)) ∈ l) := by
  refine ⟨[((0, .tile 0 0, 0), (1, .tile 0 0, 0)), ((0, .tile 0 0, 1), (1, .tile 0 0, 1)),
    ((0, .tile 0 0, 2), (1, .tile 0 0, 2)), ((0, .tile 1 0, 0), (1, .tile 1 0, 0))], by decide, ?_⟩
  exact ⟨_, rfl, by decide, by decide, by decide⟩

/-- Debug builds detect it. -/
theorem C21_tile_size_mismatch_debug : matrixCopy true true wideM narrowM = none := by decide

end DLAF
