import Verif.Model.Redistribute
import Verif.Lemmas.DistLists
import Verif.Props.Retile
/- Lemmas for C20. -/
namespace DLAF

theorem filterMap_ite {α β : Type} (p : α → Bool) (f : α → β) (l : List α) :
    l.filterMap (fun a => if p a = true then some (f a) else none) = (l.filter p).map f := by
  induction l with
  | nil => rfl
  | cons a l ih => by_cases h : p a = true <;> simp [h, ih]

theorem matchAll_spec {V : Type} (val : Coord2 → V) : ∀ (rs : List Recv) (q : Coord2 → Int → List V),
    (∀ s t, q s t = (rs.filter fun r => r.source = s ∧ r.tag = t).map fun r => val r.slot) →
    matchAll q rs = rs.map fun r => (r.slot, some (val r.slot))
  | [], _, _ => rfl
  | r :: rs, q, h => by
    have h1 := h r.source r.tag
    rw [List.filter_cons_of_pos (by simp), List.map_cons] at h1
    unfold matchAll
    rw [h1]
    dsimp only
    rw [List.map_cons]
    congr 1
    apply matchAll_spec val rs
    intro s t
    by_cases hst : s = r.source ∧ t = r.tag
    · rw [if_pos hst, hst.1, hst.2]
    · rw [if_neg hst, h s t, List.filter_cons_of_neg]
      simp only [decide_eq_true_eq, not_and]
      intro a b; exact hst ⟨a.symm, b.symm⟩

/-- distribution of the matrix (p, q) on rank r -/
def distOn (p q : Params) (r : Coord2) : Distribution := dist2 (p.onRank r.row) (q.onRank r.col)

/-- r is a rank of the grid -/
def InGrid (p q : Params) (r : Coord2) : Prop := (0 ≤ r.row ∧ r.row < p.grid) ∧ (0 ≤ r.col ∧ r.col < q.grid)

/-- Two distributions along one coordinate cut the same matrix in the same tiles. -/
structure SameTiles (p q : Params) : Prop where
  vp : p.Valid
  vq : q.Valid
  size : p.size = q.size
  tile : p.tile = q.tile
  op : p.offset = 0
  oq : q.offset = 0
  grid : p.grid = q.grid

namespace SameTiles
variable {p q : Params} (h : SameTiles p q)
include h

theorem gteo (r : Int) : (p.onRank r).dist.global_tile_element_offset = 0 ∧
    (q.onRank r).dist.global_tile_element_offset = 0 := by
  refine ⟨h.vp.gteo_eq.trans ?_, h.vq.gteo_eq.trans ?_⟩
  · rw [h.op]; simp
  · rw [h.oq]; simp

theorem nrTiles : p.dist.nrTiles = q.dist.nrTiles := by
  rw [C06_nr_tiles h.vp, C06_nr_tiles h.vq]
  unfold Params.tileOf
  rw [h.size, h.tile, h.op, h.oq]

theorem tileSize {t : Int} : p.dist.global_tile_size_of t = q.dist.global_tile_size_of t := by
  have h1 := (h.gteo p.rank).1
  have h2 := (h.gteo q.rank).2
  have h1 : p.dist.global_tile_element_offset = 0 := h1
  have h2 : q.dist.global_tile_element_offset = 0 := h2
  unfold Dist1.global_tile_size_of
  rw [h1, h2, show p.dist.tileSize = p.tile from rfl, show q.dist.tileSize = q.tile from rfl,
    show p.dist.size = p.size from rfl, show q.dist.size = q.size from rfl, h.size, h.tile]

theorem tile_of (r s : Int) (e : Int) : (p.onRank r).dist.global_tile_from_global_element e =
    (q.onRank s).dist.global_tile_from_global_element e ∧
    (p.onRank r).dist.tile_element_from_global_element e = (q.onRank s).dist.tile_element_from_global_element e := by
  unfold Dist1.global_tile_from_global_element Dist1.tile_element_from_global_element
  rw [(h.gteo r).1, (h.gteo s).2, show (p.onRank r).dist.tileSize = p.tile from rfl,
    show (q.onRank s).dist.tileSize = q.tile from rfl, h.tile]
  exact ⟨rfl, rfl⟩

end SameTiles

/-- Recombining a local tile and an element in it. -/
theorem Params.Valid.local_combine {p : Params} (hp : p.Valid) {t te : Int} (ht : 0 ≤ t)
    (htN : t < p.dist.localNrTiles) (hte : 0 ≤ te) (hte' : te < p.dist.local_tile_size_of t) :
    p.dist.local_tile_from_local_element (p.dist.local_element_from_local_tile_and_tile_element t te) = t ∧
    p.dist.tile_element_from_local_element (p.dist.local_element_from_local_tile_and_tile_element t te) = te := by
  have w := hp.wf
  have hr := w.lteo_range
  have hb := w.localSize_bounds (by omega)
  rw [w.local_tsz ht htN] at hte'
  have hre : te + (if t = 0 then p.dist.local_tile_element_offset else 0) < p.dist.tileSize := by
    split_ifs at hte' ⊢ <;> omega
  have h : p.dist.local_element_from_local_tile_and_tile_element t te + p.dist.local_tile_element_offset =
      t * p.dist.tileSize + (te + (if t = 0 then p.dist.local_tile_element_offset else 0)) := by
    unfold Dist1.local_element_from_local_tile_and_tile_element util.element_from_tile_and_tile_element
    split_ifs <;> omega
  have h0 : 0 ≤ te + (if t = 0 then p.dist.local_tile_element_offset else 0) := by split_ifs <;> omega
  refine ⟨cdiv_eq ht h0 hre h, ?_⟩
  have := tile_element_eq w.tile_pos ht h0 hre h
  refine Eq.trans this ?_
  split_ifs <;> omega

/-- An owned element: its position in the local tile grid. -/
theorem Params.Valid.owned_elem {p : Params} (hp : p.Valid) {e : Int} (he : 0 ≤ e) (hes : e < p.size)
    (ho : p.owner e = p.rank) :
    0 ≤ p.dist.local_element_from_global_element e ∧
    p.dist.local_element_from_global_element e < p.dist.localSize ∧
    p.dist.local_tile_from_local_element (p.dist.local_element_from_global_element e) =
      p.dist.local_tile_from_global_tile (p.dist.global_tile_from_global_element e) ∧
    p.dist.tile_element_from_local_element (p.dist.local_element_from_global_element e) =
      p.dist.tile_element_from_global_element e ∧
    p.dist.local_element_from_global_element e =
      p.dist.local_element_from_local_tile_and_tile_element
        (p.dist.local_tile_from_global_tile (p.dist.global_tile_from_global_element e))
        (p.dist.tile_element_from_global_element e) ∧
    p.dist.rank_global_tile (p.dist.global_tile_from_global_element e) = p.rank := by
  have w := hp.wf
  have hor : p.dist.rank_global_tile (p.dist.global_tile_from_global_element e) = p.rank := by
    rw [← ho, ← hp.owner_eq he]; rfl
  obtain ⟨g1, g2, g3, g4, g5⟩ := C03_global_split hp he hes
  have hl := (w.cyc.local_nonneg_iff g2).2 hor.symm
  have hll := w.cyc.local_lt g2 g3 hor.symm
  have hE : p.dist.local_element_from_global_element e =
      p.dist.local_element_from_local_tile_and_tile_element
        (p.dist.local_tile_from_global_tile (p.dist.global_tile_from_global_element e))
        (p.dist.tile_element_from_global_element e) := by
    unfold Dist1.local_element_from_global_element
    dsimp only
    rw [if_neg]
    · rfl
    · have : 0 ≤ p.dist.local_tile_from_global_element e := hl
      omega
  have hC := (C01_element_owner hp he hes).2 p.rank w.rank_nonneg w.rank_lt
  have hC2 := hC.2.1 ho.symm
  have hC3 : 0 ≤ p.dist.local_element_from_global_element e ∧
      p.dist.local_element_from_global_element e < p.dist.localSize := hC2
  have hsz := C06_local_global_size_agree hp (lt := p.dist.local_tile_from_global_tile
    (p.dist.global_tile_from_global_element e)) hl (by rw [w.localNrTiles_eq]; exact hll)
  have hlg : p.dist.global_tile_from_local_tile (p.dist.local_tile_from_global_tile
    (p.dist.global_tile_from_global_element e)) = p.dist.global_tile_from_global_element e :=
    w.cyc.local_global g2 hor.symm
  rw [hlg] at hsz
  obtain ⟨c1, c2⟩ := hp.local_combine (t := p.dist.local_tile_from_global_tile
    (p.dist.global_tile_from_global_element e)) (te := p.dist.tile_element_from_global_element e) hl
    (by rw [w.localNrTiles_eq]; exact hll) g4 (by rw [hsz]; exact g5)
  rw [← hE] at c1 c2
  exact ⟨hC3.1, hC3.2, c1, c2, hE, hor⟩


/-- The tiles of a matrix in column-major order. -/
def allTiles (d : Distribution) : List Coord2 := pairs (ints d.row.nrTiles) (ints d.col.nrTiles)

theorem allTiles_nodup (d : Distribution) : (allTiles d).Nodup := pairs_nodup (ints_nodup _) (ints_nodup _)

theorem localTileIdx_pairs (d : Distribution) :
    localTileIdx d = pairs (ints d.row.localNrTiles) (ints d.col.localNrTiles) := by
  unfold localTileIdx localTiles pairs ints
  rw [List.map_flatMap, List.flatMap_map]
  congr 1
  funext j
  rw [List.map_map, List.map_map]
  rfl

section
variable {p q : Params} (hp : p.Valid) (hq : q.Valid)
include hp hq

theorem localTileIdx_eq {r : Coord2} (hr : InGrid p q r) :
    localTileIdx (distOn p q r) =
      ((allTiles (dist2 p q)).filter fun ij => (dist2 p q).rank_global_tile ij = r).map
        (distOn p q r).local_tile_index := by
  have hp' := hp.onRank hr.1.1 hr.1.2
  have hq' := hq.onRank hr.2.1 hr.2.2
  rw [localTileIdx_pairs]
  show pairs (ints (p.onRank r.row).dist.localNrTiles) (ints (q.onRank r.col).dist.localNrTiles) = _
  rw [hp'.local_list', hq'.local_list']
  have hf : ((allTiles (dist2 p q)).filter fun ij => decide ((dist2 p q).rank_global_tile ij = r)) =
      (allTiles (dist2 p q)).filter (fun ij => decide (p.dist.rank_global_tile ij.row = r.row) &&
        decide (q.dist.rank_global_tile ij.col = r.col)) := by
    apply List.filter_congr
    intro ij _
    obtain ⟨r1, r2⟩ := r
    have : ((dist2 p q).rank_global_tile ij = ⟨r1, r2⟩) ↔
        (p.dist.rank_global_tile ij.row = r1 ∧ q.dist.rank_global_tile ij.col = r2) := by
      unfold Distribution.rank_global_tile dist2
      simp only [Coord2.mk.injEq]
    simp only [this, Bool.decide_and]
  rw [hf]
  unfold allTiles
  rw [pairs_filter (fun i => decide (p.dist.rank_global_tile i = r.row))
    (fun j => decide (q.dist.rank_global_tile j = r.col)), ← pairs_map]
  rfl

/-- owned tile: local and back -/
theorem owned_tile {r ij : Coord2} (hr : InGrid p q r) (hij : ij ∈ allTiles (dist2 p q))
    (ho : (dist2 p q).rank_global_tile ij = r) :
    (distOn p q r).global_tile_index_of_local ((distOn p q r).local_tile_index ij) = ij ∧
    (distOn p q r).row.local_tile_size_of ((distOn p q r).local_tile_index ij).row =
      p.dist.global_tile_size_of ij.row ∧
    (distOn p q r).col.local_tile_size_of ((distOn p q r).local_tile_index ij).col =
      q.dist.global_tile_size_of ij.col := by
  have hp' := hp.onRank hr.1.1 hr.1.2
  have hq' := hq.onRank hr.2.1 hr.2.2
  obtain ⟨i, j⟩ := ij
  obtain ⟨h1, h2⟩ := mem_pairs.1 hij
  have h1 := mem_ints.1 h1
  have h2 := mem_ints.1 h2
  dsimp only at h1 h2
  unfold Distribution.rank_global_tile dist2 at ho
  subst ho
  dsimp only at hp' hq' ⊢
  have o1 : (p.onRank (p.dist.rank_global_tile i)).dist.rank_global_tile i = (p.onRank (p.dist.rank_global_tile i)).rank := rfl
  have o2 : (q.onRank (q.dist.rank_global_tile j)).dist.rank_global_tile j = (q.onRank (q.dist.rank_global_tile j)).rank := rfl
  have g1 := C02_global_local_global hp' h1.1 o1
  have g2 := C02_global_local_global hq' h2.1 o2
  refine ⟨?_, ?_, ?_⟩
  · show (⟨_, _⟩ : Coord2) = _
    congr 1
  · have := C06_local_global_size_agree hp' ((hp'.wf.cyc.local_nonneg_iff h1.1).2 o1.symm)
      (by rw [hp'.wf.localNrTiles_eq]; exact hp'.wf.cyc.local_lt h1.1 h1.2 o1.symm)
    exact this.trans (by
      show Dist1.global_tile_size_of _ (Dist1.global_tile_from_local_tile _ (Dist1.local_tile_from_global_tile _ i)) = _
      rw [g1]; rfl)
  · have := C06_local_global_size_agree hq' ((hq'.wf.cyc.local_nonneg_iff h2.1).2 o2.symm)
      (by rw [hq'.wf.localNrTiles_eq]; exact hq'.wf.cyc.local_lt h2.1 h2.2 o2.symm)
    exact this.trans (by
      show Dist1.global_tile_size_of _ (Dist1.global_tile_from_local_tile _ (Dist1.local_tile_from_global_tile _ j)) = _
      rw [g2]; rfl)

end

section
variable {sr sc dr dc : Params} (hR : SameTiles sr dr) (hC : SameTiles sc dc)
include hR hC

theorem allTiles_eq : allTiles (dist2 sr sc) = allTiles (dist2 dr dc) := by
  unfold allTiles
  show pairs (ints sr.dist.nrTiles) (ints sc.dist.nrTiles) = pairs (ints dr.dist.nrTiles) (ints dc.dist.nrTiles)
  rw [hR.nrTiles, hC.nrTiles]

theorem inGrid_iff {r : Coord2} : InGrid sr sc r ↔ InGrid dr dc r := by
  unfold InGrid; rw [hR.grid, hC.grid]

theorem copySends_eq {E : Type} {r : Coord2} (hr : InGrid sr sc r) (st : Int → Int → E) :
    copySends (distOn sr sc r) (distOn dr dc r) st =
      ((allTiles (dist2 sr sc)).filter fun ij => (dist2 sr sc).rank_global_tile ij = r ∧
        (dist2 dr dc).rank_global_tile ij ≠ r).map fun ij =>
        ⟨(dist2 dr dc).rank_global_tile ij, copyTag (dist2 sr sc) ij,
          readTile (distOn sr sc r) st ((distOn sr sc r).local_tile_index ij)⟩ := by
  unfold copySends
  rw [localTileIdx_eq hR.vp hC.vp hr, List.filterMap_map]
  have : ((allTiles (dist2 sr sc)).filter fun ij => decide ((dist2 sr sc).rank_global_tile ij = r ∧
        (dist2 dr dc).rank_global_tile ij ≠ r)) =
      ((allTiles (dist2 sr sc)).filter fun ij => decide ((dist2 sr sc).rank_global_tile ij = r)).filter
        fun ij => decide ((dist2 dr dc).rank_global_tile ij ≠ r) := by
    rw [List.filter_filter]
    apply List.filter_congr
    intro ij _
    simp only [Bool.decide_and, Bool.and_comm]
  rw [this, ← filterMap_ite]
  apply List.filterMap_congr
  intro ij hij
  simp only [List.mem_filter, decide_eq_true_eq] at hij
  have hg := (owned_tile hR.vp hC.vp hr hij.1 hij.2).1
  simp only [Function.comp, hg]
  have e1 : (distOn sr sc r).rankIndex = r := rfl
  have e2 : (distOn sr sc r).rank_global_tile ij = r := hij.2
  have e3 : (distOn dr dc r).rank_global_tile ij = (dist2 dr dc).rank_global_tile ij := rfl
  rw [e1, e2, e3]
  by_cases h : (dist2 dr dc).rank_global_tile ij = r
  · simp [h]
  · have h' : r ≠ (dist2 dr dc).rank_global_tile ij := fun a => h a.symm
    simp only [h, h', ne_eq, not_false_eq_true, decide_true, decide_false, if_true]
    rfl

theorem copyRecvs_eq {r : Coord2} (hr : InGrid sr sc r) :
    copyRecvs (distOn sr sc r) (distOn dr dc r) =
      ((allTiles (dist2 sr sc)).filter fun ij => (dist2 dr dc).rank_global_tile ij = r ∧
        (dist2 sr sc).rank_global_tile ij ≠ r).map fun ij =>
        ⟨(dist2 sr sc).rank_global_tile ij, copyTag (dist2 sr sc) ij, (distOn dr dc r).local_tile_index ij⟩ := by
  have hr' := (inGrid_iff hR hC).1 hr
  unfold copyRecvs
  rw [localTileIdx_eq hR.vq hC.vq hr', List.filterMap_map, allTiles_eq hR hC]
  have : ((allTiles (dist2 dr dc)).filter fun ij => decide ((dist2 dr dc).rank_global_tile ij = r ∧
        (dist2 sr sc).rank_global_tile ij ≠ r)) =
      ((allTiles (dist2 dr dc)).filter fun ij => decide ((dist2 dr dc).rank_global_tile ij = r)).filter
        fun ij => decide ((dist2 sr sc).rank_global_tile ij ≠ r) := by
    rw [List.filter_filter]
    apply List.filter_congr
    intro ij _
    simp only [Bool.decide_and, Bool.and_comm]
  rw [this, ← filterMap_ite]
  apply List.filterMap_congr
  intro ij hij
  simp only [List.mem_filter, decide_eq_true_eq] at hij
  have hg := (owned_tile hR.vq hC.vq hr' hij.1 hij.2).1
  simp only [Function.comp, hg]
  have e1 : (distOn dr dc r).rankIndex = r := rfl
  have e2 : (distOn dr dc r).rank_global_tile ij = r := hij.2
  have e3 : (distOn sr sc r).rank_global_tile ij = (dist2 sr sc).rank_global_tile ij := rfl
  rw [e1, e2, e3]
  by_cases h : (dist2 sr sc).rank_global_tile ij = r
  · simp [h]
  · have h' : r ≠ (dist2 sr sc).rank_global_tile ij := fun a => h a.symm
    simp only [h, h', ne_eq, not_false_eq_true, decide_true, decide_false, if_true]
    rfl

theorem copyLocals_eq {E : Type} {r : Coord2} (hr : InGrid sr sc r) (st : Int → Int → E) :
    copyLocals (distOn sr sc r) (distOn dr dc r) st =
      ((allTiles (dist2 sr sc)).filter fun ij => (dist2 dr dc).rank_global_tile ij = r ∧
        (dist2 sr sc).rank_global_tile ij = r).map fun ij =>
        ((distOn dr dc r).local_tile_index ij,
          readTile (distOn sr sc r) st ((distOn sr sc r).local_tile_index ij)) := by
  have hr' := (inGrid_iff hR hC).1 hr
  unfold copyLocals
  rw [localTileIdx_eq hR.vq hC.vq hr', List.filterMap_map, allTiles_eq hR hC]
  have : ((allTiles (dist2 dr dc)).filter fun ij => decide ((dist2 dr dc).rank_global_tile ij = r ∧
        (dist2 sr sc).rank_global_tile ij = r)) =
      ((allTiles (dist2 dr dc)).filter fun ij => decide ((dist2 dr dc).rank_global_tile ij = r)).filter
        fun ij => decide ((dist2 sr sc).rank_global_tile ij = r) := by
    rw [List.filter_filter]
    apply List.filter_congr
    intro ij _
    simp only [Bool.decide_and, Bool.and_comm]
  rw [this, ← filterMap_ite]
  apply List.filterMap_congr
  intro ij hij
  simp only [List.mem_filter, decide_eq_true_eq] at hij
  have hg := (owned_tile hR.vq hC.vq hr' hij.1 hij.2).1
  simp only [Function.comp, hg]
  have e1 : (distOn dr dc r).rankIndex = r := rfl
  have e2 : (distOn dr dc r).rank_global_tile ij = r := hij.2
  have e3 : (distOn sr sc r).rank_global_tile ij = (dist2 sr sc).rank_global_tile ij := rfl
  rw [e1, e2, e3]
  by_cases h : (dist2 sr sc).rank_global_tile ij = r
  · simp [h]
  · have h' : r ≠ (dist2 sr sc).rank_global_tile ij := fun a => h a.symm
    simp [h, h']

end

theorem Params.Valid.localPos_eq {p : Params} (hp : p.Valid) {e : Int} (he : 0 ≤ e) :
    (p.onRank (p.owner e)).dist.local_element_from_global_element e = p.localPos e := by
  have hg : 0 < p.grid := hp.2.2.2.2.1
  have hp' : (p.onRank (p.owner e)).Valid := hp.onRank (Int.emod_nonneg _ (by omega)) (Int.emod_lt_of_pos _ hg)
  have w := hp'.wf
  have hown : (p.onRank (p.owner e)).dist.rank = util.rank_global_tile e (p.onRank (p.owner e)).dist.blockSize
      (p.onRank (p.owner e)).dist.grid (p.onRank (p.owner e)).dist.src (p.onRank (p.owner e)).dist.offset := by
    rw [← w.rank_elem he, hp'.owner_eq he]; rfl
  rw [w.local_elem he, w.cycE.local_eq_next he hown]
  unfold Params.localPos
  have hnl := w.cycE.next_local_count e.toNat
  rw [show ((e.toNat : Nat) : Int) = e by omega] at hnl
  rw [hnl]
  congr 1
  apply countBelow_congr
  intro k _
  rw [← w.rank_elem (by omega), hp'.owner_eq (by omega)]; rfl

/-- Permutations of a list with at most one element. -/
theorem perm_filter_eq {α : Type} {l m : List α} (h : l.Perm m) (P : α → Bool)
    (h1 : (m.filter P).length ≤ 1) : l.filter P = m.filter P := by
  have hp := h.filter P
  generalize l.filter P = a at *
  generalize m.filter P = b at *
  match b, h1 with
  | [], _ => exact List.Perm.eq_nil hp
  | [x], _ => exact List.perm_singleton.1 hp

/-- A filter that isolates at most one element of a list without duplicates. -/
theorem filter_le_one {α : Type} {l : List α} (hn : l.Nodup) (P : α → Bool)
    (h : ∀ a ∈ l, ∀ b ∈ l, P a = true → P b = true → a = b) : (l.filter P).length ≤ 1 := by
  have hn' := hn.filter P
  match hm : l.filter P with
  | [] => simp
  | [x] => simp
  | x :: y :: t =>
    exfalso
    have hx : x ∈ l.filter P := by rw [hm]; simp
    have hy : y ∈ l.filter P := by rw [hm]; simp
    rw [List.mem_filter] at hx hy
    have := h x hx.1 y hy.1 hx.2 hy.2
    rw [hm, this] at hn'
    simp at hn'

section
variable {sr sc dr dc : Params} (hR : SameTiles sr dr) (hC : SameTiles sc dc)
include hR hC

/-- Contents of the tile that must arrive in local tile `lt` of rank `me`. -/
def arriving {E : Type} (sr sc dr dc : Params) (st : Coord2 → Int → Int → E) (me lt : Coord2) : TileVal E :=
  let ij := (distOn dr dc me).global_tile_index_of_local lt
  let s := (dist2 sr sc).rank_global_tile ij
  readTile (distOn sr sc s) (st s) ((distOn sr sc s).local_tile_index ij)

/-- If messages with the same source, destination and tag are issued in program order, the receives get the
right tiles. -/
theorem writes_perm {E : Type} (st : Coord2 → Int → Int → E) (x : CopyRun E)
    (hsent : ∀ s d t, InGrid sr sc s → InGrid sr sc d →
      inFlight (x.sent s) d t = inFlight (copySends (distOn sr sc s) (distOn dr dc s) (st s)) d t)
    (hperm : ∀ r, InGrid sr sc r → (x.received r).Perm (copyRecvs (distOn sr sc r) (distOn dr dc r)))
    (hrecv : ∀ s d t, InGrid sr sc d → ((x.received d).filter fun r => r.source = s ∧ r.tag = t) =
      ((copyRecvs (distOn sr sc d) (distOn dr dc d)).filter fun r => r.source = s ∧ r.tag = t))
    (hnone : ∀ s, ¬ InGrid sr sc s → x.sent s = [])
    {me : Coord2} (hme : InGrid sr sc me) :
    (x.writes (distOn sr sc me) (distOn dr dc me) (st me) me).Perm
      ((localTileIdx (distOn dr dc me)).map fun lt => (lt, some (arriving sr sc dr dc st me lt))) := by
  have hme' := (inGrid_iff hR hC).1 hme
  have hmatch : matchAll (fun s t => inFlight (x.sent s) me t) (x.received me) =
      (x.received me).map fun r => (r.slot, some (arriving sr sc dr dc st me r.slot)) := by
    apply matchAll_spec
    intro s t
    rw [hrecv s me t hme, copyRecvs_eq hR hC hme, List.filter_map, List.map_map]
    by_cases hs : InGrid sr sc s
    · rw [hsent s me t hs hme]
      unfold inFlight
      rw [copySends_eq hR hC hs, List.filter_map, List.map_map, List.filter_filter, List.filter_filter]
      have e1 : ((allTiles (dist2 sr sc)).filter fun ij =>
            ((fun m : Send E => decide (m.dest = me ∧ m.tag = t)) ∘ fun ij =>
              (⟨(dist2 dr dc).rank_global_tile ij, copyTag (dist2 sr sc) ij,
                readTile (distOn sr sc s) (st s) ((distOn sr sc s).local_tile_index ij)⟩ : Send E)) ij &&
            decide ((dist2 sr sc).rank_global_tile ij = s ∧ (dist2 dr dc).rank_global_tile ij ≠ s)) =
          ((allTiles (dist2 sr sc)).filter fun ij =>
            ((fun m : Recv => decide (m.source = s ∧ m.tag = t)) ∘ fun ij =>
              (⟨(dist2 sr sc).rank_global_tile ij, copyTag (dist2 sr sc) ij,
                (distOn dr dc me).local_tile_index ij⟩ : Recv)) ij &&
            decide ((dist2 dr dc).rank_global_tile ij = me ∧ (dist2 sr sc).rank_global_tile ij ≠ me)) := by
        apply List.filter_congr
        intro ij _
        simp only [Function.comp]
        rw [← Bool.decide_and, ← Bool.decide_and]
        congr 1
        apply propext
        constructor
        · rintro ⟨⟨a, b⟩, c, d⟩
          exact ⟨⟨c, b⟩, a, fun h => d (by rw [a, ← h, c])⟩
        · rintro ⟨⟨c, b⟩, a, d⟩
          exact ⟨⟨a, b⟩, c, fun h => d (by rw [c, ← h, a])⟩
      rw [e1]
      apply List.map_congr_left
      intro ij hij
      simp only [List.mem_filter, Bool.and_eq_true, decide_eq_true_eq, Function.comp] at hij
      obtain ⟨hij, ⟨h1, _⟩, h2, _⟩ := hij
      have hg := (owned_tile hR.vq hC.vq hme' (by rw [← allTiles_eq hR hC]; exact hij) h2).1
      simp only [Function.comp, arriving, hg, h1]
    · rw [show x.sent s = [] from hnone s hs]
      have : ((allTiles (dist2 sr sc)).filter fun ij => decide ((dist2 dr dc).rank_global_tile ij = me ∧
          (dist2 sr sc).rank_global_tile ij ≠ me)).filter ((fun r : Recv => decide (r.source = s ∧ r.tag = t)) ∘
          fun ij => (⟨(dist2 sr sc).rank_global_tile ij, copyTag (dist2 sr sc) ij,
            (distOn dr dc me).local_tile_index ij⟩ : Recv)) = [] := by
        rw [List.filter_eq_nil_iff]
        intro ij hij
        simp only [Function.comp, decide_eq_true_eq, not_and]
        intro h
        exfalso
        apply hs
        rw [← h]
        have wr := hR.vp.wf
        have wc := hC.vp.wf
        unfold InGrid
        rw [List.mem_filter] at hij
        obtain ⟨m1, m2⟩ := mem_pairs.1 hij.1
        have m1 := mem_ints.1 m1
        have m2 := mem_ints.1 m2
        obtain ⟨o, ho, _, hof⟩ := C01_tile_owner hR.vp m1.1 m1.2
        obtain ⟨o', ho', _, hof'⟩ := C01_tile_owner hC.vp m2.1 m2.2
        have a1 := (hof sr.rank wr.rank_nonneg wr.rank_lt).1
        have a2 := (hof' sc.rank wc.rank_nonneg wc.rank_lt).1
        have b1 : ((dist2 sr sc).rank_global_tile ij).row = o := a1
        have b2 : ((dist2 sr sc).rank_global_tile ij).col = o' := a2
        rw [b1, b2]
        exact ⟨ho, ho'⟩
      rw [this]; rfl
  unfold CopyRun.writes
  rw [hmatch]
  have hp1 := (hperm me hme).map fun r => (r.slot, some (arriving sr sc dr dc st me r.slot))
  refine (List.Perm.append_left _ hp1).trans ?_
  rw [copyLocals_eq hR hC hme, copyRecvs_eq hR hC hme, localTileIdx_eq hR.vq hC.vq hme', ← allTiles_eq hR hC]
  simp only [List.map_map]
  have e2 : (((allTiles (dist2 sr sc)).filter fun ij => decide ((dist2 dr dc).rank_global_tile ij = me ∧
      (dist2 sr sc).rank_global_tile ij = me)).map ((fun w : Coord2 × TileVal E => (w.1, some w.2)) ∘ fun ij =>
        ((distOn dr dc me).local_tile_index ij,
          readTile (distOn sr sc me) (st me) ((distOn sr sc me).local_tile_index ij)))) =
      (((allTiles (dist2 sr sc)).filter fun ij => decide ((dist2 dr dc).rank_global_tile ij = me)).filter
        fun ij => decide ((dist2 sr sc).rank_global_tile ij = me)).map
        ((fun lt => (lt, some (arriving sr sc dr dc st me lt))) ∘ (distOn dr dc me).local_tile_index) := by
    rw [List.filter_filter]
    rw [show ((allTiles (dist2 sr sc)).filter fun ij => decide ((dist2 dr dc).rank_global_tile ij = me ∧
      (dist2 sr sc).rank_global_tile ij = me)) = (allTiles (dist2 sr sc)).filter (fun ij =>
        decide ((dist2 sr sc).rank_global_tile ij = me) && decide ((dist2 dr dc).rank_global_tile ij = me)) from by
      apply List.filter_congr; intro ij _; simp only [Bool.decide_and, Bool.and_comm]]
    apply List.map_congr_left
    intro ij hij
    simp only [List.mem_filter, Bool.and_eq_true, decide_eq_true_eq] at hij
    have hg := (owned_tile hR.vq hC.vq hme' (by rw [← allTiles_eq hR hC]; exact hij.1) hij.2.2).1
    simp only [Function.comp, arriving, hg, hij.2.1]
  have e3 : (((allTiles (dist2 sr sc)).filter fun ij => decide ((dist2 dr dc).rank_global_tile ij = me ∧
      (dist2 sr sc).rank_global_tile ij ≠ me)).map ((fun r : Recv => (r.slot, some (arriving sr sc dr dc st me r.slot))) ∘
        fun ij => (⟨(dist2 sr sc).rank_global_tile ij, copyTag (dist2 sr sc) ij,
            (distOn dr dc me).local_tile_index ij⟩ : Recv))) =
      (((allTiles (dist2 sr sc)).filter fun ij => decide ((dist2 dr dc).rank_global_tile ij = me)).filter
        fun ij => !decide ((dist2 sr sc).rank_global_tile ij = me)).map
        ((fun lt => (lt, some (arriving sr sc dr dc st me lt))) ∘ (distOn dr dc me).local_tile_index) := by
    rw [List.filter_filter]
    rw [show ((allTiles (dist2 sr sc)).filter fun ij => decide ((dist2 dr dc).rank_global_tile ij = me ∧
      (dist2 sr sc).rank_global_tile ij ≠ me)) = (allTiles (dist2 sr sc)).filter (fun ij =>
        (!decide ((dist2 sr sc).rank_global_tile ij = me)) && decide ((dist2 dr dc).rank_global_tile ij = me)) from by
      apply List.filter_congr; intro ij _
      by_cases h1 : (dist2 dr dc).rank_global_tile ij = me <;> by_cases h2 : (dist2 sr sc).rank_global_tile ij = me <;>
        simp [h1, h2]]
    rfl
  rw [e2, e3, ← List.map_append]
  exact (List.filter_append_perm _ _).map _

/-- Element level: the result at an element owned by `me`. -/
theorem result_of_perm {E : Type} (st : Coord2 → Int → Int → E) (x : CopyRun E) {me : Coord2} {i j : Int}
    (hw : (x.writes (distOn sr sc me) (distOn dr dc me) (st me) me).Perm
      ((localTileIdx (distOn dr dc me)).map fun lt => (lt, some (arriving sr sc dr dc st me lt))))
    (hi : 0 ≤ i ∧ i < sr.size) (hj : 0 ≤ j ∧ j < sc.size) (hm : me = ⟨dr.owner i, dc.owner j⟩) :
    x.result (distOn sr sc me) (distOn dr dc me) (st me) me (dr.localPos i) (dc.localPos j) =
      some (st ⟨sr.owner i, sc.owner j⟩ (sr.localPos i) (sc.localPos j)) := by
  have own : ∀ {p : Params}, p.Valid → ∀ e, 0 ≤ p.owner e ∧ p.owner e < p.grid := by
    intro p hp e
    have hg : 0 < p.grid := hp.2.2.2.2.1
    exact ⟨Int.emod_nonneg _ (by omega), Int.emod_lt_of_pos _ hg⟩
  have vdr : (dr.onRank (dr.owner i)).Valid := hR.vq.onRank (own hR.vq i).1 (own hR.vq i).2
  have vdc : (dc.onRank (dc.owner j)).Valid := hC.vq.onRank (own hC.vq j).1 (own hC.vq j).2
  have vsr : (sr.onRank (sr.owner i)).Valid := hR.vp.onRank (own hR.vp i).1 (own hR.vp i).2
  have vsc : (sc.onRank (sc.owner j)).Valid := hC.vp.onRank (own hC.vp j).1 (own hC.vp j).2
  obtain ⟨a1, a2, a3, a4, a5, a6⟩ := vdr.owned_elem (e := i) hi.1 (by have := hR.size; show i < dr.size; omega) rfl
  obtain ⟨b1, b2, b3, b4, b5, b6⟩ := vdc.owned_elem (e := j) hj.1 (by have := hC.size; show j < dc.size; omega) rfl
  obtain ⟨c1, c2, c3, c4, c5, c6⟩ := vsr.owned_elem (e := i) hi.1 hi.2 rfl
  obtain ⟨d1, d2, d3, d4, d5, d6⟩ := vsc.owned_elem (e := j) hj.1 hj.2 rfl
  rw [hR.vq.localPos_eq hi.1] at a1 a2 a3 a4 a5
  rw [hC.vq.localPos_eq hj.1] at b1 b2 b3 b4 b5
  rw [hR.vp.localPos_eq hi.1] at c1 c2 c3 c4 c5
  rw [hC.vp.localPos_eq hj.1] at d1 d2 d3 d4 d5
  have tR := hR.tile_of (sr.owner i) (dr.owner i) i
  have tC := hC.tile_of (sc.owner j) (dc.owner j) j
  obtain ⟨g1, g2, g3, g4, g5⟩ := C03_global_split vsr hi.1 hi.2
  obtain ⟨k1, k2, k3, k4, k5⟩ := C03_global_split vsc hj.1 hj.2
  set I := (sr.onRank (sr.owner i)).dist.global_tile_from_global_element i with hI
  set J := (sc.onRank (sc.owner j)).dist.global_tile_from_global_element j with hJ
  rw [← tR.1] at a3 a5 a6
  rw [← tC.1] at b3 b5 b6
  rw [← tR.2] at a4
  rw [← tC.2] at b4
  have hij : (⟨I, J⟩ : Coord2) ∈ allTiles (dist2 sr sc) :=
    mem_pairs.2 ⟨mem_ints.2 ⟨g2, g3⟩, mem_ints.2 ⟨k2, k3⟩⟩
  have hmeG : InGrid dr dc me := by rw [hm]; exact ⟨own hR.vq i, own hC.vq j⟩
  have hsG : InGrid sr sc ⟨sr.owner i, sc.owner j⟩ := ⟨own hR.vp i, own hC.vp j⟩
  have hdo : (dist2 dr dc).rank_global_tile ⟨I, J⟩ = me := by
    rw [hm]; show (⟨_, _⟩ : Coord2) = _; congr 1
  have hso : (dist2 sr sc).rank_global_tile ⟨I, J⟩ = ⟨sr.owner i, sc.owner j⟩ := by
    show (⟨_, _⟩ : Coord2) = _; congr 1
  obtain ⟨o1, o2, o3⟩ := owned_tile hR.vq hC.vq hmeG (by rw [← allTiles_eq hR hC]; exact hij) hdo
  obtain ⟨p1, p2, p3⟩ := owned_tile hR.vp hC.vp hsG hij hso
  have hlt : (⟨(distOn dr dc me).row.local_tile_from_local_element (dr.localPos i),
      (distOn dr dc me).col.local_tile_from_local_element (dc.localPos j)⟩ : Coord2) =
      (distOn dr dc me).local_tile_index ⟨I, J⟩ := by
    rw [hm]; show (⟨_, _⟩ : Coord2) = ⟨_, _⟩; congr 1
  have harr : arriving sr sc dr dc st me ((distOn dr dc me).local_tile_index ⟨I, J⟩) =
      readTile (distOn sr sc ⟨sr.owner i, sc.owner j⟩) (st ⟨sr.owner i, sc.owner j⟩)
        ((distOn sr sc ⟨sr.owner i, sc.owner j⟩).local_tile_index ⟨I, J⟩) := by
    unfold arriving
    simp only [o1, hso]
  have hmem : (distOn dr dc me).local_tile_index ⟨I, J⟩ ∈ localTileIdx (distOn dr dc me) := by
    rw [localTileIdx_eq hR.vq hC.vq hmeG]
    exact List.mem_map_of_mem (List.mem_filter.2 ⟨by rw [← allTiles_eq hR hC]; exact hij, by simpa using hdo⟩)
  have hsingle : (x.writes (distOn sr sc me) (distOn dr dc me) (st me) me).filter
      (fun w => w.1 = (distOn dr dc me).local_tile_index ⟨I, J⟩) =
      [((distOn dr dc me).local_tile_index ⟨I, J⟩,
        some (arriving sr sc dr dc st me ((distOn dr dc me).local_tile_index ⟨I, J⟩)))] := by
    apply List.perm_singleton.1
    refine (hw.filter _).trans ?_
    rw [List.filter_map]
    have : (localTileIdx (distOn dr dc me)).filter ((fun w : Coord2 × Option (TileVal E) =>
        decide (w.1 = (distOn dr dc me).local_tile_index ⟨I, J⟩)) ∘
        fun lt => (lt, some (arriving sr sc dr dc st me lt))) = [(distOn dr dc me).local_tile_index ⟨I, J⟩] := by
      have hnd : (localTileIdx (distOn dr dc me)).Nodup := by
        rw [localTileIdx_pairs]; exact pairs_nodup (ints_nodup _) (ints_nodup _)
      generalize (distOn dr dc me).local_tile_index ⟨I, J⟩ = a at hmem ⊢
      have : ((fun w : Coord2 × Option (TileVal E) => decide (w.1 = a)) ∘
        fun lt => (lt, some (arriving sr sc dr dc st me lt))) = fun b => b == a := by
        funext b; simp [Function.comp, beq_eq_decide]
      rw [this, List.filter_beq, List.count_eq_one_of_mem hnd hmem]; rfl
    rw [this]; exact List.Perm.refl _
  unfold CopyRun.result
  simp only [hlt]
  rw [hsingle]
  simp only
  rw [harr, if_pos]
  · congr 1
    have q1 : (distOn dr dc me).row.tile_element_from_local_element (dr.localPos i) =
        (sr.onRank (sr.owner i)).dist.tile_element_from_global_element i := by
      rw [hm]; exact a4
    have q2 : (distOn dr dc me).col.tile_element_from_local_element (dc.localPos j) =
        (sc.onRank (sc.owner j)).dist.tile_element_from_global_element j := by
      rw [hm]; exact b4
    rw [q1, q2]
    show st _ (Dist1.local_element_from_local_tile_and_tile_element _ _ _)
      (Dist1.local_element_from_local_tile_and_tile_element _ _ _) = _
    rw [c5, d5]
    rfl
  · constructor
    · have := congrArg Coord2.row hlt
      dsimp only at this
      rw [this, o2]; exact p2.trans hR.tileSize
    · have := congrArg Coord2.col hlt
      dsimp only at this
      rw [this, o3]; exact p3.trans hC.tileSize

end
end DLAF
