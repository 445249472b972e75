import Verif.Model.Retile
import Verif.Props.SubTile
/- C14: retiled views. -/
namespace DLAF

/-! #### lemmas on the assignment lists -/

theorem lastAssigned_eq {l : List (Int × Tile)} {k : Int} {u : Tile} (h : (k, u) ∈ l)
    (hu : ∀ u', (k, u') ∈ l → u' = u) : lastAssigned l k = some u := by
  unfold lastAssigned
  have hne : (l.filter fun a => a.1 = k) ≠ [] := by
    intro hc
    have : (k, u) ∈ l.filter fun a => a.1 = k := by simp [h]
    rw [hc] at this
    simp at this
  rw [List.getLast?_eq_some_getLast hne]
  have := List.getLast_mem hne
  generalize List.getLast _ hne = a at this
  simp only [List.mem_filter, decide_eq_true_eq] at this
  obtain ⟨h1, h2⟩ := this
  obtain ⟨a1, a2⟩ := a
  simp only at h2
  subst h2
  simp [hu a2 h1]

theorem mem_zip_mapOpt {α β γ : Type} {f : β → Option γ} (g : α → Int) (h : α → β) :
    ∀ {S : List α} {us : List γ}, mapOpt f (S.map h) = some us → ∀ a u,
      (a, u) ∈ (S.map g).zip us ↔ ∃ s ∈ S, g s = a ∧ f (h s) = some u
  | [], us, hm, a, u => by simp [mapOpt] at hm; subst hm; simp
  | s :: S, us, hm, a, u => by
    rw [List.map_cons, mapOpt] at hm
    cases hb : f (h s) with
    | none => rw [hb] at hm; simp at hm
    | some b =>
      cases hbs : mapOpt f (S.map h) with
      | none => rw [hb, hbs] at hm; simp at hm
      | some bs =>
        rw [hb, hbs] at hm
        simp only [Option.some.injEq] at hm
        subst hm
        have ih := mem_zip_mapOpt g h hbs a u
        simp only [List.map_cons, List.zip_cons_cons, List.mem_cons, Prod.mk.injEq, ih]
        constructor
        · rintro (⟨rfl, rfl⟩ | ⟨s', h1, h2, h3⟩)
          · exact ⟨s, Or.inl rfl, rfl, hb⟩
          · exact ⟨s', Or.inr h1, h2, h3⟩
        · rintro ⟨s', rfl | h1, h2, h3⟩
          · left
            rw [hb] at h3
            exact ⟨h2.symm, by simpa using h3.symm⟩
          · exact Or.inr ⟨s', h1, h2, h3⟩

theorem mem_mapOpt {α β : Type} {f : α → Option β} :
    ∀ {l : List α} {bs : List β}, mapOpt f l = some bs → ∀ b, b ∈ bs ↔ ∃ a ∈ l, f a = some b := by
  intro l bs h b
  constructor
  · intro hb
    obtain ⟨k, hk⟩ := List.mem_iff_getElem?.1 hb
    rw [mapOpt_getElem? h k] at hk
    simp only [Option.bind_eq_some_iff] at hk
    obtain ⟨a, ha, hf⟩ := hk
    exact ⟨a, List.mem_iff_getElem?.2 ⟨k, ha⟩, hf⟩
  · rintro ⟨a, ha, hf⟩
    obtain ⟨k, hk⟩ := List.mem_iff_getElem?.1 ha
    refine List.mem_iff_getElem?.2 ⟨k, ?_⟩
    rw [mapOpt_getElem? h k, hk]
    simpa using hf

/-! #### the retiled distribution -/

/-- Documented preconditions of retiling along one coordinate: one tile per block, no offset, the
number of tiles per block divides the block. -/
structure RetileOK (p : Params) (tpb : Int) : Prop where
  valid : p.Valid
  noOffset : p.offset % p.block = 0
  single : p.tile = p.block
  tpb_pos : 0 < tpb
  divides : p.block % tpb = 0

/-- Parameters describing the retiled view. -/
def Params.retiled (p : Params) (tpb : Int) : Params :=
  { p with tile := p.block / tpb, offset := 0, src := p.dist.src }

namespace RetileOK
variable {p : Params} {tpb : Int} (h : RetileOK p tpb)
include h

theorem block_eq : p.block = tpb * (p.block / tpb) := by
  have := Int.mul_ediv_add_emod p.block tpb
  rw [h.divides] at this
  omega

theorem tile_pos : 0 < p.block / tpb := by
  have h1 := h.block_eq
  have h2 : 0 < p.block := h.valid.2.1
  by_contra hc
  have : tpb * (p.block / tpb) ≤ 0 :=
    Int.mul_nonpos_of_nonneg_of_nonpos (Int.le_of_lt h.tpb_pos) (by omega)
  omega

theorem valid' : (p.retiled tpb).Valid := by
  have hv := h.valid
  have hw := hv.wf
  refine ⟨hv.1, hv.2.1, h.tile_pos, ?_, hv.2.2.2.2.1, hv.2.2.2.2.2.1, ⟨hw.src_nonneg, hw.src_lt⟩, by simp [Params.retiled]⟩
  show p.block % (p.block / tpb) = 0
  conv_lhs => rw [h.block_eq]
  rw [Int.mul_ediv_cancel_left _ (by have := h.tpb_pos; omega)]
  exact Int.mul_emod_left _ _

theorem dist_eq : p.dist.retiled tpb = (p.retiled tpb).dist := by
  have hb : 0 < p.block := h.valid.2.1
  have : cdiv p.dist.blockSize tpb = p.block / tpb := Int.tdiv_eq_ediv_of_nonneg (Int.le_of_lt hb)
  unfold Dist1.retiled
  rw [this]
  rfl

theorem offset0 : p.dist.offset = 0 := h.valid.offset_eq.trans h.noOffset

theorem offset0' : (p.retiled tpb).dist.offset = 0 := by
  rw [h.valid'.offset_eq]; simp [Params.retiled]

theorem src' : (p.retiled tpb).dist.src = p.dist.src := by
  rw [h.valid'.src_eq]
  have hw := h.valid.wf
  show (p.dist.src + 0 / p.block) % p.grid = _
  have hl : p.dist.src < p.grid := hw.src_lt
  simp [Int.emod_eq_of_lt hw.src_nonneg hl]

theorem localSize_eq : (p.retiled tpb).dist.localSize = p.dist.localSize := by
  rw [h.valid.wf.localSize_next, h.valid'.wf.localSize_next, h.offset0, h.offset0', h.src']
  rfl

theorem lteo : p.dist.local_tile_element_offset = 0 := by
  unfold Dist1.local_tile_element_offset Dist1.global_tile_element_offset
  rw [h.offset0]; simp

theorem lteo' : (p.retiled tpb).dist.local_tile_element_offset = 0 := by
  unfold Dist1.local_tile_element_offset Dist1.global_tile_element_offset
  rw [h.offset0']; simp

theorem E_eq {t : Int} : p.dist.E t = t * p.block := by
  simp only [Dist1.E, Dist1.local_element_from_local_tile_and_tile_element,
    util.element_from_tile_and_tile_element, h.lteo, ite_self, Int.sub_zero, Int.add_zero]
  rw [show p.dist.tileSize = p.tile from rfl, h.single]

theorem E_eq' {t : Int} : (p.retiled tpb).dist.E t = t * (p.block / tpb) := by
  simp only [Dist1.E, Dist1.local_element_from_local_tile_and_tile_element,
    util.element_from_tile_and_tile_element, h.lteo', ite_self, Int.sub_zero, Int.add_zero]
  rfl

theorem sz_eq {t : Int} (h0 : 0 ≤ t) : p.dist.local_tile_size_of t = min p.block (p.dist.localSize - t * p.block) := by
  unfold Dist1.local_tile_size_of
  rw [h.lteo, show p.dist.tileSize = p.tile from rfl, h.single]
  split
  · rename_i h1; subst h1; simp
  · simp

theorem sz_eq' {t : Int} (h0 : 0 ≤ t) : (p.retiled tpb).dist.local_tile_size_of t =
    min (p.block / tpb) (p.dist.localSize - t * (p.block / tpb)) := by
  unfold Dist1.local_tile_size_of
  rw [h.lteo', h.localSize_eq, show (p.retiled tpb).dist.tileSize = p.block / tpb from rfl]
  split
  · rename_i h1; subst h1; simp
  · simp

/-- `t < localNrTiles ↔ first element < localSize` -/
theorem lt_iff {t : Int} (h0 : 0 ≤ t) : t < p.dist.localNrTiles ↔ t * p.block < p.dist.localSize := by
  have w := h.valid.wf
  have hb : 0 < p.block := h.valid.2.1
  constructor
  · intro ht
    have := w.E_bounds h0 ht
    rw [h.E_eq] at this
    omega
  · intro ht
    have hN : 0 < p.dist.localNrTiles := w.pos_of_localSize (by
      have := Int.mul_nonneg h0 (Int.le_of_lt hb); omega)
    obtain ⟨_, _, h3⟩ := w.localSize_bounds hN
    rw [h.lteo, show p.dist.tileSize = p.tile from rfl, h.single] at h3
    by_contra hc
    have := Int.mul_le_mul_of_nonneg_right (show p.dist.localNrTiles ≤ t by omega) (Int.le_of_lt hb)
    omega

theorem lt_iff' {t : Int} (h0 : 0 ≤ t) :
    t < (p.retiled tpb).dist.localNrTiles ↔ t * (p.block / tpb) < p.dist.localSize := by
  have w := h.valid'.wf
  have hb := h.tile_pos
  constructor
  · intro ht
    have := w.E_bounds h0 ht
    rw [h.E_eq', h.localSize_eq] at this
    omega
  · intro ht
    have hN : 0 < (p.retiled tpb).dist.localNrTiles := w.pos_of_localSize (by
      have := Int.mul_nonneg h0 (Int.le_of_lt hb); rw [h.localSize_eq]; omega)
    obtain ⟨_, _, h3⟩ := w.localSize_bounds hN
    rw [h.lteo', h.localSize_eq, show (p.retiled tpb).dist.tileSize = p.block / tpb from rfl] at h3
    by_contra hc
    have := Int.mul_le_mul_of_nonneg_right
      (show (p.retiled tpb).dist.localNrTiles ≤ t by omega) (Int.le_of_lt hb)
    omega

/-- what the loops produce for original tile `I` -/
theorem mem_entries {I : Int} (h0 : 0 ≤ I) (h1 : I < p.dist.localNrTiles) (e : RetileEntry) :
    e ∈ retileEntries p.dist (p.retiled tpb).dist tpb I ↔
      ∃ k : Int, 0 ≤ k ∧ k * (p.block / tpb) < p.dist.local_tile_size_of I ∧
        e = ⟨I, k * (p.block / tpb), I * tpb + k,
          (p.retiled tpb).dist.global_tile_size_of
            ((p.retiled tpb).dist.global_tile_from_local_tile (I * tpb + k))⟩ := by
  have hs := h.tile_pos
  have w := h.valid.wf
  have hsz := (w.E_bounds h0 h1).2.1
  unfold retileEntries stepValues
  rw [← w.local_tsz_eq h0 h1, show (p.retiled tpb).dist.tileSize = p.block / tpb from rfl]
  obtain ⟨q, r, hq, hr, hr', he⟩ := exists_divmod
    (a := p.dist.local_tile_size_of I + p.block / tpb - 1) (b := p.block / tpb) (by omega) hs
  have hc : ceilDiv (p.dist.local_tile_size_of I) (p.block / tpb) = q := by
    unfold ceilDiv; exact cdiv_eq hq hr hr' he
  rw [hc]
  have hk : ∀ k : Int, 0 ≤ k → (k < q ↔ k * (p.block / tpb) < p.dist.local_tile_size_of I) := by
    intro k hk0
    constructor
    · intro hkq
      have := Int.mul_le_mul_of_nonneg_right (show k + 1 ≤ q by omega) (Int.le_of_lt hs)
      have e1 : (k + 1) * (p.block / tpb) = k * (p.block / tpb) + p.block / tpb := by ring
      omega
    · intro hlt
      by_contra hcc
      have := Int.mul_le_mul_of_nonneg_right (show q ≤ k by omega) (Int.le_of_lt hs)
      omega
  have hd : ∀ k : Int, 0 ≤ k → cdiv (k * (p.block / tpb)) (p.block / tpb) = k := fun k hk0 =>
    cdiv_eq hk0 (by omega : (0:Int) ≤ 0) hs (by ring)
  simp only [List.map_map, List.mem_map, List.mem_range, Function.comp]
  constructor
  · rintro ⟨k, hkq, rfl⟩
    refine ⟨k, by omega, (hk k (by omega)).1 (by omega), ?_⟩
    rw [hd k (by omega)]
  · rintro ⟨k, hk0, hlt, rfl⟩
    have := (hk k hk0).2 hlt
    refine ⟨k.toNat, by omega, ?_⟩
    rw [Int.toNat_of_nonneg hk0, hd k hk0]

/-- geometry of one new tile -/
theorem entry_facts {I k : Int} (h0 : 0 ≤ I) (h1 : I < p.dist.localNrTiles) (hk : 0 ≤ k)
    (hlt : k * (p.block / tpb) < p.dist.local_tile_size_of I) :
    k < tpb ∧ 0 ≤ I * tpb + k ∧ I * tpb + k < (p.retiled tpb).dist.localNrTiles ∧
    (p.retiled tpb).dist.E (I * tpb + k) = p.dist.E I + k * (p.block / tpb) ∧
    (p.retiled tpb).dist.global_tile_size_of
      ((p.retiled tpb).dist.global_tile_from_local_tile (I * tpb + k)) =
      (p.retiled tpb).dist.local_tile_size_of (I * tpb + k) ∧
    1 ≤ (p.retiled tpb).dist.local_tile_size_of (I * tpb + k) ∧
    (p.retiled tpb).dist.local_tile_size_of (I * tpb + k) ≤ p.block / tpb ∧
    k * (p.block / tpb) + (p.retiled tpb).dist.local_tile_size_of (I * tpb + k) ≤
      p.dist.local_tile_size_of I := by
  have hs := h.tile_pos
  have hbe := h.block_eq
  have htp := h.tpb_pos
  rw [h.sz_eq h0] at *
  have hkt : k < tpb := by
    by_contra hc
    have := Int.mul_le_mul_of_nonneg_right (show tpb ≤ k by omega) (Int.le_of_lt hs)
    omega
  have hi0 : 0 ≤ I * tpb + k := by
    have := Int.mul_nonneg h0 (Int.le_of_lt htp); omega
  have e1 : (I * tpb + k) * (p.block / tpb) = I * p.block + k * (p.block / tpb) := by
    conv_rhs => rw [hbe]
    rw [Int.mul_ediv_cancel_left _ (by omega : tpb ≠ 0)]
    ring
  have hlt' : I * tpb + k < (p.retiled tpb).dist.localNrTiles := (h.lt_iff' hi0).2 (by rw [e1]; omega)
  have hsz := (h.valid'.wf.E_bounds hi0 hlt').2.1
  have hm := Int.mul_le_mul_of_nonneg_right (show k + 1 ≤ tpb by omega) (Int.le_of_lt hs)
  have e2 : (k + 1) * (p.block / tpb) = k * (p.block / tpb) + p.block / tpb := by ring
  refine ⟨hkt, hi0, hlt', by rw [h.E_eq', h.E_eq, e1], (h.valid'.wf.local_tsz_eq hi0 hlt').symm, hsz, ?_, ?_⟩
  · rw [h.sz_eq' hi0]; omega
  · rw [h.sz_eq' hi0, e1]; omega

/-- every new tile is produced by exactly one iteration -/
theorem entry_of_tile {t : Int} (h0 : 0 ≤ t) (h1 : t < (p.retiled tpb).dist.localNrTiles) :
    ∃ I k, 0 ≤ I ∧ I < p.dist.localNrTiles ∧ 0 ≤ k ∧
      k * (p.block / tpb) < p.dist.local_tile_size_of I ∧ I * tpb + k = t := by
  have hs := h.tile_pos
  have hbe := h.block_eq
  have htp := h.tpb_pos
  obtain ⟨I, k, hI, hk, hk', he⟩ := exists_divmod h0 htp
  have e1 : t * (p.block / tpb) = I * p.block + k * (p.block / tpb) := by
    conv_rhs => rw [hbe]
    rw [Int.mul_ediv_cancel_left _ (by omega : tpb ≠ 0), he]
    ring
  have hlt := (h.lt_iff' h0).1 h1
  have hkn := Int.mul_nonneg hk (Int.le_of_lt hs)
  have hm := Int.mul_le_mul_of_nonneg_right (show k + 1 ≤ tpb by omega) (Int.le_of_lt hs)
  have e2 : (k + 1) * (p.block / tpb) = k * (p.block / tpb) + p.block / tpb := by ring
  refine ⟨I, k, hI, (h.lt_iff hI).2 (by omega), hk, ?_, by omega⟩
  rw [h.sz_eq hI]
  omega

omit h in
theorem entry_unique {I k I' k' : Int} (hk : 0 ≤ k) (hk1 : k < tpb) (hk' : 0 ≤ k') (hk1' : k' < tpb)
    (he : I * tpb + k = I' * tpb + k') : I = I' ∧ k = k' := by
  have := lin_inj (ld := tpb) (x := k) (y := I) (x' := k') (y' := I') hk hk1 hk' hk1'
    (by rw [Int.mul_comm tpb, Int.mul_comm tpb]; omega)
  exact ⟨this.2, this.1⟩

end RetileOK

/-- Every local tile of the matrix is a tile of the expected size. -/
def MatrixMem.Tiled (m : MatrixMem) (d : Distribution) : Prop :=
  ∀ i j : Int, 0 ≤ i → i < d.row.localNrTiles → 0 ≤ j → j < d.col.localNrTiles →
    ∃ t, m.tiles[(tile_linear_index d i j).toNat]? = some t ∧ t.Valid ∧ 0 ≤ t.view.size ∧
      t.rows = d.row.local_tile_size_of i ∧ t.cols = d.col.local_tile_size_of j

/-! #### C14 -/

section
variable {p q : Params} {tr tc : Int}

theorem retileSpecs_mem (hp : RetileOK p tr) (hq : RetileOK q tc) {o : Nat × Nat}
    (ho : o ∈ localTiles (dist2 p q)) (s : Coord2 × SubTileSpec) :
    s ∈ retileSpecs (dist2 p q) (dist2 (p.retiled tr) (q.retiled tc)) ⟨tr, tc⟩ o ↔
    ∃ k l : Int, 0 ≤ k ∧ k * (p.block / tr) < p.dist.local_tile_size_of o.1 ∧
      0 ≤ l ∧ l * (q.block / tc) < q.dist.local_tile_size_of o.2 ∧
      s = (⟨o.1 * tr + k, o.2 * tc + l⟩, ⟨⟨k * (p.block / tr), l * (q.block / tc)⟩,
        ⟨(p.retiled tr).dist.local_tile_size_of (o.1 * tr + k),
         (q.retiled tc).dist.local_tile_size_of (o.2 * tc + l)⟩⟩) := by
  rw [mem_localTiles] at ho
  have h1 : (o.1 : Int) < p.dist.localNrTiles := by
    have : o.1 < p.dist.localNrTiles.toNat := ho.1
    omega
  have h2 : (o.2 : Int) < q.dist.localNrTiles := by
    have : o.2 < q.dist.localNrTiles.toNat := ho.2
    omega
  unfold retileSpecs
  rw [grid_mem (fun (ce re : RetileEntry) =>
    ((⟨re.idx, ce.idx⟩ : Coord2), (⟨⟨re.el, ce.el⟩, ⟨re.sz, ce.sz⟩⟩ : SubTileSpec)))]
  constructor
  · rintro ⟨ce, hce, re, hre, rfl⟩
    obtain ⟨l, hl0, hl, rfl⟩ := (hq.mem_entries (by omega) h2 ce).1 hce
    obtain ⟨k, hk0, hk, rfl⟩ := (hp.mem_entries (by omega) h1 re).1 hre
    refine ⟨k, l, hk0, hk, hl0, hl, ?_⟩
    rw [(hp.entry_facts (by omega) h1 hk0 hk).2.2.2.2.1, (hq.entry_facts (by omega) h2 hl0 hl).2.2.2.2.1]
  · rintro ⟨k, l, hk0, hk, hl0, hl, rfl⟩
    refine ⟨_, (hq.mem_entries (by omega) h2 _).2 ⟨l, hl0, hl, rfl⟩, _,
      (hp.mem_entries (by omega) h1 _).2 ⟨k, hk0, hk, rfl⟩, ?_⟩
    simp only
    rw [(hp.entry_facts (by omega) h1 hk0 hk).2.2.2.2.1, (hq.entry_facts (by omega) h2 hl0 hl).2.2.2.2.1]

/-- positions of the entries increase along the loop -/
theorem entries_pairwise (hp : RetileOK p tr) {I : Int} (h0 : 0 ≤ I) (h1 : I < p.dist.localNrTiles) :
    (retileEntries p.dist (p.retiled tr).dist tr I).Pairwise fun a b => a.el + a.sz ≤ b.el := by
  have hs := hp.tile_pos
  have hmem := hp.mem_entries h0 h1
  have hlt : (retileEntries p.dist (p.retiled tr).dist tr I).Pairwise fun a b =>
      a.el + p.block / tr ≤ b.el := by
    unfold retileEntries stepValues
    rw [List.pairwise_map, List.pairwise_map]
    apply List.Pairwise.imp (R := fun a b : Nat => a < b) _ List.pairwise_lt_range
    intro a b hab
    have hab' : (a : Int) + 1 ≤ b := by exact_mod_cast hab
    have := Int.mul_le_mul_of_nonneg_right hab' (Int.le_of_lt hs)
    have e : ((a : Int) + 1) * (p.block / tr) = a * (p.block / tr) + p.block / tr := by ring
    simp only
    rw [show (p.retiled tr).dist.tileSize = p.block / tr from rfl]
    omega
  refine List.Pairwise.imp_of_mem ?_ hlt
  intro a b ha hb hab
  obtain ⟨k, hk0, hk, rfl⟩ := (hmem a).1 ha
  have := hp.entry_facts h0 h1 hk0 hk
  simp only at hab ⊢
  omega

theorem retileSpecs_disjoint (hp : RetileOK p tr) (hq : RetileOK q tc) {o : Nat × Nat}
    (ho : o ∈ localTiles (dist2 p q)) :
    specsDisjoint ((retileSpecs (dist2 p q) (dist2 (p.retiled tr) (q.retiled tc)) ⟨tr, tc⟩ o).map (·.2))
      = true := by
  rw [mem_localTiles] at ho
  have h1 : (o.1 : Int) < p.dist.localNrTiles := by
    have : o.1 < p.dist.localNrTiles.toNat := ho.1
    omega
  have h2 : (o.2 : Int) < q.dist.localNrTiles := by
    have : o.2 < q.dist.localNrTiles.toNat := ho.2
    omega
  rw [specsDisjoint_iff, List.pairwise_map]
  unfold retileSpecs
  have pr := entries_pairwise hp (I := o.1) (by omega) h1
  have pc := entries_pairwise hq (I := o.2) (by omega) h2
  generalize hR : retileEntries p.dist (p.retiled tr).dist tr o.1 = R at pr
  generalize hC : retileEntries q.dist (q.retiled tc).dist tc o.2 = C at pc
  show List.Pairwise _ (List.flatMap (fun ce => List.map (fun re => _)
    (retileEntries p.dist (p.retiled tr).dist tr o.1)) (retileEntries q.dist (q.retiled tc).dist tc o.2))
  rw [hR, hC, List.pairwise_flatMap]
  constructor
  · intro ce _
    rw [List.pairwise_map]
    refine pr.imp ?_
    intro a b hab
    simp only [subTileSpecsOverlap]
    split_ifs <;> first | rfl | omega
  · refine pc.imp ?_
    intro c c' hcc x hx y hy
    simp only [List.mem_map] at hx hy
    obtain ⟨a, _, rfl⟩ := hx
    obtain ⟨b, _, rfl⟩ := hy
    simp only [subTileSpecsOverlap]
    split_ifs <;> first | rfl | omega

/-- all original tiles are split successfully -/
theorem retileOne_eq (hp : RetileOK p tr) (hq : RetileOK q tc) {m : MatrixMem}
    (hm : m.Tiled (dist2 p q)) (moderate : Bool) {o : Nat × Nat} (ho : o ∈ localTiles (dist2 p q)) :
    ∃ t us, m.tiles[(tile_linear_index (dist2 p q) o.1 o.2).toNat]? = some t ∧ t.Valid ∧
      mapOpt t.subTile ((retileSpecs (dist2 p q) (dist2 (p.retiled tr) (q.retiled tc)) ⟨tr, tc⟩ o).map
        (·.2)) = some us ∧
      retileOne moderate m (dist2 p q) (dist2 (p.retiled tr) (q.retiled tc)) ⟨tr, tc⟩ o =
        some (((retileSpecs (dist2 p q) (dist2 (p.retiled tr) (q.retiled tc)) ⟨tr, tc⟩ o).map fun s =>
          tile_linear_index (dist2 (p.retiled tr) (q.retiled tc)) s.1.row s.1.col).zip us) := by
  have ho' := ho
  rw [mem_localTiles] at ho'
  have h1 : (o.1 : Int) < p.dist.localNrTiles := by
    have : o.1 < p.dist.localNrTiles.toNat := ho'.1
    omega
  have h2 : (o.2 : Int) < q.dist.localNrTiles := by
    have : o.2 < q.dist.localNrTiles.toNat := ho'.2
    omega
  obtain ⟨t, ht, hv, hvs, hr, hc⟩ := hm o.1 o.2 (by omega) h1 (by omega) h2
  have hsub : ∃ us, mapOpt t.subTile ((retileSpecs (dist2 p q) (dist2 (p.retiled tr) (q.retiled tc))
      ⟨tr, tc⟩ o).map (·.2)) = some us := by
    apply mapOpt_isSome
    intro s hs
    simp only [List.mem_map] at hs
    obtain ⟨s', hs', rfl⟩ := hs
    obtain ⟨k, l, hk0, hk, hl0, hl, rfl⟩ := (retileSpecs_mem hp hq ho s').1 hs'
    rw [C13_subtile_accepts hv hvs]
    have f1 := hp.entry_facts (by omega) h1 hk0 hk
    have f2 := hq.entry_facts (by omega) h2 hl0 hl
    have hkn := Int.mul_nonneg hk0 (Int.le_of_lt hp.tile_pos)
    have hln := Int.mul_nonneg hl0 (Int.le_of_lt hq.tile_pos)
    have hr : t.rows = p.dist.local_tile_size_of o.1 := hr
    have hc : t.cols = q.dist.local_tile_size_of o.2 := hc
    unfold SubTileSpec.Inside
    simp only
    omega
  obtain ⟨us, hus⟩ := hsub
  refine ⟨t, us, ht, hv, hus, ?_⟩
  unfold retileOne
  rw [ht, Option.bind_some]
  simp only
  have hsp : splitTileDisjoint moderate t ((retileSpecs (dist2 p q) (dist2 (p.retiled tr) (q.retiled tc))
      ⟨tr, tc⟩ o).map (·.2)) = some us := by
    have hd := retileSpecs_disjoint hp hq ho
    generalize (retileSpecs (dist2 p q) (dist2 (p.retiled tr) (q.retiled tc)) ⟨tr, tc⟩ o).map (·.2) = S
      at hd hus
    unfold splitTileDisjoint
    split
    · simpa [mapOpt] using hus
    · rename_i s
      cases hs : t.subTile s with
      | none => simp [mapOpt, hs] at hus
      | some u => simpa [mapOpt, hs] using hus
    · rw [hd]; simpa using hus
  rw [hsp]
  rfl

/-- C14: the retiled view is accepted and every element keeps its address, in every build mode. -/
theorem C14_same_address (hp : RetileOK p tr) (hq : RetileOK q tc) {m : MatrixMem}
    (hm : m.Tiled (dist2 p q)) (moderate : Bool) :
    ∃ l, retileAssign moderate m (dist2 p q) ⟨p.dist.retiled tr, q.dist.retiled tc⟩ ⟨tr, tc⟩ = some l ∧
      ∀ i j, (dist2 p q).LocalElem i j →
        ∃ a, m.elemAddr (dist2 p q) i j = some a ∧
          retiledAddr l ⟨p.dist.retiled tr, q.dist.retiled tc⟩ i j = some a := by
  rw [hp.dist_eq, hq.dist_eq]
  change ∃ l, retileAssign moderate m (dist2 p q) (dist2 (p.retiled tr) (q.retiled tc)) ⟨tr, tc⟩ = some l ∧
      ∀ i j, (dist2 p q).LocalElem i j → ∃ a, m.elemAddr (dist2 p q) i j = some a ∧
          retiledAddr l (dist2 (p.retiled tr) (q.retiled tc)) i j = some a
  obtain ⟨bs, hbs⟩ : ∃ bs, mapOpt (retileOne moderate m (dist2 p q)
      (dist2 (p.retiled tr) (q.retiled tc)) ⟨tr, tc⟩) (localTiles (dist2 p q)) = some bs := by
    apply mapOpt_isSome
    intro o ho
    obtain ⟨t, us, _, _, _, h⟩ := retileOne_eq hp hq hm moderate ho
    exact ⟨_, h⟩
  refine ⟨bs.flatten, by unfold retileAssign; rw [hbs]; rfl, ?_⟩
  -- members of the assignment list
  have hmem : ∀ L u, (L, u) ∈ bs.flatten ↔ ∃ o ∈ localTiles (dist2 p q), ∃ t,
      m.tiles[(tile_linear_index (dist2 p q) o.1 o.2).toNat]? = some t ∧
      ∃ s ∈ retileSpecs (dist2 p q) (dist2 (p.retiled tr) (q.retiled tc)) ⟨tr, tc⟩ o,
        tile_linear_index (dist2 (p.retiled tr) (q.retiled tc)) s.1.row s.1.col = L ∧
        t.subTile s.2 = some u := by
    intro L u
    rw [List.mem_flatten]
    constructor
    · rintro ⟨b, hb, hLu⟩
      obtain ⟨o, ho, hf⟩ := (mem_mapOpt hbs b).1 hb
      obtain ⟨t, us, ht, _, hus, he⟩ := retileOne_eq hp hq hm moderate ho
      rw [he] at hf
      simp only [Option.some.injEq] at hf
      subst hf
      exact ⟨o, ho, t, ht, (mem_zip_mapOpt _ _ hus L u).1 hLu⟩
    · rintro ⟨o, ho, t, ht, hs⟩
      obtain ⟨t', us, ht', _, hus, he⟩ := retileOne_eq hp hq hm moderate ho
      rw [ht] at ht'
      simp only [Option.some.injEq] at ht'
      subst ht'
      exact ⟨_, (mem_mapOpt hbs _).2 ⟨o, ho, he⟩, (mem_zip_mapOpt _ _ hus L u).2 hs⟩
  intro i j h
  obtain ⟨⟨i1, i2⟩, j1, j2⟩ := h
  have i2 : i < p.dist.localSize := i2
  have j2 : j < q.dist.localSize := j2
  obtain ⟨ti, ei, e1, e2, a1, a2, a3, a4, a5⟩ := hp.valid'.local_split i1 (by rw [hp.localSize_eq]; exact i2)
  obtain ⟨tj, ej, f1, f2, b1, b2, b3, b4, b5⟩ := hq.valid'.local_split j1 (by rw [hq.localSize_eq]; exact j2)
  obtain ⟨I, k, hI, hIN, hk, hkl, hIk⟩ := hp.entry_of_tile a1 a2
  obtain ⟨J, l, hJ, hJN, hl, hll, hJl⟩ := hq.entry_of_tile b1 b2
  have ef := hp.entry_facts hI hIN hk hkl
  have ff := hq.entry_facts hJ hJN hl hll
  -- position in the original matrix
  obtain ⟨Ti, Ei, g1, g2, g3, g4, g5, g6, g7⟩ := hp.valid.local_split i1 i2
  obtain ⟨Tj, Ej, k1, k2, k3, k4, k5, k6, k7⟩ := hq.valid.local_split j1 j2
  have hTi : Ei = k * (p.block / tr) + ei ∧ Ti = I := by
    rw [hp.sz_eq g3] at g6
    have hkn := Int.mul_nonneg hk (Int.le_of_lt hp.tile_pos)
    have := hp.sz_eq hI
    rw [hIk] at ef
    exact lin_inj (ld := p.block) g5 (by omega) (by omega) (by omega) (by
      rw [hp.E_eq] at g7 ef; rw [Int.mul_comm p.block, Int.mul_comm p.block]; omega)
  have hTj : Ej = l * (q.block / tc) + ej ∧ Tj = J := by
    rw [hq.sz_eq k3] at k6
    have hkn := Int.mul_nonneg hl (Int.le_of_lt hq.tile_pos)
    have := hq.sz_eq hJ
    rw [hJl] at ff
    exact lin_inj (ld := q.block) k5 (by omega) (by omega) (by omega) (by
      rw [hq.E_eq] at k7 ff; rw [Int.mul_comm q.block, Int.mul_comm q.block]; omega)
  obtain ⟨hEi, rfl⟩ := hTi
  obtain ⟨hEj, rfl⟩ := hTj
  -- the tile
  obtain ⟨t, ht, hv, hvs, hr, hc⟩ := hm Ti Tj hI hIN hJ hJN
  have ho : (Ti.toNat, Tj.toNat) ∈ localTiles (dist2 p q) := by
    rw [mem_localTiles]
    exact ⟨by show Ti.toNat < p.dist.localNrTiles.toNat; omega,
      by show Tj.toNat < q.dist.localNrTiles.toNat; omega⟩
  have c1 : ((Ti.toNat : Nat) : Int) = Ti := Int.toNat_of_nonneg hI
  have c2 : ((Tj.toNat : Nat) : Int) = Tj := Int.toNat_of_nonneg hJ
  let sp : Coord2 × SubTileSpec := (⟨Ti * tr + k, Tj * tc + l⟩,
    ⟨⟨k * (p.block / tr), l * (q.block / tc)⟩, ⟨(p.retiled tr).dist.local_tile_size_of (Ti * tr + k),
      (q.retiled tc).dist.local_tile_size_of (Tj * tc + l)⟩⟩)
  have hsp : sp ∈ retileSpecs (dist2 p q) (dist2 (p.retiled tr) (q.retiled tc)) ⟨tr, tc⟩
      (Ti.toNat, Tj.toNat) := by
    rw [retileSpecs_mem hp hq ho]
    simp only [c1, c2]
    exact ⟨k, l, hk, hkl, hl, hll, rfl⟩
  have hins : sp.2.Inside t.rows t.cols := by
    have hkn := Int.mul_nonneg hk (Int.le_of_lt hp.tile_pos)
    have hln := Int.mul_nonneg hl (Int.le_of_lt hq.tile_pos)
    have hr : t.rows = p.dist.local_tile_size_of Ti := hr
    have hc : t.cols = q.dist.local_tile_size_of Tj := hc
    unfold SubTileSpec.Inside
    simp only [sp]
    omega
  obtain ⟨u, hu⟩ := (C13_subtile_accepts hv hvs sp.2).2 hins
  have hlast : lastAssigned bs.flatten (tile_linear_index (dist2 (p.retiled tr) (q.retiled tc)) ti tj) =
      some u := by
    apply lastAssigned_eq
    · rw [hmem]
      refine ⟨_, ho, t, by simp only [c1, c2]; exact ht, sp, hsp, ?_, hu⟩
      simp only [sp, hIk, hJl]
    · intro u' hu'
      rw [hmem] at hu'
      obtain ⟨o, ho', t', ht', s', hs', hL, hu'⟩ := hu'
      obtain ⟨k', l', hk0, hk', hl0, hl', rfl⟩ := (retileSpecs_mem hp hq ho' s').1 hs'
      rw [mem_localTiles] at ho'
      have q1 : (o.1 : Int) < p.dist.localNrTiles := by
        have : o.1 < p.dist.localNrTiles.toNat := ho'.1
        omega
      have q2 : (o.2 : Int) < q.dist.localNrTiles := by
        have : o.2 < q.dist.localNrTiles.toNat := ho'.2
        omega
      have ef' := hp.entry_facts (by omega) q1 hk0 hk'
      have ff' := hq.entry_facts (by omega) q2 hl0 hl'
      have hL' := hL
      unfold tile_linear_index at hL'
      simp only at hL'
      have hli := lin_inj (ld := (p.retiled tr).dist.localNrTiles) (x := o.1 * tr + k') (y := o.2 * tc + l')
        (x' := ti) (y' := tj) (by omega) (by omega) a1 a2 hL'
      have u1 := RetileOK.entry_unique hk0 (by omega) hk (by omega) (hli.1.trans hIk.symm)
      have u2 := RetileOK.entry_unique hl0 (by omega) hl (by omega) (hli.2.trans hJl.symm)
      obtain ⟨v1, rfl⟩ := u1
      obtain ⟨v2, rfl⟩ := u2
      rw [v1, v2, ht] at ht'
      simp only [Option.some.injEq] at ht'
      subst ht'
      have : t.subTile sp.2 = some u' := by
        simp only [sp]
        rw [v1, v2] at hu'
        exact hu'
      rw [hu] at this
      simpa using this.symm
  have hsubaddr := C13_subtile_addresses hv hu
  have hua := (hsubaddr.2.2.2 ei ej a3 (by rw [hsubaddr.1]; simp only [sp, hIk]; exact a4) b3
    (by rw [hsubaddr.2.1]; simp only [sp, hJl]; exact b4)).2
  refine ⟨t.addr Ei Ej, ?_, ?_⟩
  · unfold MatrixMem.elemAddr
    simp only [show (dist2 p q).row = p.dist from rfl, show (dist2 p q).col = q.dist from rfl, g1, g2, k1,
      k2, ht, Option.map_some]
  · unfold retiledAddr
    simp only [show (dist2 (p.retiled tr) (q.retiled tc)).row = (p.retiled tr).dist from rfl,
      show (dist2 (p.retiled tr) (q.retiled tc)).col = (q.retiled tc).dist from rfl, e1, e2, f1, f2, hlast,
      Option.map_some]
    rw [hua]
    simp only [sp, hEi, hEj]

/-- C14: same size, same local size, same owner and same local element index for every element. -/
theorem C14_same_elements (hp : RetileOK p tr) :
    (p.dist.retiled tr).size = p.size ∧ (p.dist.retiled tr).localSize = p.dist.localSize ∧
    ∀ e, 0 ≤ e → (p.dist.retiled tr).rank_global_element e = p.dist.rank_global_element e ∧
      (p.dist.retiled tr).local_element_from_global_element e =
        p.dist.local_element_from_global_element e := by
  rw [hp.dist_eq]
  refine ⟨rfl, hp.localSize_eq, ?_⟩
  intro e he
  rw [hp.valid.wf.rank_elem he, hp.valid'.wf.rank_elem he, hp.valid.wf.local_elem he,
    hp.valid'.wf.local_elem he, hp.offset0, hp.offset0', hp.src']
  exact ⟨rfl, rfl⟩

/-- C14: each new tile lies inside one original tile: the original tile of an element is determined by
its new tile. -/
theorem C14_tile_nesting (hp : RetileOK p tr) {e : Int} (he : 0 ≤ e) :
    p.dist.global_tile_from_global_element e =
      (p.dist.retiled tr).global_tile_from_global_element e / tr := by
  rw [hp.dist_eq, hp.valid.tileOf_eq he, hp.valid'.tileOf_eq he]
  unfold Params.tileOf
  have hb : 0 < p.block := hp.valid.2.1
  obtain ⟨c, hc⟩ : ∃ c, p.offset = c * p.block :=
    ⟨p.offset / p.block, by have := Int.mul_ediv_add_emod p.offset p.block; rw [hp.noOffset] at this; rw [Int.mul_comm]; omega⟩
  rw [hp.single]
  show (p.offset + e) / p.block - p.offset / p.block = ((0 + e) / (p.block / tr) - 0 / (p.block / tr)) / tr
  rw [hc, Int.mul_ediv_cancel _ (by omega), Int.add_comm (c * p.block), Int.add_mul_ediv_right _ _ (by omega)]
  simp only [Int.zero_add, Int.zero_ediv, Int.sub_zero]
  rw [Int.ediv_ediv_of_nonneg (Int.le_of_lt hp.tile_pos), Int.mul_comm, ← hp.block_eq]
  omega

/-- C14: the constructor's assertions accept these parameters. -/
theorem C14_accepted (hp : RetileOK p tr) (heavy : Bool) : p.dist.retileAccepts heavy tr = true := by
  have hv := hp.valid'
  have hb : 0 < p.block := hp.valid.2.1
  have ht := hp.tpb_pos
  have hs := hp.tile_pos
  have hcd : cdiv p.dist.blockSize tr = p.block / tr := Int.tdiv_eq_ediv_of_nonneg (Int.le_of_lt hb)
  unfold Dist1.retileAccepts Dist1.accepts
  rw [hcd]
  obtain ⟨v1, v2, v3, v4, v5, v6, v7, v8⟩ := hv
  have v4 : p.block % (p.block / tr) = 0 := v4
  have v5 : 0 < p.grid := v5
  have v6 : 0 ≤ p.rank ∧ p.rank < p.grid := v6
  have v7 : 0 ≤ p.dist.src ∧ p.dist.src < p.grid := v7
  have v1 : 0 ≤ p.size := v1
  simp only [show p.dist.blockSize = p.block from rfl, show p.dist.size = p.size from rfl,
    show p.dist.grid = p.grid from rfl, show p.dist.rank = p.rank from rfl,
    show p.dist.tileSize = p.tile from rfl]
  have hm1 : cmod p.block (p.block / tr) = 0 := by
    unfold cmod; rw [Int.tmod_eq_emod_of_nonneg (Int.le_of_lt hb)]; exact v4
  have hm2 : cmod 0 p.block = 0 := by unfold cmod; simp
  rw [hm1, hm2]
  have t1 : tr ≠ 0 := by omega
  have t2 : p.block ≠ 0 := by omega
  have t3 : p.block / tr ≠ 0 := by omega
  have t4 : p.grid ≠ 0 := by omega
  simp [v1, t1, t2, t3, t4, v6, v7, hb, hp.single, Int.le_of_lt hb, Int.le_of_lt hs, Int.le_of_lt v5]

end

/-- The matrices of C11 satisfy the hypothesis of `C14_same_address`. -/
theorem tiled_of_setUp {p q : Params} (hp : p.Valid) (hq : q.Valid) {layout : AllocationLayout}
    {al : Int} {ld : LdSpec} {m : MatrixMem} (hm : setUp layout (dist2 p q) al ld = some m) :
    m.Tiled (dist2 p q) ∨ p.dist.localSize = 0 ∨ q.dist.localSize = 0 := by
  by_cases h0 : p.dist.localSize = 0 ∨ q.dist.localSize = 0
  · exact Or.inr h0
  left
  unfold setUp at hm
  rw [if_neg (show ¬ ((dist2 p q).row.localSize = 0 ∨ (dist2 p q).col.localSize = 0) from h0)] at hm
  -- common argument
  have common : ∀ {α : Type} {f : α → Option Tile} {l : List α}, mapOpt f l = some m.tiles →
      (∀ i j : Int, 0 ≤ i → i < p.dist.localNrTiles → 0 ≤ j → j < q.dist.localNrTiles →
        ∃ a, l[(tile_linear_index (dist2 p q) i j).toNat]? = some a ∧
          ∀ t, f a = some t → t.Valid ∧ 0 ≤ t.view.size ∧ t.rows = p.dist.local_tile_size_of i ∧
            t.cols = q.dist.local_tile_size_of j) → m.Tiled (dist2 p q) := by
    intro α f l hml hl i j h1 h2 h3 h4
    obtain ⟨a, ha, hf⟩ := hl i j h1 h2 h3 h4
    have hk := mapOpt_getElem? hml (tile_linear_index (dist2 p q) i j).toNat
    rw [ha, Option.bind_some] at hk
    have hlt : (tile_linear_index (dist2 p q) i j).toNat < m.tiles.length := by
      rw [mapOpt_length hml]; exact (List.getElem?_eq_some_iff.1 ha).1
    rw [List.getElem?_eq_getElem hlt] at hk
    exact ⟨_, List.getElem?_eq_getElem hlt, hf _ hk.symm⟩
  have cr : ∀ {r c ld : Int} {v : MemView} {t : Tile}, Tile.create r c v ld = some t → 1 ≤ r → 1 ≤ c →
      t.Valid ∧ 0 ≤ t.view.size ∧ t.rows = r ∧ t.cols = c := by
    intro r c ld v t ht hr hc
    have := Tile.create_eq ht
    subst this
    have hv : Tile.Valid ⟨r, c, v, ld⟩ := ht
    have hf := hv.facts
    simp only at hf
    have := Int.mul_nonneg (show 0 ≤ ld by omega) (show 0 ≤ c - 1 by omega)
    refine ⟨hv, ?_, rfl, rfl⟩
    simp only
    omega
  cases layout with
  | ColMajor =>
    simp only [setUpColMajor, setUpPreallocated, Option.bind_eq_some_iff, Option.map_eq_some_iff] at hm
    obtain ⟨l, hl, n, hn, ts, hts, rfl⟩ := hm
    refine common hts ?_
    intro i j h1 h2 h3 h4
    refine ⟨_, localTiles_getElem? (dist2 p q) h1 h2 h3 h4, ?_⟩
    intro t ht
    simp only [colMajorTile, Option.bind_eq_some_iff] at ht
    obtain ⟨v, hv, ht⟩ := ht
    simp only [show (dist2 p q).row = p.dist from rfl, show (dist2 p q).col = q.dist from rfl,
      Int.toNat_of_nonneg h1, Int.toNat_of_nonneg h3] at ht
    exact cr ht (hp.wf.E_bounds h1 h2).2.1 (hq.wf.E_bounds h3 h4).2.1
  | Tiles =>
    simp only [setUpTiles, Option.map_eq_some_iff] at hm
    obtain ⟨ts, hts, rfl⟩ := hm
    refine common hts ?_
    intro i j h1 h2 h3 h4
    refine ⟨_, localTiles_getElem? (dist2 p q) h1 h2 h3 h4, ?_⟩
    intro t ht
    simp only [tilesTile, Option.bind_eq_some_iff] at ht
    obtain ⟨l, hl, v, hv, ht⟩ := ht
    simp only [show (dist2 p q).row = p.dist from rfl, show (dist2 p q).col = q.dist from rfl,
      Int.toNat_of_nonneg h1, Int.toNat_of_nonneg h3] at ht
    exact cr ht (hp.wf.E_bounds h1 h2).2.1 (hq.wf.E_bounds h3 h4).2.1
  | Blocks =>
    obtain ⟨res, hres, lres, ores⟩ := hp.wf.blockEntries (hp.wf.pos_of_localSize (by omega))
    obtain ⟨ces, hces, lces, oces⟩ := hq.wf.blockEntries (hq.wf.pos_of_localSize (by omega))
    simp only [setUpBlocks] at hm
    split at hm
    swap
    · simp at hm
    simp only [Option.bind_eq_some_iff, Option.map_eq_some_iff] at hm
    obtain ⟨ces', hces', res', hres', ts, hts, rfl⟩ := hm
    rw [show (dist2 p q).row = p.dist from rfl, hres] at hres'
    rw [show (dist2 p q).col = q.dist from rfl, hces] at hces'
    simp only [Option.some.injEq] at hres' hces'
    subst hres' hces'
    refine common hts ?_
    intro i j h1 h2 h3 h4
    have hi : i.toNat < res.length := by omega
    have hj : j.toNat < ces.length := by omega
    have := grid_getElem? (fun (c r : BlockEntry) => (c, r)) res ces i.toNat j.toNat hi
    have e : (tile_linear_index (dist2 p q) i j).toNat = i.toNat + res.length * j.toNat := by
      unfold tile_linear_index
      rw [show (dist2 p q).row.localNrTiles = (res.length : Int) from lres.symm]
      obtain ⟨a, rfl⟩ := Int.eq_ofNat_of_zero_le h1
      obtain ⟨b, rfl⟩ := Int.eq_ofNat_of_zero_le h3
      have : ((a : Int) + res.length * b) = ((a + res.length * b : Nat) : Int) := by push_cast; ring
      simp only [this, Int.toNat_natCast]
    refine ⟨(ces[j.toNat], res[i.toNat]), ?_, ?_⟩
    · rw [e, this, List.getElem?_eq_getElem hj, List.getElem?_eq_getElem hi]
      rfl
    · intro t ht
      have okr := ores _ _ (List.getElem?_eq_getElem hi)
      have okc := oces _ _ (List.getElem?_eq_getElem hj)
      rw [Int.toNat_of_nonneg h1] at okr
      rw [Int.toNat_of_nonneg h3] at okc
      simp only [blockTile, Option.bind_eq_some_iff] at ht
      obtain ⟨l, hl, mv, hmv, v, hv, ht⟩ := ht
      rw [okr.sz, okc.sz] at ht
      exact cr ht (hp.wf.E_bounds h1 h2).2.1 (hq.wf.E_bounds h3 h4).2.1

instance (p : Params) (t : Int) : Decidable (RetileOK p t) :=
  decidable_of_iff (p.Valid ∧ p.offset % p.block = 0 ∧ p.tile = p.block ∧ 0 < t ∧ p.block % t = 0)
    ⟨fun ⟨a, b, c, d, e⟩ => ⟨a, b, c, d, e⟩, fun ⟨a, b, c, d, e⟩ => ⟨a, b, c, d, e⟩⟩

example : ∃ p q : Params, RetileOK p 3 ∧ RetileOK q 2 ∧ p.dist.localNrTiles = 2 ∧
    (p.dist.retiled 3).localNrTiles = 4 ∧
    ∃ m, setUp .ColMajor (dist2 p q) 8 .compact = some m ∧ m.Tiled (dist2 p q) := by
  have hp : RetileOK ⟨20, 6, 6, 2, 1, 0, 12⟩ 3 := by decide
  have hq : RetileOK ⟨7, 4, 4, 1, 0, 0, 0⟩ 2 := by decide
  refine ⟨_, _, hp, hq, by decide, by decide, ?_⟩
  obtain ⟨m, hm⟩ := C11_accepted hp.valid hq.valid .ColMajor (fun _ => ⟨hp.noOffset, hq.noOffset⟩)
    (show (0:Int) < 8 by decide) .compact (by simp)
  refine ⟨m, hm, (tiled_of_setUp hp.valid hq.valid hm).resolve_right ?_⟩
  decide

/-- The documented precondition "block size divisible by tiles_per_block" is not checked: 10 rows per
block in 4 tiles per block are accepted (tiles of 2 rows), two of the new tiles get the same index and
the last new tile is never assigned. -/
theorem C14_indivisible_not_rejected :
    ∃ p : Params, p.Valid ∧ p.offset = 0 ∧ p.tile = p.block ∧ p.block % 4 ≠ 0 ∧
      p.dist.retileAccepts true 4 = true ∧
      (retileEntries p.dist (p.dist.retiled 4) 4 0).map (·.idx) = [0, 1, 2, 3, 4] ∧
      (retileEntries p.dist (p.dist.retiled 4) 4 1).map (·.idx) = [4, 5, 6, 7, 8] ∧
      (p.dist.retiled 4).localNrTiles = 10 :=
  ⟨⟨20, 10, 10, 1, 0, 0, 0⟩, by decide⟩

/-- The offset of the original matrix is dropped: a matrix whose offset is inside a block is accepted
and the view's tiles do not line up with the original ones. -/
theorem C14_offset_not_rejected :
    ∃ p : Params, p.Valid ∧ p.offset % p.block ≠ 0 ∧ p.tile = p.block ∧ p.block % 2 = 0 ∧
      p.dist.retileAccepts true 2 = true ∧ p.dist.localNrTiles = 2 ∧
      -- the first original tile has 1 row, the sub-tile requested from it has 2
      p.dist.local_tile_size_of 0 = 1 ∧
      (retileEntries p.dist (p.dist.retiled 2) 2 0).map (·.sz) = [2] :=
  ⟨⟨4, 4, 4, 1, 0, 0, 3⟩, by decide⟩

end DLAF
