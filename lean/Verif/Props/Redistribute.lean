import Verif.Lemmas.Redistribute
/- C20: the redistributing copy. -/
namespace DLAF.C20
open DLAF

/-- Documented preconditions of `copy(src, dst, grid)` along one coordinate (copy.h:128-138), for matrices
without offset: same size and grid, one tile per block, one tile size divides the other. -/
structure Pre (p q : Params) : Prop where
  vp : p.Valid
  vq : q.Valid
  size : p.size = q.size
  grid : p.grid = q.grid
  sp : p.tile = p.block
  sq : q.tile = q.block
  op : p.offset % p.block = 0
  oq : q.offset % q.block = 0
  dp : p.tile % min p.tile q.tile = 0
  dq : q.tile % min p.tile q.tile = 0

/-- The retiled views used by the ranks, `src` and `dst` distributed as (pr, pc) and (qr, qc). -/
def views (pr pc qr qc : Params) (r : Coord2) : Distribution × Distribution :=
  copyRetiled (distOn pr pc r) (distOn qr qc r)

/-- A run: every rank of the grid hands to MPI exactly the messages of its loops, in any order. -/
structure IsRun {E : Type} (pr pc qr qc : Params) (st : Coord2 → Int → Int → E) (x : CopyRun E) : Prop where
  sent : ∀ r, InGrid pr pc r →
    (x.sent r).Perm (copySends (views pr pc qr qc r).1 (views pr pc qr qc r).2 (st r))
  received : ∀ r, InGrid pr pc r →
    (x.received r).Perm (copyRecvs (views pr pc qr qc r).1 (views pr pc qr qc r).2)
  outside : ∀ r, ¬ InGrid pr pc r → x.sent r = []

/-- Messages with the same peers and tag are issued in the order of the loops. -/
structure ProgramOrder {E : Type} (pr pc qr qc : Params) (st : Coord2 → Int → Int → E) (x : CopyRun E) : Prop where
  sent : ∀ s d t, InGrid pr pc s → InGrid pr pc d → inFlight (x.sent s) d t =
    inFlight (copySends (views pr pc qr qc s).1 (views pr pc qr qc s).2 (st s)) d t
  received : ∀ s d t, InGrid pr pc d → ((x.received d).filter fun r => r.source = s ∧ r.tag = t) =
    ((copyRecvs (views pr pc qr qc d).1 (views pr pc qr qc d).2).filter fun r => r.source = s ∧ r.tag = t)

/-- The destination holds `A` after the run: each element is on its owner under the distribution of the
destination, at its local position, and the tile it belongs to was written exactly once. -/
def DstHolds {E : Type} (pr pc qr qc : Params) (st : Coord2 → Int → Int → E) (x : CopyRun E)
    (A : Int → Int → E) : Prop :=
  ∀ i j, (0 ≤ i ∧ i < pr.size) → (0 ≤ j ∧ j < pc.size) →
    let me : Coord2 := ⟨qr.owner i, qc.owner j⟩
    x.result (views pr pc qr qc me).1 (views pr pc qr qc me).2 (st me) me (qr.localPos i) (qc.localPos j) =
      some (A i j)

/-! ### lemmas -/

namespace Pre
variable {p q : Params} (h : Pre p q)

/-- number of small tiles per tile -/
abbrev scale (p q : Params) : Int := p.tile / min p.tile q.tile

include h
theorem min_pos : 0 < min p.tile q.tile := by
  have := h.vp.2.2.1; have := h.vq.2.2.1; omega

theorem scale_mul : p.tile = scale p q * min p.tile q.tile := by
  have := Int.mul_ediv_add_emod p.tile (min p.tile q.tile)
  rw [h.dp] at this; unfold scale; rw [Int.mul_comm]; omega

theorem symm : Pre q p :=
  ⟨h.vq, h.vp, h.size.symm, h.grid.symm, h.sq, h.sp, h.oq, h.op, by rw [Int.min_comm]; exact h.dq,
    by rw [Int.min_comm]; exact h.dp⟩

theorem retileOK : RetileOK p (scale p q) := by
  have h1 := h.scale_mul
  have h2 := h.min_pos
  have h3 : 0 < p.tile := h.vp.2.2.1
  refine ⟨h.vp, h.op, h.sp, ?_, ?_⟩
  · by_contra hc
    have := Int.mul_nonpos_of_nonpos_of_nonneg (show scale p q ≤ 0 by omega) (Int.le_of_lt h2)
    omega
  · rw [← h.sp]
    conv_lhs => rw [h1]
    unfold scale
    simp

theorem new_tile : (p.retiled (scale p q)).tile = min p.tile q.tile := by
  have h1 := h.scale_mul
  have h3 := h.retileOK.tpb_pos
  show p.block / scale p q = _
  rw [← h.sp]
  conv_lhs => lhs; rw [h1]
  exact Int.mul_ediv_cancel_left _ (by omega)

theorem sameTiles : SameTiles (p.retiled (scale p q)) (q.retiled (scale q p)) where
  vp := h.retileOK.valid'
  vq := h.symm.retileOK.valid'
  size := h.size
  tile := by rw [h.new_tile, h.symm.new_tile, Int.min_comm]
  op := rfl
  oq := rfl
  grid := h.grid

omit h in
theorem retiled_owner {t : Int} (h : RetileOK p t) {e : Int} (he : 0 ≤ e) : (p.retiled t).owner e = p.owner e := by
  have := (C14_same_elements h).2.2 e he
  rw [h.dist_eq, h.valid'.owner_eq he, h.valid.owner_eq he] at this
  exact this.1

omit h in
theorem retiled_localPos {t : Int} (h : RetileOK p t) {e : Int} (he : 0 ≤ e) :
    (p.retiled t).localPos e = p.localPos e := by
  unfold Params.localPos
  congr 1
  apply countBelow_congr
  intro k _
  rw [retiled_owner h he, retiled_owner h (by omega)]

/-- one of the two views has one tile per block -/
theorem one_cyclic : (p.retiled (scale p q)).tile = (p.retiled (scale p q)).block ∨
    (q.retiled (scale q p)).tile = (q.retiled (scale q p)).block := by
  rw [h.new_tile, h.symm.new_tile]
  show min p.tile q.tile = p.block ∨ min q.tile p.tile = q.block
  rw [← h.sp, ← h.sq]; omega

end Pre

theorem views_eq {pr pc qr qc : Params} (hr : Pre pr qr) (hc : Pre pc qc) (r : Coord2) :
    views pr pc qr qc r =
      (distOn (pr.retiled (Pre.scale pr qr)) (pc.retiled (Pre.scale pc qc)) r,
       distOn (qr.retiled (Pre.scale qr pr)) (qc.retiled (Pre.scale qc pc)) r) := by
  have cd : ∀ {p q : Params}, Pre p q → cdiv p.tile (min p.tile q.tile) = Pre.scale p q := by
    intro p q h
    exact Int.tdiv_eq_ediv_of_nonneg (Int.le_of_lt h.vp.2.2.1)
  have on : ∀ {p q : Params}, Pre p q → ∀ k : Int, (p.onRank k).dist.retiled (Pre.scale p q) =
      ((p.retiled (Pre.scale p q)).onRank k).dist := by
    intro p q h k
    have e : cdiv p.block (Pre.scale p q) = p.block / Pre.scale p q :=
      Int.tdiv_eq_ediv_of_nonneg (Int.le_of_lt h.vp.2.1)
    unfold Dist1.retiled
    show Dist1.build p.size p.block (cdiv p.block (Pre.scale p q)) p.grid k p.dist.src 0 = _
    rw [e]; rfl
  unfold views copyRetiled
  show ((⟨(pr.onRank r.row).dist.retiled (cdiv pr.tile (min pr.tile qr.tile)),
      (pc.onRank r.col).dist.retiled (cdiv pc.tile (min pc.tile qc.tile))⟩ : Distribution),
    (⟨(qr.onRank r.row).dist.retiled (cdiv qr.tile (min pr.tile qr.tile)),
      (qc.onRank r.col).dist.retiled (cdiv qc.tile (min pc.tile qc.tile))⟩ : Distribution)) = _
  rw [Int.min_comm pr.tile qr.tile, cd hr.symm, Int.min_comm pc.tile qc.tile, cd hc.symm, Int.min_comm qr.tile,
    Int.min_comm qc.tile, cd hr, cd hc, on hr, on hr.symm, on hc, on hc.symm]
  rfl

theorem owner_of_tile {p : Params} (hp : p.Valid) (ho : p.offset = 0) (h1 : p.tile = p.block) {t : Int} (h0 : 0 ≤ t)
    (ht : t < p.dist.nrTiles) : p.dist.rank_global_tile t = (t + p.src) % p.grid := by
  obtain ⟨o, _, h2, h3⟩ := C01_tile_owner hp h0 ht
  rw [show p.dist.rank_global_tile t = o from (h3 p.rank hp.wf.rank_nonneg hp.wf.rank_lt).1]
  have hb := hp.tileBegin_spec h0
  rw [← h2 _ hb.1 hb.2]
  unfold Params.owner Params.tileBegin
  rw [ho, h1]
  have hpos : 0 < p.block := hp.2.1
  have : max 0 ((0 / p.block + t) * p.block - 0) = t * p.block := by
    have := Int.mul_nonneg h0 (Int.le_of_lt hpos)
    simp; omega
  rw [this]
  simp only [Int.zero_add]
  rw [Int.mul_ediv_cancel _ (by omega)]

/-- The tags of the messages between two ranks differ when the grid has no more rows than columns. -/
theorem tag_inj {sr sc dr dc : Params} (hR : SameTiles sr dr) (hC : SameTiles sc dc)
    (hcyc : sc.tile = sc.block ∨ dc.tile = dc.block) (hg : sr.grid ≤ sc.grid) {a b : Coord2}
    (ha : a ∈ allTiles (dist2 sr sc)) (hb : b ∈ allTiles (dist2 sr sc))
    (hs : (dist2 sr sc).rank_global_tile a = (dist2 sr sc).rank_global_tile b)
    (hd : (dist2 dr dc).rank_global_tile a = (dist2 dr dc).rank_global_tile b)
    (ht : copyTag (dist2 sr sc) a = copyTag (dist2 sr sc) b) : a = b := by
  obtain ⟨a1, a2⟩ := mem_pairs.1 ha
  obtain ⟨b1, b2⟩ := mem_pairs.1 hb
  have a1 := mem_ints.1 a1
  have a2 := mem_ints.1 a2
  have b1 := mem_ints.1 b1
  have b2 := mem_ints.1 b2
  have hsc := congrArg Coord2.col hs
  have hdc := congrArg Coord2.col hd
  have hG : 0 < sc.grid := hC.vp.2.2.2.2.1
  have hGr : 0 < sr.grid := hR.vp.2.2.2.2.1
  -- columns are congruent modulo the number of grid columns
  have hmod : (a.col - b.col) % sc.grid = 0 := by
    have key : ∀ {p : Params}, p.Valid → p.offset = 0 → p.tile = p.block → a.col < p.dist.nrTiles →
        b.col < p.dist.nrTiles → p.dist.rank_global_tile a.col = p.dist.rank_global_tile b.col →
        (a.col - b.col) % p.grid = 0 := by
      intro p hp ho h1 ha hb h
      rw [owner_of_tile hp ho h1 a2.1 ha, owner_of_tile hp ho h1 b2.1 hb] at h
      have := Int.emod_emod_of_dvd
      have h3 := Int.emod_eq_emod_iff_emod_sub_eq_zero.1 h
      rw [← h3]; congr 1; ring
    rcases hcyc with h | h
    · exact key hC.vp hC.op h a2.2 b2.2 hsc
    · have n := hC.nrTiles
      rw [hC.grid]
      exact key hC.vq hC.oq h (by rw [← n]; exact a2.2) (by rw [← n]; exact b2.2) hdc
  -- leading dimension
  have hN : 0 < sr.dist.nrTiles := by
    have h1 := a1.1; have h2 := a1.2
    change 0 ≤ a.row at h1
    change a.row < sr.dist.nrTiles at h2
    omega
  obtain ⟨ld, re, q1, q2, q3, q4⟩ := exists_divmod (a := sr.dist.nrTiles + sr.grid - 1) (b := sr.grid) (by omega) hGr
  have hld : ceilDiv sr.dist.nrTiles sr.grid = ld := cdiv_eq q1 q2 q3 q4
  have hldpos : 0 < ld := by
    by_contra hc
    have : ld = 0 := by omega
    subst this; omega
  have hcover : sr.dist.nrTiles ≤ sr.grid * ld := by rw [Int.mul_comm]; omega
  unfold copyTag at ht
  rw [show (dist2 sr sc).row.nrTiles = sr.dist.nrTiles from rfl, show (dist2 sr sc).row.grid = sr.grid from rfl,
    hld] at ht
  have hrowA : a.row < sr.dist.nrTiles := a1.2
  have hrowB : b.row < sr.dist.nrTiles := b1.2
  have e1 : (a.col - b.col) * ld = b.row - a.row := by
    have : (a.col - b.col) * ld = a.col * ld - b.col * ld := by ring
    omega
  have hsmall : -sr.grid < a.col - b.col ∧ a.col - b.col < sr.grid := by
    constructor
    · by_contra hc
      have := Int.mul_le_mul_of_nonneg_right (show a.col - b.col ≤ -sr.grid by omega) (Int.le_of_lt hldpos)
      rw [e1, Int.neg_mul] at this
      have := a1.1; have := b1.1; omega
    · by_contra hc
      have := Int.mul_le_mul_of_nonneg_right (show sr.grid ≤ a.col - b.col by omega) (Int.le_of_lt hldpos)
      rw [e1] at this
      have := a1.1; have := b1.1; omega
  have hcol : a.col = b.col := by
    obtain ⟨k, hk⟩ := Int.dvd_of_emod_eq_zero hmod
    by_contra hne
    have hk0 : k ≠ 0 := by rintro rfl; apply hne; rw [Int.mul_zero] at hk; omega
    rcases (show k ≤ -1 ∨ 1 ≤ k by omega) with h | h
    · have := Int.mul_le_mul_of_nonneg_left h (Int.le_of_lt hG); omega
    · have := Int.mul_le_mul_of_nonneg_left h (Int.le_of_lt hG); omega
  have hrow : a.row = b.row := by
    rw [hcol] at ht; omega
  obtain ⟨r, c⟩ := a
  obtain ⟨r', c'⟩ := b
  dsimp only at hcol hrow
  rw [hcol, hrow]

section
variable {pr pc qr qc : Params} (hr : Pre pr qr) (hc : Pre pc qc)
include hr hc

/-- **Program order**: for any two distributions satisfying the documented preconditions on any grid, if the
messages between two ranks that carry the same tag are issued in the order of the loops, the destination
holds the source matrix. -/
theorem C20_program_order {E : Type} {st : Coord2 → Int → Int → E} {A : Int → Int → E} {x : CopyRun E}
    (hA : Holds pr pc st A) (hx : IsRun pr pc qr qc st x) (ho : ProgramOrder pr pc qr qc st x) :
    DstHolds pr pc qr qc st x A := by
  have hR := hr.sameTiles
  have hC := hc.sameTiles
  intro i j hi hj
  have hqo : ∀ {p : Params}, p.Valid → ∀ e, 0 ≤ p.owner e ∧ p.owner e < p.grid := by
    intro p hp e
    have hg : 0 < p.grid := hp.2.2.2.2.1
    exact ⟨Int.emod_nonneg _ (by omega), Int.emod_lt_of_pos _ hg⟩
  have hin : ∀ r, InGrid (pr.retiled (Pre.scale pr qr)) (pc.retiled (Pre.scale pc qc)) r ↔ InGrid pr pc r :=
    fun r => Iff.rfl
  have hme : InGrid pr pc ⟨qr.owner i, qc.owner j⟩ := by
    refine ⟨?_, ?_⟩
    · rw [hr.grid]; exact hqo hr.vq i
    · rw [hc.grid]; exact hqo hc.vq j
  have hw := writes_perm hR hC st x
    (fun s d t hs hd => by have := ho.sent s d t hs hd; rw [views_eq hr hc] at this; exact this)
    (fun r h => by have := hx.received r h; rw [views_eq hr hc] at this; exact this)
    (fun s d t hd => by have := ho.received s d t hd; rw [views_eq hr hc] at this; exact this)
    (fun s hs => hx.outside s hs) hme
  have hres := result_of_perm hR hC st x hw hi hj
    (by rw [Pre.retiled_owner hr.symm.retileOK hi.1, Pre.retiled_owner hc.symm.retileOK hj.1])
  rw [Pre.retiled_localPos hr.symm.retileOK hi.1, Pre.retiled_localPos hc.symm.retileOK hj.1,
    Pre.retiled_localPos hr.retileOK hi.1, Pre.retiled_localPos hc.retileOK hj.1,
    Pre.retiled_owner hr.retileOK hi.1, Pre.retiled_owner hc.retileOK hj.1, hA i j hi hj] at hres
  dsimp only
  rw [views_eq hr hc]
  exact hres

/-- **Every order**: on a grid with no more rows than columns the destination holds the source matrix in
whatever order the messages are issued on every rank.  (Missing: grids with more rows than columns, where the
tags collide, see `C20_tag_collision`.) -/
theorem C20_redistribution_partial (hg : pr.grid ≤ pc.grid) {E : Type} {st : Coord2 → Int → Int → E}
    {A : Int → Int → E} {x : CopyRun E} (hA : Holds pr pc st A) (hx : IsRun pr pc qr qc st x) :
    DstHolds pr pc qr qc st x A := by
  have hR := hr.sameTiles
  have hC := hc.sameTiles
  have hcyc := hc.one_cyclic
  refine C20_program_order hr hc hA hx ⟨?_, ?_⟩
  · intro s d t hs hd
    unfold inFlight
    congr 1
    apply perm_filter_eq (hx.sent s hs)
    rw [views_eq hr hc]
    dsimp only
    rw [copySends_eq hR hC hs, List.filter_map, List.length_map]
    apply filter_le_one ((allTiles_nodup _).filter _)
    intro a ha b hb h1 h2
    simp only [List.mem_filter, decide_eq_true_eq, Function.comp] at ha hb h1 h2
    exact tag_inj hR hC hcyc hg ha.1 hb.1 (by rw [ha.2.1, hb.2.1]) (by rw [h1.1, h2.1]) (by rw [h1.2, h2.2])
  · intro s d t hd
    apply perm_filter_eq (hx.received d hd)
    rw [views_eq hr hc]
    dsimp only
    rw [copyRecvs_eq hR hC hd, List.filter_map, List.length_map]
    apply filter_le_one ((allTiles_nodup _).filter _)
    intro a ha b hb h1 h2
    simp only [List.mem_filter, decide_eq_true_eq, Function.comp] at ha hb h1 h2
    exact tag_inj hR hC hcyc hg ha.1 hb.1 (by rw [h1.1, h2.1]) (by rw [ha.2.1, hb.2.1]) (by rw [h1.2, h2.2])

end

/-! ### the hypotheses are met -/

/-- every matrix can be stored as `Holds` asks -/
theorem holds_exists {p q : Params} (hp : p.Valid) (hq : q.Valid) {E : Type} (A : Int → Int → E) :
    ∃ st, Holds p q st A := by
  refine ⟨fun r a b => A ((p.onRank r.row).dist.global_element_from_local_element a)
    ((q.onRank r.col).dist.global_element_from_local_element b), ?_⟩
  intro i j hi hj
  have own : ∀ {p : Params}, p.Valid → ∀ e, 0 ≤ p.owner e ∧ p.owner e < p.grid := by
    intro p hp e
    have hg : 0 < p.grid := hp.2.2.2.2.1
    exact ⟨Int.emod_nonneg _ (by omega), Int.emod_lt_of_pos _ hg⟩
  dsimp only
  rw [← hp.localPos_eq hi.1, ← hq.localPos_eq hj.1,
    C03_owned_global_local_global (hp.onRank (own hp i).1 (own hp i).2) hi.1 rfl,
    C03_owned_global_local_global (hq.onRank (own hq j).1 (own hq j).2) hj.1 rfl]

instance (p q : Params) (r : Coord2) : Decidable (InGrid p q r) := by unfold InGrid; infer_instance

/-- the run in which every rank issues its sends in reverse order -/
def reversed {E : Type} (pr pc qr qc : Params) (st : Coord2 → Int → Int → E) : CopyRun E where
  sent := fun r => if InGrid pr pc r then
    (copySends (views pr pc qr qc r).1 (views pr pc qr qc r).2 (st r)).reverse else []
  received := fun r => copyRecvs (views pr pc qr qc r).1 (views pr pc qr qc r).2

theorem reversed_isRun {E : Type} (pr pc qr qc : Params) (st : Coord2 → Int → Int → E) :
    IsRun pr pc qr qc st (reversed pr pc qr qc st) where
  sent := fun r h => by unfold reversed; dsimp only; rw [if_pos h]; exact List.reverse_perm _
  received := fun r _ => List.Perm.refl _
  outside := fun r h => by unfold reversed; dsimp only; rw [if_neg h]

/-- 7 rows in tiles of 4 on 2 ranks, to tiles of 2 starting on the other rank; 9 columns in tiles of 3 on 3
ranks, to tiles of 6: a run in reverse order -/
example : ∃ (pr pc qr qc : Params) (st : Coord2 → Int → Int → Int) (A : Int → Int → Int) (x : CopyRun Int),
    Pre pr qr ∧ Pre pc qc ∧ pr.grid ≤ pc.grid ∧ 1 < pr.grid ∧ Holds pr pc st A ∧ IsRun pr pc qr qc st x := by
  obtain ⟨st, hst⟩ := holds_exists (p := ⟨7, 4, 4, 2, 0, 0, 0⟩) (q := ⟨9, 3, 3, 3, 0, 1, 0⟩) (by decide) (by decide)
    (fun i j => 10 * i + j)
  exact ⟨⟨7, 4, 4, 2, 0, 0, 0⟩, ⟨9, 3, 3, 3, 0, 1, 0⟩, ⟨7, 2, 2, 2, 0, 1, 0⟩, ⟨9, 6, 6, 3, 0, 0, 0⟩, st, _,
    reversed _ _ _ _ st, ⟨by decide, by decide, rfl, rfl, rfl, rfl, rfl, rfl, rfl, rfl⟩,
    ⟨by decide, by decide, rfl, rfl, rfl, rfl, rfl, rfl, rfl, rfl⟩, by decide, by decide, hst, reversed_isRun ..⟩

/-! ### the tags collide on grids with more rows than columns -/

/-- 4 rows on 2 ranks starting on rank 0 -/
def cpr : Params := ⟨4, 1, 1, 2, 0, 0, 0⟩
/-- the same starting on rank 1 -/
def cqr : Params := ⟨4, 1, 1, 2, 0, 1, 0⟩
/-- 2 columns on 1 rank -/
def cpc : Params := ⟨2, 1, 1, 1, 0, 0, 0⟩

/-- local stores of the matrix `10 i + j` distributed as (cpr, cpc) -/
def cst : Coord2 → Int → Int → Int := fun r a b => 10 * (2 * a + r.row) + b

/-- **Finding**: on a 2×1 grid the documented preconditions hold and all the messages of the program are
issued, but if rank 0 issues its sends in the opposite order, element (2, 0) of the destination receives
element (0, 1) of the source, because the messages for tiles (2, 0) and (0, 1) carry the same tag. -/
theorem C20_tag_collision : Pre cpr cqr ∧ Pre cpc cpc ∧ Holds cpr cpc cst (fun i j => 10 * i + j) ∧
    IsRun cpr cpc cqr cpc cst (reversed cpr cpc cqr cpc cst) ∧
    ¬ DstHolds cpr cpc cqr cpc cst (reversed cpr cpc cqr cpc cst) (fun i j => 10 * i + j) ∧
    (reversed cpr cpc cqr cpc cst).result (views cpr cpc cqr cpc ⟨1, 0⟩).1 (views cpr cpc cqr cpc ⟨1, 0⟩).2
      (cst ⟨1, 0⟩) ⟨1, 0⟩ (cqr.localPos 2) (cpc.localPos 0) = some (10 * 0 + 1) := by
  have hres : (reversed cpr cpc cqr cpc cst).result (views cpr cpc cqr cpc ⟨1, 0⟩).1
      (views cpr cpc cqr cpc ⟨1, 0⟩).2 (cst ⟨1, 0⟩) ⟨1, 0⟩ (cqr.localPos 2) (cpc.localPos 0) = some (10 * 0 + 1) := by
    decide
  refine ⟨⟨by decide, by decide, rfl, rfl, rfl, rfl, rfl, rfl, rfl, rfl⟩,
    ⟨by decide, by decide, rfl, rfl, rfl, rfl, rfl, rfl, rfl, rfl⟩, ?_, reversed_isRun .., ?_, hres⟩
  · intro i j hi hj
    have hi : 0 ≤ i ∧ i < 4 := hi
    have hj : 0 ≤ j ∧ j < 2 := hj
    rcases (show i = 0 ∨ i = 1 ∨ i = 2 ∨ i = 3 by omega) with rfl | rfl | rfl | rfl <;>
      rcases (show j = 0 ∨ j = 1 by omega) with rfl | rfl <;> decide
  · intro h
    have h := h 2 0 (by decide) (by decide)
    rw [show (⟨cqr.owner 2, cpc.owner 0⟩ : Coord2) = ⟨1, 0⟩ by decide] at h
    dsimp only at h
    rw [hres] at h
    revert h; decide

end DLAF.C20
