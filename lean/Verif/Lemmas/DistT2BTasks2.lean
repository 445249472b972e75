import Verif.Lemmas.DistT2BTasks
/- The tasks of the distributed back-transformation from tridiagonal to band form on one process: panels and updates. -/
namespace DLAF
namespace DistT2B

section
variable {K : Type*} [RCLike K] {P : Params2} {cc : Params} {n mb m nbe b t : Nat} (G : Geo P cc n mb m nbe b t) {r : Coord2} (hr : r ∈ P.ranks)
variable {cplx : Bool} (hn : (if cplx then 1 else 2) < n) {j st : Nat} (hz : IsBlock cplx n b (j + st, j))

/-- The reflectors in the panel. -/
def PanAt (P : Params2) (n b : Nat) (r : Coord2) (i j : Nat) (V : Elems K) (s : DT2BSt K) : Prop :=
  ∃ d, readPanel n b (P.on r) i j s = some d ∧ IsWin d V (i * b) (j * b) (min b (n - i * b)) (min b (n - j * b))

include G hn hz

theorem Geo.ok : BlkOK n b (j + st) j (rk cplx n b (j + st) j) := by
  have := block_ok G.hb hn hz
  dsimp only at this
  rw [Nat.add_sub_cancel_left] at this
  unfold rk
  rw [Nat.add_sub_cancel_left]
  exact this

theorem Geo.lt_i : (j + st) * b < n := by have := (G.ok hn hz).hkn; omega
theorem Geo.lt_j : j * b < n := by
  have h1 := G.lt_i hn hz
  have : j * b ≤ (j + st) * b := Nat.mul_le_mul_right _ (by omega)
  omega

include hr
variable (hin : r.row = own P t (j + st) ∨ ((j + st + 1) * b < n ∧ r.row = own P t (j + st + 1)))
include hin

theorem Geo.storePanel {V : Elems K} {h w : Nat} {s : DT2BSt K} {x : Blk K}
    (hx : IsWin x V ((j + st) * b) (j * b) (min b (n - (j + st) * b)) (min b (n - j * b))) (hh : h = min b (n - (j + st) * b)) (hw : w = min b (n - j * b)) :
    ∃ p, DistT2B.storePanel b (P.on r) (j + st) h w s x = some { s with pHH := p } ∧ PanAt P n b r (j + st) j V { s with pHH := p } := by
  obtain ⟨q, hq⟩ := G.slot hr (G.lt_i hn hz) hin
  unfold DistT2B.storePanel PanAt readPanel hhSize
  rw [hq, Option.bind_some, if_pos ⟨by rw [hx.1, hh], by rw [hx.2.1, hw], by omega, by omega⟩]
  refine ⟨_, rfl, ?_⟩
  rw [Option.bind_some]
  dsimp only
  rw [set1_same]
  unfold Blk.sub
  rw [if_pos ⟨by dsimp only; omega, by dsimp only; omega⟩]
  refine ⟨_, rfl, rfl, rfl, fun a ha c hc => ?_⟩
  dsimp only
  rw [Nat.zero_add, Nat.zero_add, if_pos ⟨by omega, by omega⟩]
  exact hx.2.2 a ha c hc

/-- The panels of the block on a process. -/
def VWSt (P : Params2) (cc : Params) (n b : Nat) (r : Coord2) (cplx : Bool) (j st : Nat) (V : Elems K) (E : T2BEnv K) (s : DT2BSt K) : Prop :=
  ∀ q, DistT2B.slot b (P.on r) (j + st) = some q →
    VWAt n b V j st (rk cplx n b (j + st) j) (curEnv n b ((PE P cc).on r) (j + st) E).group (s.v q) (s.w q)

theorem Geo.setVW {E : T2BEnv K} (hE : E.cplx = cplx) (hl : LarftSpec E.larft) (hG : 0 < E.group) {V : Elems K} {s : DT2BSt K}
    (hhh : WinAt P n mb n mb r V s.hh) (hp : ¬ (r.row = own P t (j + st) ∧ r.col = ownC P t j) → PanAt P n b r (j + st) j V s) :
    ∃ v w, DistT2B.setVW n b (P.on r) ((PE P cc).on r) (j + st) j E s = some { s with v := v, w := w } ∧
      VWSt P cc n b r cplx j st V E { s with v := v, w := w } := by
  obtain ⟨q, hq⟩ := G.slot hr (G.lt_i hn hz) hin
  unfold DistT2B.setVW
  rw [hq, Option.bind_some, G.rankRow hr, G.rankCol hr]
  have e1 : (P.on r).row.rank = r.row := rfl
  have e2 : (P.on r).col.rank = r.col := rfl
  rw [e1, e2]
  have key : ∃ d, (if r.row = own P t (j + st) ∧ r.col = ownC P t j then DistT2B.readHH n b (P.on r) (j + st) j s else readPanel n b (P.on r) (j + st) j s) = some d ∧
      IsWin d V ((j + st) * b) (j * b) (min b (n - (j + st) * b)) (min b (n - j * b)) := by
    by_cases h : r.row = own P t (j + st) ∧ r.col = ownC P t j
    · rw [if_pos h]
      exact G.readHH hr (G.lt_i hn hz) (G.lt_j hn hz) h.1.symm h.2.symm hhh
    · rw [if_neg h]
      exact hp h
  obtain ⟨d, d1, d2⟩ := key
  rw [d1, Option.bind_some]
  have hcg : 0 < (curEnv n b ((PE P cc).on r) (j + st) E).group := by
    unfold curEnv
    dsimp only
    have := G.b_pos
    split <;> omega
  obtain ⟨v, w, c1, c2⟩ := computeVW_win (E := curEnv n b ((PE P cc).on r) (j + st) E) hl hcg (G.ok hn hz) d2
    (v := getB (E.junkV j (j + st - j)) 0 0 (rowsV n b (j + st)) (nrefls n b (j + st) j E))
    (t := getB (E.junkT j (j + st - j)) 0 0 (nrefls n b (j + st) j E) (nrefls n b (j + st) j E))
    (w := getB (E.junkW j (j + st - j)) 0 0 (rowsV n b (j + st)) (nrefls n b (j + st) j E)) ⟨rfl, by rw [← hE]; rfl⟩
    ⟨by rw [← hE]; rfl, by rw [← hE]; rfl⟩ ⟨rfl, by rw [← hE]; rfl⟩
  rw [c1, Option.map_some]
  refine ⟨_, _, rfl, fun q' hq' => ?_⟩
  rw [hq] at hq'
  obtain rfl := Option.some.inj hq'
  dsimp only
  rw [set1_same, set1_same]
  exact c2

variable {E : T2BEnv K} (hE : E.cplx = cplx) (hG : 0 < E.group) {V D : Elems K} {s : DT2BSt K} (hvw : VWSt P cc n b r cplx j st V E s)
variable {je : Int} (h0 : 0 ≤ je) (h1 : je < (cc.onRank r.col).dist.localNrTiles) (hD : ColAt P cc n mb m nbe r je D s.e)
include hE hvw h0 h1 hD

omit hin hvw hD in
theorem Geo.junkW2 : (DistT2B.junkW2 n b ((PE P cc).on r) (j + st) j E je).rows = rk cplx n b (j + st) j ∧
    (DistT2B.junkW2 n b ((PE P cc).on r) (j + st) j E je).cols = cW cc m nbe r je := by
  refine ⟨?_, G.eCols hr h0 h1⟩
  rw [← hE]
  rfl

include hG in
theorem Geo.updSingle (hlast : ¬ (j + st + 1) * b < n) (hown : own P t (j + st) = r.row) :
    ∃ a, DistT2B.updSingle n b (P.on r) ((PE P cc).on r) (j + st) j E je s = some { s with e := a } ∧
      ColAt P cc n mb m nbe r je (blkF cplx n b m V (j + st, j) D) a ∧ ∀ z : Coord2, z.col ≠ je → a z = s.e z := by
  obtain ⟨q, hq⟩ := G.slot hr (G.lt_i hn hz) hin
  unfold DistT2B.updSingle
  rw [hq, Option.bind_some]
  have hcg : 0 < (curEnv n b ((PE P cc).on r) (j + st) E).group := by
    unfold curEnv
    dsimp only
    have := G.b_pos
    split <;> omega
  rw [Nat.add_mul, Nat.one_mul] at hlast
  obtain ⟨a, a1, a2, a3⟩ := G.eOn hr (G.lt_i hn hz) hown h0 h1 (x0 := 0) (Nat.zero_le _) (N := blkF cplx n b m V (j + st, j) D) hD
    (f := applySingle (curEnv n b ((PE P cc).on r) (j + st) E) (s.v q) (s.w q) (DistT2B.junkW2 n b ((PE P cc).on r) (j + st) j E je)) (fun d hd =>
      single_win (G.ok hn hz) hcg (by omega) (G.cW_le hr h0 h1) (hvw q hq) (G.junkW2 hr hn hz hE h0 h1) hd)
  refine ⟨a, a1, G.ColAt_congr hr h0 h1 a2 fun x hx _ y _ => ?_, a3⟩
  by_cases hxr : (j + st) * b + 0 ≤ x ∧ x < (j + st) * b + b
  · rw [if_pos hxr]
  · rw [if_neg hxr, blkF_row G.hb hn hz]
    left
    dsimp only
    omega

include hG in
theorem Geo.updDouble (hlast : (j + st + 1) * b < n) (hown : own P t (j + st) = r.row) (hown2 : own P t (j + st + 1) = r.row) :
    ∃ a, DistT2B.updDouble n b (P.on r) ((PE P cc).on r) (j + st) j E je s = some { s with e := a } ∧
      ColAt P cc n mb m nbe r je (blkF cplx n b m V (j + st, j) D) a ∧ ∀ z : Coord2, z.col ≠ je → a z = s.e z := by
  obtain ⟨q, hq⟩ := G.slot hr (G.lt_i hn hz) hin
  unfold DistT2B.updDouble
  rw [hq, Option.bind_some]
  have hcg : 0 < (curEnv n b ((PE P cc).on r) (j + st) E).group := by
    unfold curEnv
    dsimp only
    have := G.b_pos
    split <;> omega
  obtain ⟨et, t1, t2⟩ := G.eRead hr (G.lt_i hn hz) hown h0 h1 (x0 := 0) (Nat.zero_le _) hD
  obtain ⟨eb, b1, b2⟩ := G.eRead hr hlast hown2 h0 h1 (x0 := 0) (Nat.zero_le _) hD
  obtain ⟨et', eb', d1, d2, d3⟩ := double_win (G.ok hn hz) hcg hlast (G.cW_le hr h0 h1) (hvw q hq) (G.junkW2 hr hn hz hE h0 h1) t2 b2
  rw [t1, Option.bind_some, b1, Option.bind_some, d1, Option.bind_some]
  obtain ⟨a, a1, a2, a3⟩ := G.eOn hr (G.lt_i hn hz) hown h0 h1 (x0 := 0) (Nat.zero_le _) (N := blkF cplx n b m V (j + st, j) D) hD
    (f := fun _ => some et') (fun d hd => ⟨et', rfl, d2⟩)
  obtain ⟨c, c1, c2, c3⟩ := G.eOn hr hlast hown2 h0 h1 (x0 := 0) (Nat.zero_le _) (N := blkF cplx n b m V (j + st, j) D) (s := { s with e := a }) a2
    (f := fun _ => some eb') (fun d hd => ⟨eb', rfl, d3⟩)
  rw [a1, Option.bind_some]
  refine ⟨c, c1, G.ColAt_congr hr h0 h1 c2 fun x hx _ y _ => ?_, fun z hz' => (c3 z hz').trans (a3 z hz')⟩
  rw [Nat.add_mul, Nat.one_mul, Nat.add_zero, Nat.add_zero]
  by_cases hx2 : (j + st) * b + b ≤ x ∧ x < (j + st) * b + b + b
  · rw [if_pos hx2]
  · rw [if_neg hx2]
    by_cases hxr : (j + st) * b ≤ x ∧ x < (j + st) * b + b
    · rw [if_pos hxr]
    · rw [if_neg hxr, blkF_row G.hb hn hz]
      dsimp only
      omega

/-- First row and number of rows of the own part, relative to the vectors. -/
def pOff (b : Nat) (top : Bool) : Nat := if top then 0 else b - 1
@[inherit_doc pOff] def pLen (n b i : Nat) (top : Bool) : Nat := if top then b - 1 else min b (n - (i + 1) * b)

omit hE hvw hD h0 h1 hin in
theorem Geo.isTop : DistT2B.isTop b (P.on r) (j + st) = decide (r.row = own P t (j + st)) := by
  unfold DistT2B.isTop
  rw [G.rankRow hr]
  rfl

variable (hlast : (j + st + 1) * b < n) (hne : own P t (j + st) ≠ own P t (j + st + 1))
include hlast hne

/-- The own part of `W2` on a process. -/
def TmpAt (P : Params2) (cc : Params) (n m nbe b t : Nat) (r : Coord2) (cplx : Bool) (j st : Nat) (V D : Elems K) (je : Int) (x : Blk K) : Prop :=
  IsWin x (w2F n b V j st D ((j + st) * b + 1 + pOff b (decide (r.row = own P t (j + st)))) (pLen n b (j + st) (decide (r.row = own P t (j + st)))))
    0 (cOff cc nbe r je) (rk cplx n b (j + st) j) (cW cc m nbe r je)

omit hvw hD h0 h1 hin hne in
theorem Geo.vSub (x : Blk K) : DistT2B.vSub n b (P.on r) (j + st) j E x =
    x.sub (pOff b (decide (r.row = own P t (j + st)))) 0 (pLen n b (j + st) (decide (r.row = own P t (j + st)))) (rk cplx n b (j + st) j) ∧
    pOff b (decide (r.row = own P t (j + st))) + pLen n b (j + st) (decide (r.row = own P t (j + st))) ≤ min (2 * b) (n - (j + st) * b) - 1 := by
  have hk : nrefls n b (j + st) j E = rk cplx n b (j + st) j := by rw [← hE]; rfl
  have hB : (j + st + 1) * b = (j + st) * b + b := by rw [Nat.add_mul, Nat.one_mul]
  have hb := G.hb
  unfold DistT2B.vSub rowsTop rowsV pOff pLen
  rw [G.isTop hr hn hz, hk, hB]
  rw [hB] at hlast
  by_cases h : r.row = own P t (j + st)
  · simp only [h, decide_true, if_true]
    rw [show min (min (2 * b) (n - (j + st) * b) - 1) (b - 1) = b - 1 by omega]
    exact ⟨rfl, by omega⟩
  · simp only [h, decide_false, Bool.false_eq_true, if_false]
    rw [show min (min (2 * b) (n - (j + st) * b) - 1) (b - 1) = b - 1 by omega,
      show min (2 * b) (n - (j + st) * b) - 1 - (b - 1) = min b (n - ((j + st) * b + b)) by omega]
    exact ⟨rfl, by omega⟩

omit hE hvw in
/-- The own rows. -/
theorem Geo.ownRead : ∃ d, DistT2B.eRead n b ((PE P cc).on r) (ownRow b (P.on r) (j + st)) (skipRows b (P.on r) (j + st)) je s = some d ∧
    IsWin d D ((j + st) * b + 1 + pOff b (decide (r.row = own P t (j + st)))) (cOff cc nbe r je) (pLen n b (j + st) (decide (r.row = own P t (j + st)))) (cW cc m nbe r je) := by
  have hB : (j + st + 1) * b = (j + st) * b + b := by rw [Nat.add_mul, Nat.one_mul]
  have hb := G.hb
  unfold ownRow skipRows pOff pLen
  rw [G.isTop hr hn hz]
  by_cases h : r.row = own P t (j + st)
  · simp only [h, decide_true, if_true]
    obtain ⟨d, d1, d2⟩ := G.eRead hr (G.lt_i hn hz) h.symm h0 h1 (x0 := 1) (by omega) hD
    refine ⟨d, d1, ?_⟩
    rw [show min b (n - (j + st) * b) - 1 = b - 1 by omega] at d2
    exact d2
  · simp only [h, decide_false, Bool.false_eq_true, if_false]
    have h2 := (hin.resolve_left h).2
    obtain ⟨d, d1, d2⟩ := G.eRead hr hlast h2.symm h0 h1 (x0 := 0) (by omega) hD
    refine ⟨d, d1, ?_⟩
    rw [Nat.sub_zero, Nat.add_zero] at d2
    rw [show (j + st) * b + 1 + (b - 1) = (j + st + 1) * b by omega]
    exact d2

theorem Geo.w2Own : ∃ tm, DistT2B.w2Own n b (P.on r) ((PE P cc).on r) (j + st) j E je s = some { s with tmp := tm } ∧
    ∀ q, DistT2B.slot b (P.on r) (j + st) = some q → TmpAt P cc n m nbe b t r cplx j st V D je (tm q je) := by
  obtain ⟨q, hq⟩ := G.slot hr (G.lt_i hn hz) hin
  have hv := hvw q hq
  obtain ⟨e, e1, e2⟩ := G.ownRead hr hn hz hin h0 h1 hD hlast hne
  obtain ⟨s1, s2⟩ := G.vSub hr hn hz hE hlast (s.v q)
  unfold DistT2B.w2Own
  rw [hq, Option.bind_some, s1]
  obtain ⟨V', T, _, hvv, _⟩ := id hv
  obtain ⟨sv, v1, v2⟩ := Blk.sub_win hvv s2 (show 0 + rk cplx n b (j + st) j ≤ _ by omega)
  rw [v1, Option.bind_some, e1, Option.bind_some]
  obtain ⟨x, x1, x2⟩ := w2_win (G.ok hn hz) hv s2 (G.junkW2 hr hn hz hE h0 h1) v1 e2
  rw [x1, Option.map_some]
  refine ⟨_, rfl, fun q' hq' => ?_⟩
  obtain rfl := Option.some.inj hq'
  rw [set1_same, set1_same]
  exact x2

/-- `W2` on a process. -/
def W2At (P : Params2) (cc : Params) (n m nbe b : Nat) (r : Coord2) (cplx : Bool) (j st : Nat) (V D : Elems K) (je : Int) (x : Blk K) : Prop :=
  IsWin x (w2F n b V j st D ((j + st) * b + 1) (min (2 * b) (n - (j + st) * b) - 1)) 0 (cOff cc nbe r je) (rk cplx n b (j + st) j) (cW cc m nbe r je)

omit hE hvw hD h0 h1 in
theorem Geo.w2Recv {r' : Coord2} (hcol : r'.col = r.col) (hrow : (r'.row = own P t (j + st)) ↔ ¬ (r.row = own P t (j + st))) {x : Blk K}
    (hx : TmpAt P cc n m nbe b t r' cplx j st V D je x) (ht : ∀ q, DistT2B.slot b (P.on r) (j + st) = some q → TmpAt P cc n m nbe b t r cplx j st V D je (s.tmp q je)) :
    ∃ w, DistT2B.w2Recv b (P.on r) (j + st) je s x = some { s with w2 := w } ∧ ∀ q, DistT2B.slot b (P.on r) (j + st) = some q → W2At P cc n m nbe b r cplx j st V D je (w q je) := by
  obtain ⟨q, hq⟩ := G.slot hr (G.lt_i hn hz) hin
  have hB : (j + st + 1) * b = (j + st) * b + b := by rw [Nat.add_mul, Nat.one_mul]
  have hb := G.hb
  have ht' := ht q hq
  unfold TmpAt at hx ht'
  have ec : cOff cc nbe r' je = cOff cc nbe r je := by unfold cOff; rw [hcol]
  have ew : cW cc m nbe r' je = cW cc m nbe r je := by unfold cW; rw [ec]
  rw [ec, ew] at hx
  unfold DistT2B.w2Recv
  rw [hq, Option.bind_some, if_pos ⟨by rw [hx.1, ht'.1], by rw [hx.2.1, ht'.2.1]⟩]
  refine ⟨_, rfl, fun q' hq' => ?_⟩
  obtain rfl := Option.some.inj hq'
  rw [set1_same, set1_same]
  refine ⟨hx.1, hx.2.1, fun c hc y hy => ?_⟩
  dsimp only
  rw [hx.2.2 c hc y hy, ht'.2.2 c hc y hy]
  have hsum : ∀ c y, w2F n b V j st D ((j + st) * b + 1) (b - 1) c y + w2F n b V j st D ((j + st) * b + b) (min b (n - ((j + st) * b + b))) c y =
      w2F n b V j st D ((j + st) * b + 1) (min (2 * b) (n - (j + st) * b) - 1) c y := by
    intro c y
    unfold w2F
    rw [show min (2 * b) (n - (j + st) * b) - 1 = (b - 1) + min b (n - ((j + st) * b + b)) by omega, Finset.sum_range_add]
    congr 1
    refine Finset.sum_congr rfl fun l _ => ?_
    rw [show (j + st) * b + 1 + (b - 1 + l) = (j + st) * b + b + l by omega]
  unfold pOff pLen
  rw [hB]
  by_cases h : r.row = own P t (j + st)
  · have h' : ¬ (r'.row = own P t (j + st)) := fun z => hrow.1 z h
    simp only [h, h', decide_true, decide_false, if_true, Bool.false_eq_true, if_false, Nat.add_zero]
    rw [show (j + st) * b + 1 + (b - 1) = (j + st) * b + b by omega, add_comm]
    exact hsum _ _
  · have h' : r'.row = own P t (j + st) := hrow.2 h
    simp only [h, h', decide_true, decide_false, if_true, Bool.false_eq_true, if_false, Nat.add_zero]
    rw [show (j + st) * b + 1 + (b - 1) = (j + st) * b + b by omega]
    exact hsum _ _

theorem Geo.updOwn (hw2 : ∀ q, DistT2B.slot b (P.on r) (j + st) = some q → W2At P cc n m nbe b r cplx j st V D je (s.w2 q je)) :
    ∃ a, DistT2B.updOwn n b (P.on r) ((PE P cc).on r) (j + st) j E je s = some { s with e := a } ∧
      ColAt P cc n mb m nbe r je (blkF cplx n b m V (j + st, j) D) a ∧ ∀ z : Coord2, z.col ≠ je → a z = s.e z := by
  obtain ⟨q, hq⟩ := G.slot hr (G.lt_i hn hz) hin
  have hB : (j + st + 1) * b = (j + st) * b + b := by rw [Nat.add_mul, Nat.one_mul]
  have hb := G.hb
  have hac : DistT2B.acrossRanks n b ((PE P cc).on r) (j + st) = true := (G.acrossRanks hr (G.lt_i hn hz)).2 ⟨hlast, hne⟩
  have hv := hvw q hq
  have hgr : (curEnv n b ((PE P cc).on r) (j + st) E).group = b := by
    unfold curEnv
    dsimp only
    rw [if_pos hac]
  rw [hgr] at hv
  obtain ⟨s1, s2⟩ := G.vSub hr hn hz hE hlast (s.w q)
  unfold DistT2B.updOwn
  rw [hq, Option.bind_some, s1]
  obtain ⟨V', T, _, _, hww, _⟩ := id hv
  have hsub : ∃ sw, (s.w q).sub (pOff b (decide (r.row = own P t (j + st)))) 0 (pLen n b (j + st) (decide (r.row = own P t (j + st)))) (rk cplx n b (j + st) j) = some sw := by
    unfold Blk.sub
    rw [if_pos ⟨by rw [hww.1]; exact s2, by rw [hww.2]; omega⟩]
    exact ⟨_, rfl⟩
  obtain ⟨sw, hsw⟩ := hsub
  rw [hsw, Option.bind_some]
  have hown := fun e (he : IsWin e D _ _ _ _) => own_win (m := m) (G.ok hn hz) hlast (G.cW_le hr h0 h1) hv s2 hsw (hw2 q hq) (e := e) he
  have own2 : ∀ x < n, P.row.dist.rank_global_tile ((x / mb : Nat) : Int) = r.row → (j + st) * b ≤ x → x < (j + st) * b + b → r.row = own P t (j + st) := by
    intro x _ ho k1 k2
    rw [← ho]
    unfold own
    have hf := G.fits (j + st)
    have hs := G.split (j + st)
    have : x / mb = (j + st) / t := by
      rw [Nat.div_eq_iff (G.row.nb_pos)]
      omega
    rw [this]
  have own3 : ∀ x < n, P.row.dist.rank_global_tile ((x / mb : Nat) : Int) = r.row → (j + st) * b + b ≤ x → x < (j + st) * b + 2 * b → r.row = own P t (j + st + 1) := by
    intro x _ ho k1 k2
    rw [← ho]
    unfold own
    have hf := G.fits (j + st + 1)
    have hs := G.split (j + st + 1)
    have : x / mb = (j + st + 1) / t := by
      rw [Nat.div_eq_iff (G.row.nb_pos)]
      omega
    rw [this]
  unfold ownRow skipRows
  rw [G.isTop hr hn hz]
  unfold pOff pLen at hown
  by_cases h : r.row = own P t (j + st)
  · simp only [h, decide_true, if_true] at hown ⊢
    obtain ⟨a, a1, a2, a3⟩ := G.eOn hr (G.lt_i hn hz) h.symm h0 h1 (x0 := 1) (by omega) (N := blkF cplx n b m V (j + st, j) D) hD
      (f := fun e => gemm .NoTrans .NoTrans (-1) sw (s.w2 q je) 1 e) (fun d hd => by
        rw [show min b (n - (j + st) * b) - 1 = b - 1 by omega] at hd ⊢
        exact hown d hd)
    refine ⟨a, a1, G.ColAt_congr hr h0 h1 a2 fun x hx ho y _ => ?_, a3⟩
    by_cases hxr : (j + st) * b + 1 ≤ x ∧ x < (j + st) * b + b
    · rw [if_pos hxr]
    · rw [if_neg hxr, blkF_row G.hb hn hz]
      dsimp only
      by_cases hx3 : (j + st) * b + b ≤ x ∧ x < (j + st) * b + 2 * b
      · exact absurd (h.symm.trans (own3 x hx ho hx3.1 hx3.2)) hne
      · omega
  · simp only [h, decide_false, Bool.false_eq_true, if_false] at hown ⊢
    have h2 := (hin.resolve_left h).2
    obtain ⟨a, a1, a2, a3⟩ := G.eOn hr hlast h2.symm h0 h1 (x0 := 0) (by omega) (N := blkF cplx n b m V (j + st, j) D) hD
      (f := fun e => gemm .NoTrans .NoTrans (-1) sw (s.w2 q je) 1 e) (fun d hd => by
        rw [Nat.sub_zero, Nat.add_zero] at hd ⊢
        rw [show (j + st) * b + 1 + (b - 1) = (j + st + 1) * b by omega] at hown
        exact hown d hd)
    refine ⟨a, a1, G.ColAt_congr hr h0 h1 a2 fun x hx ho y _ => ?_, a3⟩
    by_cases hxr : (j + st + 1) * b + 0 ≤ x ∧ x < (j + st + 1) * b + b
    · rw [if_pos hxr]
    · rw [if_neg hxr, blkF_row G.hb hn hz]
      dsimp only
      by_cases hx3 : (j + st) * b ≤ x ∧ x < (j + st) * b + b
      · exact absurd (own2 x hx ho hx3.1 hx3.2) h
      · omega

end
end DistT2B
end DLAF
