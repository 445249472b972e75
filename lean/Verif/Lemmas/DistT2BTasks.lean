import Verif.Lemmas.DistT2BGeo
/- The tasks of the distributed back-transformation from tridiagonal to band form on one process. -/
namespace DLAF
namespace DistT2B

section
variable {K : Type*} {P : Params2} {cc : Params} {n mb m nbe b t : Nat} (G : Geo P cc n mb m nbe b t) {r : Coord2} (hr : r ∈ P.ranks)

/-- First column and width of a local tile column of `mat_e`. -/
def cOff (cc : Params) (nbe : Nat) (r : Coord2) (je : Int) : Nat := (cc.onRank r.col).gn je * nbe
@[inherit_doc cOff] def cW (cc : Params) (m nbe : Nat) (r : Coord2) (je : Int) : Nat := min nbe (m - cOff cc nbe r je)

/-- What a process holds in one tile column. -/
def ColAt (P : Params2) (cc : Params) (n mb m nbe : Nat) (r : Coord2) (je : Int) (D : Elems K) (loc : Coord2 → Blk K) : Prop :=
  ∀ i, 0 ≤ i → i < (P.row.onRank r.row).dist.localNrTiles →
    IsWin (loc ⟨i, je⟩) D ((P.row.onRank r.row).gn i * mb) (cOff cc nbe r je) (min mb (n - (P.row.onRank r.row).gn i * mb)) (cW cc m nbe r je)

include G hr

theorem Geo.cW_le {je : Int} (h0 : 0 ≤ je) (h1 : je < (cc.onRank r.col).dist.localNrTiles) : cOff cc nbe r je + cW cc m nbe r je ≤ m := by
  have := (G.ecolAx hr).gn_lt h0 h1
  unfold cW cOff
  omega

theorem Geo.eCols {je : Int} (h0 : 0 ≤ je) (h1 : je < (cc.onRank r.col).dist.localNrTiles) : eCols ((PE P cc).on r) je = cW cc m nbe r je := by
  unfold DistT2B.eCols
  have := (G.ecolAx hr).sz h0 h1
  show (((cc.onRank r.col).dist.global_tile_size_of ((cc.onRank r.col).gl je)).toNat) = _
  rw [this]
  unfold cW cOff
  omega

/-- The elements of another tile row. -/
theorem Geo.ColAt_congr {je : Int} (h0 : 0 ≤ je) (h1 : je < (cc.onRank r.col).dist.localNrTiles) {D D' : Elems K} {loc : Coord2 → Blk K} (h : ColAt P cc n mb m nbe r je D loc)
    (he : ∀ x < n, P.row.dist.rank_global_tile ((x / mb : Nat) : Int) = r.row → ∀ y < m, D x y = D' x y) : ColAt P cc n mb m nbe r je D' loc := by
  intro i hi hi'
  have a1 := G.rowAx hr
  have hmb := a1.nb_pos
  refine (h i hi hi').congr fun x hx1 hx2 y hy1 hy2 => ?_
  have hc := G.cW_le hr h0 h1
  refine he x (by omega) ?_ y (by omega)
  have : x / mb = (P.row.onRank r.row).gn i := by
    rw [Nat.div_eq_iff hmb]
    constructor
    · exact hx1
    · omega
  rw [this, a1.gn_cast hi]
  exact a1.plain.gl_own hi

section
variable {I : Nat} (hI : I * b < n) (ho : own P t I = r.row)
include hI ho

theorem Geo.own_lc : 0 ≤ (P.row.onRank r.row).lc ((I / t : Nat) : Int) ∧ (P.row.onRank r.row).lc ((I / t : Nat) : Int) < (P.row.onRank r.row).dist.localNrTiles ∧
    (P.row.onRank r.row).gn ((P.row.onRank r.row).lc ((I / t : Nat) : Int)) = I / t := by
  have a1 := G.rowAx hr
  have hti : ((I / t : Nat) : Int) < (P.row.onRank r.row).dist.nrTiles := by
    rw [a1.nt]
    have := (a1.lt_nt (I / t)).2 (by have := G.split I; omega)
    omega
  have lb := a1.plain.lc_bounds (Int.natCast_nonneg (I / t)) hti ho
  have e := a1.plain.gl_lc (Int.natCast_nonneg (I / t)) ho
  have := a1.gn_cast lb.1
  exact ⟨lb.1, lb.2, by omega⟩

omit hI ho in
theorem Geo.eTile (je : Int) : eTile b ((PE P cc).on r) I je = ⟨(P.row.onRank r.row).lc ((I / t : Nat) : Int), je⟩ := by
  unfold DistT2B.eTile
  have e : ((PE P cc).on r).row = (P.row.onRank r.row).dist := rfl
  rw [e, (G.rowAx hr).gt, G.div]

omit hI ho in
theorem Geo.eRow (x0 : Nat) : eRow b ((PE P cc).on r) I x0 = I % t * b + x0 := by
  unfold DistT2B.eRow
  have e : ((PE P cc).on r).row = (P.row.onRank r.row).dist := rfl
  rw [e, (G.rowAx hr).te, G.mod, Int.toNat_natCast]

theorem Geo.eRead {je : Int} (h0 : 0 ≤ je) (h1 : je < (cc.onRank r.col).dist.localNrTiles) {x0 : Nat} (hx : x0 ≤ min b (n - I * b)) {D : Elems K} {s : DT2BSt K}
    (h : ColAt P cc n mb m nbe r je D s.e) :
    ∃ d, eRead n b ((PE P cc).on r) I x0 je s = some d ∧ IsWin d D (I * b + x0) (cOff cc nbe r je) (min b (n - I * b) - x0) (cW cc m nbe r je) := by
  obtain ⟨l1, l2, l3⟩ := G.own_lc hr hI ho
  have hw := h _ l1 l2
  rw [l3] at hw
  have hs := G.split I
  have hf := G.fits I
  unfold DistT2B.eRead
  rw [G.eTile hr, G.eRow hr, G.eCols hr h0 h1]
  obtain ⟨d, d1, d2⟩ := Blk.sub_win hw (r0 := I % t * b + x0) (c0 := 0) (h := min b (n - I * b) - x0) (w := cW cc m nbe r je) (by omega) (by omega)
  refine ⟨d, d1, ?_⟩
  rw [Nat.add_zero, ← Nat.add_assoc, hs] at d2
  exact d2

theorem Geo.eOn {je : Int} (h0 : 0 ≤ je) (h1 : je < (cc.onRank r.col).dist.localNrTiles) {x0 : Nat} (hx : x0 ≤ min b (n - I * b)) {D N : Elems K} {s : DT2BSt K}
    (h : ColAt P cc n mb m nbe r je D s.e) {f : Blk K → Option (Blk K)}
    (hf : ∀ d, IsWin d D (I * b + x0) (cOff cc nbe r je) (min b (n - I * b) - x0) (cW cc m nbe r je) →
      ∃ e, f d = some e ∧ IsWin e N (I * b + x0) (cOff cc nbe r je) (min b (n - I * b) - x0) (cW cc m nbe r je)) :
    ∃ a, eOn n b ((PE P cc).on r) I x0 je f s = some { s with e := a } ∧
      ColAt P cc n mb m nbe r je (fun x y => if I * b + x0 ≤ x ∧ x < I * b + b then N x y else D x y) a ∧ ∀ z : Coord2, z.col ≠ je → a z = s.e z := by
  obtain ⟨l1, l2, l3⟩ := G.own_lc hr hI ho
  have a1 := G.rowAx hr
  have hw := h _ l1 l2
  rw [l3] at hw
  have hs := G.split I
  have hft := G.fits I
  unfold DistT2B.eOn
  rw [G.eTile hr, G.eRow hr, G.eCols hr h0 h1]
  obtain ⟨d, d1, d2⟩ := Blk.onSub_win (N := fun x y => if I * b + x0 ≤ x ∧ x < I * b + b then N x y else D x y) (f := f) hw (r0 := I % t * b + x0) (c0 := 0)
    (h := min b (n - I * b) - x0) (w := cW cc m nbe r je) (by omega) (by omega) (by
      rw [Nat.add_zero, ← Nat.add_assoc, hs]
      intro d hd
      obtain ⟨e, e1, e2⟩ := hf d hd
      refine ⟨e, e1, e2.congr fun x hx1 hx2 y _ _ => ?_⟩
      rw [if_pos ⟨hx1, by omega⟩]) (by
      intro x y k1 k2 k3 k4 k5
      rw [if_neg]
      intro k6
      exact k5 ⟨⟨by omega, by omega⟩, by omega, by omega⟩)
  refine ⟨_, by rw [d1, Option.map_some], ?_, ?_⟩
  · intro i hi hi'
    by_cases hil : i = (P.row.onRank r.row).lc ((I / t : Nat) : Int)
    · subst hil
      rw [set1_same, l3]
      exact d2
    · rw [set1_ne _ _ (fun e => hil (by injection e))]
      refine (h i hi hi').congr fun x hx1 hx2 y _ _ => ?_
      rw [if_neg]
      intro k
      have hne : (P.row.onRank r.row).gn i ≠ I / t := by
        intro e
        apply hil
        refine a1.plain.gl_inj hi l1 ?_
        have g1 := a1.gn_cast hi
        have g2 := a1.gn_cast l1
        omega
      have hmb := a1.nb_pos
      rcases Nat.lt_or_gt_of_ne hne with q | q
      · have : ((P.row.onRank r.row).gn i + 1) * mb ≤ I / t * mb := Nat.mul_le_mul_right _ q
        rw [Nat.add_mul] at this
        omega
      · have : (I / t + 1) * mb ≤ (P.row.onRank r.row).gn i * mb := Nat.mul_le_mul_right _ q
        rw [Nat.add_mul] at this
        omega
  · intro z hz
    rw [set1_ne]
    rintro rfl
    exact hz rfl

end

/-- The stored reflectors of a block. -/
theorem Geo.readHH {i j : Nat} (hi : i * b < n) (hj : j * b < n) (o1 : own P t i = r.row) (o2 : ownC P t j = r.col) {V : Elems K} {s : DT2BSt K}
    (h : WinAt P n mb n mb r V s.hh) :
    ∃ d, readHH n b (P.on r) i j s = some d ∧ IsWin d V (i * b) (j * b) (min b (n - i * b)) (min b (n - j * b)) := by
  obtain ⟨l1, l2, l3⟩ := G.own_lc hr hi o1
  have a2 := G.colAx hr
  have htj : ((j / t : Nat) : Int) < (P.col.onRank r.col).dist.nrTiles := by
    rw [a2.nt]
    have := (a2.lt_nt (j / t)).2 (by have := G.split j; omega)
    omega
  have lb := a2.plain.lc_bounds (Int.natCast_nonneg (j / t)) htj o2
  have e := a2.plain.gl_lc (Int.natCast_nonneg (j / t)) o2
  have ec := a2.gn_cast lb.1
  have m3 : (P.col.onRank r.col).gn ((P.col.onRank r.col).lc ((j / t : Nat) : Int)) = j / t := by omega
  have hw := h _ _ l1 l2 lb.1 lb.2
  rw [l3, m3] at hw
  have s1 := G.split i
  have s2 := G.split j
  have f1 := G.fits i
  have f2 := G.fits j
  unfold DistT2B.readHH hhSize
  rw [G.tileRow hr, G.tileCol hr]
  have e1 : (P.on r).row = (P.row.onRank r.row).dist := rfl
  have e2 : (P.on r).col = (P.col.onRank r.col).dist := rfl
  rw [e1, e2, (G.rowAx hr).te, a2.te, G.mod, G.mod, Int.toNat_natCast, Int.toNat_natCast]
  obtain ⟨d, d1, d2⟩ := Blk.sub_win hw (r0 := i % t * b) (c0 := j % t * b) (h := min b (n - i * b)) (w := min b (n - j * b)) (by omega) (by omega)
  rw [s1, s2] at d2
  exact ⟨d, d1, d2⟩

end
end DistT2B
end DLAF
