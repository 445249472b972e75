import Verif.Model.DistMultEvecs
import Verif.Lemmas.DistView
import Verif.Props.MatrixRef
namespace DLAF
variable {K : Type*}

theorem localPos_lt {p : Params} {x y : Int} (hx : 0 ≤ x) (h : x < y) (ho : p.owner x = p.owner y) : p.localPos x < p.localPos y := by
  unfold Params.localPos countBelow
  rw [ho]
  obtain ⟨a, ha⟩ : ∃ a : Nat, x = a := ⟨x.toNat, by omega⟩
  obtain ⟨b, hb⟩ : ∃ b : Nat, y = b := ⟨y.toNat, by omega⟩
  subst ha hb
  rw [Int.toNat_natCast, Int.toNat_natCast]
  have hab : a + 1 ≤ b := by omega
  obtain ⟨k, rfl⟩ : ∃ k, b = a + 1 + k := ⟨b - (a + 1), by omega⟩
  rw [List.range_add, List.countP_append, List.range_succ, List.countP_append]
  have : List.countP (fun i : Nat => decide (p.owner (i : Int) = p.owner ((a + 1 + k : Nat) : Int))) [a] = 1 := by simp [ho]
  rw [this]
  omega

theorem localPos_inj {p : Params} {x y : Int} (hx : 0 ≤ x) (hy : 0 ≤ y) (ho : p.owner x = p.owner y) (h : p.localPos x = p.localPos y) : x = y := by
  rcases lt_trichotomy x y with h1 | h1 | h1
  · have := localPos_lt hx h1 ho; omega
  · exact h1
  · have := localPos_lt hy h1 ho.symm; omega

namespace Ref
section
variable {p : Params} (hp : p.Valid) {o n : Int} (ho : 0 ≤ o) (hn : 0 ≤ n) (hon : o + n ≤ p.size)
include hp ho hn hon

theorem inner {i : Int} (h0 : 0 ≤ i) (h1 : i < (p.sub o n).dist.localNrTiles) :
    0 ≤ size p.dist o n i ∧ ∀ a, 0 ≤ a → a < size p.dist o n i →
      let e := (p.sub o n).tileBegin ((p.sub o n).dist.global_tile_from_local_tile i) + a
      (0 ≤ e ∧ e < n) ∧ p.owner (o + e) = p.rank ∧ base p.dist o n i + a = p.localPos (o + e) ∧
      (p.sub o n).tileOf e = (p.sub o n).dist.global_tile_from_local_tile i := by
  have hs := hp.sub ho hn
  obtain ⟨c1, c2, c3, c4⟩ := C02_local_global_local hs h0 h1
  have := ref_coord hp ho hn hon c3 c4 c2
  dsimp only at this
  unfold size base
  rw [hp.subBuild_eq ho hn]
  obtain ⟨q1, q2, q3, q4, q5, q6⟩ := this
  refine ⟨by omega, fun a a0 a1 => ?_⟩
  dsimp only
  obtain ⟨r1, r2, r3⟩ := q6 a a0 a1
  refine ⟨r1, r2, ?_, ?_⟩
  · rw [hp.localPos_here (by omega) r2] at r3
    rw [← r3]
    unfold Dist1.E Dist1.local_element_from_local_tile_and_tile_element util.element_from_tile_and_tile_element
    omega
  · obtain ⟨e, ⟨e0, e1, e2, e3⟩, e4, _⟩ := C03_global_combine hs c3 c4 a0 a1
    rw [hs.tileBegin_eq c3] at e4
    have e5 : (p.sub o n).tileBegin ((p.sub o n).dist.global_tile_from_local_tile i) + a = e := by omega
    rw [e5, ← hs.tileOf_eq e0, e2]

theorem cover {e : Int} (h0 : 0 ≤ e) (h1 : e < n) (hown : p.owner (o + e) = p.rank) :
    ∃ i, (0 ≤ i ∧ i < (p.sub o n).dist.localNrTiles) ∧ (p.sub o n).dist.global_tile_from_local_tile i = (p.sub o n).tileOf e ∧
      (0 ≤ (p.sub o n).tileOf e ∧ (p.sub o n).tileOf e < (p.sub o n).dist.nrTiles) ∧ (p.sub o n).dist.rank_global_tile ((p.sub o n).tileOf e) = p.rank ∧
      i = (p.sub o n).dist.local_tile_from_global_tile ((p.sub o n).tileOf e) ∧
      0 ≤ e - (p.sub o n).tileBegin ((p.sub o n).tileOf e) ∧ e - (p.sub o n).tileBegin ((p.sub o n).tileOf e) < size p.dist o n i := by
  have hs := hp.sub ho hn
  have hsz : (p.sub o n).size = n := rfl
  obtain ⟨s1, s2, s3, s4, s5⟩ := C03_global_split hs h0 (by omega)
  rw [hs.tileOf_eq h0] at s1 s2 s3 s5
  rw [hs.tileBegin_eq s2] at s1
  have how : (p.sub o n).owner e = p.rank := by
    rw [← hown]
    unfold Params.owner Params.sub
    dsimp only
    rw [add_assoc]
  have hrk : (p.sub o n).rank = p.rank := rfl
  have hrt : (p.sub o n).dist.rank_global_tile ((p.sub o n).tileOf e) = p.rank := by
    have := (hs.owned_elem h0 (by omega) (how.trans hrk.symm)).2.2.2.2.2
    rw [hs.tileOf_eq h0] at this
    exact this
  have hg := C02_global_local_global hs s2 (hrt.trans hrk.symm)
  obtain ⟨ow, h1', h2', h3'⟩ := C01_tile_owner hs s2 s3
  obtain ⟨k1, k2, _⟩ := h3' p.rank hp.2.2.2.2.2.1.1 hp.2.2.2.2.2.1.2
  have hk : ow = p.rank := by rw [← h2' e h0 rfl]; exact how
  refine ⟨_, k2 hk.symm, hg, ⟨s2, s3⟩, hrt, rfl, by omega, ?_⟩
  have : size p.dist o n ((p.sub o n).dist.local_tile_from_global_tile ((p.sub o n).tileOf e)) =
      (p.sub o n).dist.global_tile_size_of ((p.sub o n).tileOf e) := by
    unfold size
    rw [hp.subBuild_eq ho hn]
    rw [hg]
  show _ < size p.dist o n ((p.sub o n).dist.local_tile_from_global_tile ((p.sub o n).tileOf e))
  rw [this]
  omega

theorem gl_inj {i j : Int} (i0 : 0 ≤ i) (i1 : i < (p.sub o n).dist.localNrTiles) (j0 : 0 ≤ j) (j1 : j < (p.sub o n).dist.localNrTiles)
    (h : (p.sub o n).dist.global_tile_from_local_tile i = (p.sub o n).dist.global_tile_from_local_tile j) : i = j := by
  have hs := hp.sub ho hn
  rw [← (C02_local_global_local hs i0 i1).1, h, (C02_local_global_local hs j0 j1).1]

/-- The local tile that contains a local element. -/
theorem tile_unique {e : Int} (h0 : 0 ≤ e) (hown : p.owner (o + e) = p.rank) {i : Int}
    (i0 : 0 ≤ i) (i1 : i < (p.sub o n).dist.localNrTiles) (hb : base p.dist o n i ≤ p.localPos (o + e))
    (hb2 : p.localPos (o + e) < base p.dist o n i + size p.dist o n i) :
    e < n ∧ (p.sub o n).tileOf e = (p.sub o n).dist.global_tile_from_local_tile i ∧
      p.localPos (o + e) - base p.dist o n i = e - (p.sub o n).tileBegin ((p.sub o n).tileOf e) := by
  obtain ⟨_, q⟩ := inner hp ho hn hon i0 i1
  obtain ⟨r1, r2, r3, r4⟩ := q (p.localPos (o + e) - base p.dist o n i) (by omega) (by omega)
  have := localPos_inj (p := p) (x := o + e) (y := o + ((p.sub o n).tileBegin ((p.sub o n).dist.global_tile_from_local_tile i) +
    (p.localPos (o + e) - base p.dist o n i))) (by omega) (by omega) (hown.trans r2.symm) (by omega)
  have he : e = (p.sub o n).tileBegin ((p.sub o n).dist.global_tile_from_local_tile i) + (p.localPos (o + e) - base p.dist o n i) := by omega
  have ht : (p.sub o n).tileOf e = (p.sub o n).dist.global_tile_from_local_tile i := by
    rw [← r4]; exact congrArg _ he
  rw [← he] at r1
  refine ⟨r1.2, ht, ?_⟩
  rw [ht]
  omega

/-- No local element outside of the window is in a tile. -/
theorem tile_outside {x : Int} (hx : 0 ≤ x) (hown : p.owner x = p.rank) (hout : ¬ (o ≤ x ∧ x < o + n)) {i : Int}
    (i0 : 0 ≤ i) (i1 : i < (p.sub o n).dist.localNrTiles) (hb : base p.dist o n i ≤ p.localPos x)
    (hb2 : p.localPos x < base p.dist o n i + size p.dist o n i) : False := by
  obtain ⟨_, q⟩ := inner hp ho hn hon i0 i1
  obtain ⟨r1, r2, r3, r4⟩ := q (p.localPos x - base p.dist o n i) (by omega) (by omega)
  have := localPos_inj (p := p) (x := x) (y := o + ((p.sub o n).tileBegin ((p.sub o n).dist.global_tile_from_local_tile i) +
    (p.localPos x - base p.dist o n i))) hx (by omega) (hown.trans r2.symm) (by omega)
  omega
end

theorem foldl_out {α S : Type*} {f : S → α → S} {P : S → Prop} : ∀ {l : List α} {s : S}, P s → (∀ s, P s → ∀ z ∈ l, P (f s z)) → P (l.foldl f s)
  | [], _, h, _ => h
  | z :: l, s, h, hs => foldl_out (f := f) (P := P) (l := l) (hs s h z (List.mem_cons_self ..)) fun s h z hz => hs s h z (List.mem_cons_of_mem _ hz)

theorem foldl_hit {α S : Type*} {f : S → α → S} {P : S → Prop} {z0 : α} : ∀ {l : List α} {s : S}, z0 ∈ l → (∀ s, P (f s z0)) →
    (∀ s, P s → ∀ z ∈ l, P (f s z)) → P (l.foldl f s)
  | [], _, h, _, _ => by cases h
  | z :: l, s, h, h0, hs => by
    rw [List.foldl_cons]
    rcases List.mem_cons.1 h with rfl | h
    · exact foldl_out (h0 s) fun s h z hz => hs s h z (List.mem_cons_of_mem _ hz)
    · exact foldl_hit h h0 fun s h z hz => hs s h z (List.mem_cons_of_mem _ hz)

section
variable {P : Params2} {r : Coord2} (hr : (P.at' .Row r).Valid) (hc : (P.at' .Col r).Valid) {o n : Coord2} (ho : 0 ≤ o.row ∧ 0 ≤ o.col) (hn : 0 ≤ n.row ∧ 0 ≤ n.col)
  (hon : o.row + n.row ≤ P.row.size ∧ o.col + n.col ≤ P.col.size)
include hr hc ho hn hon

theorem mem_locals {z : Coord2} : z ∈ locals (P.on r) o n ↔ (0 ≤ z.row ∧ z.row < ((P.at' .Row r).sub o.row n.row).dist.localNrTiles) ∧
    (0 ≤ z.col ∧ z.col < ((P.at' .Col r).sub o.col n.col).dist.localNrTiles) := by
  unfold locals
  rw [show (P.on r).row.subBuild o.row n.row = ((P.at' .Row r).sub o.row n.row).dist from hr.subBuild_eq ho.1 hn.1,
    show (P.on r).col.subBuild o.col n.col = ((P.at' .Col r).sub o.col n.col).dist from hc.subBuild_eq ho.2 hn.2]
  simp only [List.mem_flatMap, List.mem_map, mem_irange]
  constructor
  · rintro ⟨j, hj, i, hi, rfl⟩
    exact ⟨hi, hj⟩
  · rintro ⟨h1, h2⟩
    exact ⟨_, h2, _, h1, rfl⟩

/-- An element of the window after its tiles have been written. -/
theorem put_in {E : LocE K} {m : Coord2 → Blk K}
    (hm : ∀ z ∈ locals (P.on r) o n, ((m z).rows : Int) = size (P.on r).row o.row n.row z.row ∧ ((m z).cols : Int) = size (P.on r).col o.col n.col z.col)
    {x y : Int} (hx : 0 ≤ x ∧ x < n.row) (hy : 0 ≤ y ∧ y < n.col) (ox : P.row.owner (o.row + x) = r.row) (oy : P.col.owner (o.col + y) = r.col) :
    put (P.on r) o n E m (P.row.localPos (o.row + x)) (P.col.localPos (o.col + y)) =
      (m ⟨((P.at' .Row r).sub o.row n.row).dist.local_tile_from_global_tile ((P.row.sub o.row n.row).tileOf x),
        ((P.at' .Col r).sub o.col n.col).dist.local_tile_from_global_tile ((P.col.sub o.col n.col).tileOf y)⟩).e
        (x - (P.row.sub o.row n.row).tileBegin ((P.row.sub o.row n.row).tileOf x)).toNat
        (y - (P.col.sub o.col n.col).tileBegin ((P.col.sub o.col n.col).tileOf y)).toNat := by
  obtain ⟨i, a1, a2, a3, a4, a5, a6, a7⟩ := cover hr ho.1 hn.1 hon.1 hx.1 hx.2 ox
  obtain ⟨j, b1, b2, b3, b4, b5, b6, b7⟩ := cover hc ho.2 hn.2 hon.2 hy.1 hy.2 oy
  have hi := inner hr ho.1 hn.1 hon.1 a1.1 a1.2
  have hj := inner hc ho.2 hn.2 hon.2 b1.1 b1.2
  obtain ⟨-, -, ei, -⟩ := hi.2 _ a6 a7
  obtain ⟨-, -, ej, -⟩ := hj.2 _ b6 b7
  rw [a2] at ei
  rw [b2] at ej
  have ei' : base (P.on r).row o.row n.row i + (x - (P.row.sub o.row n.row).tileBegin ((P.row.sub o.row n.row).tileOf x)) = P.row.localPos (o.row + x) := by
    refine Eq.trans ei ?_
    show P.row.localPos _ = _
    congr 1
    show o.row + ((P.row.sub o.row n.row).tileBegin ((P.row.sub o.row n.row).tileOf x) + (x - (P.row.sub o.row n.row).tileBegin ((P.row.sub o.row n.row).tileOf x))) = _
    omega
  have ej' : base (P.on r).col o.col n.col j + (y - (P.col.sub o.col n.col).tileBegin ((P.col.sub o.col n.col).tileOf y)) = P.col.localPos (o.col + y) := by
    refine Eq.trans ej ?_
    show P.col.localPos _ = _
    congr 1
    show o.col + ((P.col.sub o.col n.col).tileBegin ((P.col.sub o.col n.col).tileOf y) + (y - (P.col.sub o.col n.col).tileBegin ((P.col.sub o.col n.col).tileOf y))) = _
    omega
  have a6' : 0 ≤ x - (P.row.sub o.row n.row).tileBegin ((P.row.sub o.row n.row).tileOf x) := a6
  have b6' : 0 ≤ y - (P.col.sub o.col n.col).tileBegin ((P.col.sub o.col n.col).tileOf y) := b6
  have a7' : x - (P.row.sub o.row n.row).tileBegin ((P.row.sub o.row n.row).tileOf x) < size (P.on r).row o.row n.row i := a7
  have b7' : y - (P.col.sub o.col n.col).tileBegin ((P.col.sub o.col n.col).tileOf y) < size (P.on r).col o.col n.col j := b7
  have hz0 : (⟨i, j⟩ : Coord2) ∈ locals (P.on r) o n := (mem_locals hr hc ho hn hon).2 ⟨a1, b1⟩
  have hhit : ∀ E : LocE K, putTile E (base (P.on r).row o.row n.row i) (base (P.on r).col o.col n.col j) (m ⟨i, j⟩) (P.row.localPos (o.row + x))
      (P.col.localPos (o.col + y)) = (m ⟨i, j⟩).e (x - (P.row.sub o.row n.row).tileBegin ((P.row.sub o.row n.row).tileOf x)).toNat
        (y - (P.col.sub o.col n.col).tileBegin ((P.col.sub o.col n.col).tileOf y)).toNat := by
    intro E
    obtain ⟨m1, m2⟩ := hm _ hz0
    dsimp only at m1 m2
    unfold putTile
    rw [if_pos ⟨⟨by omega, by omega⟩, by omega, by omega⟩]
    congr 2 <;> omega
  have a5' : ((P.at' .Row r).sub o.row n.row).dist.local_tile_from_global_tile ((P.row.sub o.row n.row).tileOf x) = i := a5.symm
  have b5' : ((P.at' .Col r).sub o.col n.col).dist.local_tile_from_global_tile ((P.col.sub o.col n.col).tileOf y) = j := b5.symm
  rw [a5', b5']
  unfold put
  refine foldl_hit (P := fun E : LocE K => E (P.row.localPos (o.row + x)) (P.col.localPos (o.col + y)) = _) hz0 hhit fun E hE z hz => ?_
  obtain ⟨m1, m2⟩ := hm z hz
  by_cases hin : (base (P.on r).row o.row n.row z.row ≤ P.row.localPos (o.row + x) ∧ P.row.localPos (o.row + x) < base (P.on r).row o.row n.row z.row + (m z).rows) ∧
      base (P.on r).col o.col n.col z.col ≤ P.col.localPos (o.col + y) ∧ P.col.localPos (o.col + y) < base (P.on r).col o.col n.col z.col + (m z).cols
  · obtain ⟨hz1, hz2⟩ := (mem_locals hr hc ho hn hon).1 hz
    rw [m1, m2] at hin
    have u1 := tile_unique hr ho.1 hn.1 hon.1 hx.1 ox hz1.1 hz1.2 hin.1.1 hin.1.2
    have u2 := tile_unique hc ho.2 hn.2 hon.2 hy.1 oy hz2.1 hz2.2 hin.2.1 hin.2.2
    have e1 : z.row = i := gl_inj hr ho.1 hn.1 hon.1 hz1.1 hz1.2 a1.1 a1.2 (u1.2.1.symm.trans a2.symm)
    have e2 : z.col = j := gl_inj hc ho.2 hn.2 hon.2 hz2.1 hz2.2 b1.1 b1.2 (u2.2.1.symm.trans b2.symm)
    have : z = ⟨i, j⟩ := by cases z; simp only at e1 e2; rw [e1, e2]
    subst this
    exact hhit E
  · show putTile E _ _ _ _ _ = _
    unfold putTile
    rw [if_neg hin]
    exact hE

/-- An element that is not in the window. -/
theorem put_out {E : LocE K} {m : Coord2 → Blk K}
    (hm : ∀ z ∈ locals (P.on r) o n, ((m z).rows : Int) = size (P.on r).row o.row n.row z.row ∧ ((m z).cols : Int) = size (P.on r).col o.col n.col z.col)
    {x y : Int} (hx : 0 ≤ x) (hy : 0 ≤ y) (ox : P.row.owner x = r.row) (oy : P.col.owner y = r.col)
    (hout : ¬ ((o.row ≤ x ∧ x < o.row + n.row) ∧ (o.col ≤ y ∧ y < o.col + n.col))) :
    put (P.on r) o n E m (P.row.localPos x) (P.col.localPos y) = E (P.row.localPos x) (P.col.localPos y) := by
  unfold put
  refine foldl_out (P := fun E' : LocE K => E' (P.row.localPos x) (P.col.localPos y) = _) rfl fun E' hE z hz => ?_
  obtain ⟨m1, m2⟩ := hm z hz
  obtain ⟨hz1, hz2⟩ := (mem_locals hr hc ho hn hon).1 hz
  show putTile E' _ _ _ _ _ = _
  unfold putTile
  rw [if_neg]
  · exact hE
  · rintro ⟨h1, h2⟩
    rw [m1] at h1
    rw [m2] at h2
    refine hout ⟨?_, ?_⟩
    · by_contra hc'
      exact tile_outside hr ho.1 hn.1 hon.1 hx ox hc' hz1.1 hz1.2 h1.1 h1.2
    · by_contra hc'
      exact tile_outside hc ho.2 hn.2 hon.2 hy oy hc' hz2.1 hz2.2 h2.1 h2.2
end
end Ref
end DLAF
