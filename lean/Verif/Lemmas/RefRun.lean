import Verif.Lemmas.RefTiles
namespace DLAF
variable {K : Type*}

/-- The matrix after the window of size `m` x `n` at `(R, C)` was overwritten. -/
def winSet (R C m n : Nat) (V A : Nat → Nat → K) : Nat → Nat → K := fun x y =>
  if (R ≤ x ∧ x < R + m) ∧ (C ≤ y ∧ y < C + n) then V (x - R) (y - C) else A x y

section
variable {P : Params2} (hr : P.row.Valid) (hc : P.col.Valid) {R C m n : Nat} (hR : (R + m : Nat) ≤ P.row.size) (hC : (C + n : Nat) ≤ P.col.size)
  {r : Coord2} (h : r ∈ P.ranks)
include hr hc hR hC h

theorem dims_ok {c1 : Tiles K} (hs : Shaped c1 (P.sub ⟨R, C⟩ ⟨m, n⟩).row.tileSizes (P.sub ⟨R, C⟩ ⟨m, n⟩).col.tileSizes (P.sub ⟨R, C⟩ ⟨m, n⟩).row.ntn (P.sub ⟨R, C⟩ ⟨m, n⟩).col.ntn)
    {M : Coord2 → Blk K} (hM : HoldsTiles (P.sub ⟨R, C⟩ ⟨m, n⟩) (P.sub ⟨R, C⟩ ⟨m, n⟩).row.ntn (P.sub ⟨R, C⟩ ⟨m, n⟩).col.ntn r c1 M) :
    ∀ z ∈ Ref.locals (P.on r) ⟨R, C⟩ ⟨m, n⟩, ((M z).rows : Int) = Ref.size (P.on r).row R m z.row ∧ ((M z).cols : Int) = Ref.size (P.on r).col C n z.col := by
  obtain ⟨vr, vc⟩ := Params2.at_valid hr hc h
  intro z hz
  obtain ⟨⟨a0, a1⟩, b0, b1⟩ := (Ref.mem_locals (o := ⟨R, C⟩) (n := ⟨m, n⟩) vr vc ⟨by dsimp only; omega, by dsimp only; omega⟩
    ⟨by dsimp only; omega, by dsimp only; omega⟩ ⟨by dsimp only; omega, by dsimp only; omega⟩).1 hz
  have sr := vr.sub (o := R) (n := m) (by omega) (by omega)
  have sc := vc.sub (o := C) (n := n) (by omega) (by omega)
  obtain ⟨g1, g2, g3, g4⟩ := C02_local_global_local sr a0 a1
  obtain ⟨l1, l2, l3, l4⟩ := C02_local_global_local sc b0 b1
  obtain ⟨i, hi⟩ : ∃ i : Nat, ((P.at' .Row r).sub R m).dist.global_tile_from_local_tile z.row = i := ⟨_, (Int.toNat_of_nonneg g3).symm⟩
  obtain ⟨j, hj⟩ : ∃ j : Nat, ((P.at' .Col r).sub C n).dist.global_tile_from_local_tile z.col = j := ⟨_, (Int.toNat_of_nonneg l3).symm⟩
  have hi' : i < (P.sub ⟨R, C⟩ ⟨m, n⟩).row.ntn := by
    have : (i : Int) < (P.sub ⟨R, C⟩ ⟨m, n⟩).row.dist.nrTiles := by rw [← hi]; exact g4
    unfold Params.ntn; omega
  have hj' : j < (P.sub ⟨R, C⟩ ⟨m, n⟩).col.ntn := by
    have : (j : Int) < (P.sub ⟨R, C⟩ ⟨m, n⟩).col.dist.nrTiles := by rw [← hj]; exact l4
    unfold Params.ntn; omega
  have key := hM i hi' j hj' (by rw [← hi]; exact g2) (by rw [← hj]; exact l2)
  have e1 : ((P.sub ⟨R, C⟩ ⟨m, n⟩).at' .Row r).dist.local_tile_from_global_tile i = z.row := by rw [← hi]; exact g1
  have e2 : ((P.sub ⟨R, C⟩ ⟨m, n⟩).at' .Col r).dist.local_tile_from_global_tile j = z.col := by rw [← hj]; exact l1
  rw [e1, e2] at key
  have hz' : M z = c1 (i, j) := key
  obtain ⟨s1, s2⟩ := hs i hi' j hj'
  have q1 := (Ref.at_tile vr (o := R) (n := m) (by omega) (by omega) (by show _ ≤ P.row.size; omega) (t := i) (by omega)
    (by rw [← hi]; exact g4) (by rw [← hi]; exact g2)).1
  have q2 := (Ref.at_tile vc (o := C) (n := n) (by omega) (by omega) (by show _ ≤ P.col.size; omega) (t := j) (by omega)
    (by rw [← hj]; exact l4) (by rw [← hj]; exact l2)).1
  have e1' : ((P.at' .Row r).sub R m).dist.local_tile_from_global_tile i = z.row := e1
  have e2' : ((P.at' .Col r).sub C n).dist.local_tile_from_global_tile j = z.col := e2
  rw [e1'] at q1
  rw [e2'] at q2
  have p1 := sr.wf.global_tsz_pos (t := i) (by omega) (by rw [← hi]; exact g4)
  have p2 := sc.wf.global_tsz_pos (t := j) (by omega) (by rw [← hj]; exact l4)
  rw [hz', s1, s2]
  constructor
  · refine Eq.trans ?_ q1.symm
    unfold Params.tileSizes
    exact Int.toNat_of_nonneg (by show 0 ≤ ((P.at' .Row r).sub R m).dist.global_tile_size_of i; omega)
  · refine Eq.trans ?_ q2.symm
    unfold Params.tileSizes
    exact Int.toNat_of_nonneg (by show 0 ≤ ((P.at' .Col r).sub C n).dist.global_tile_size_of j; omega)

theorem put_holds {c1 : Tiles K} (hs : Shaped c1 (P.sub ⟨R, C⟩ ⟨m, n⟩).row.tileSizes (P.sub ⟨R, C⟩ ⟨m, n⟩).col.tileSizes (P.sub ⟨R, C⟩ ⟨m, n⟩).row.ntn (P.sub ⟨R, C⟩ ⟨m, n⟩).col.ntn)
    {M : Coord2 → Blk K} (hM : HoldsTiles (P.sub ⟨R, C⟩ ⟨m, n⟩) (P.sub ⟨R, C⟩ ⟨m, n⟩).row.ntn (P.sub ⟨R, C⟩ ⟨m, n⟩).col.ntn r c1 M)
    {V : Nat → Nat → K}
    (hV : HoldsOn c1 (P.sub ⟨R, C⟩ ⟨m, n⟩).row.tileSizes (P.sub ⟨R, C⟩ ⟨m, n⟩).col.tileSizes (P.sub ⟨R, C⟩ ⟨m, n⟩).row.ntn (P.sub ⟨R, C⟩ ⟨m, n⟩).col.ntn V fun _ _ => True)
    {E : LocE K} {A : Nat → Nat → K} (hE : HoldsLoc P r E A) :
    HoldsLoc P r (Ref.put (P.on r) ⟨R, C⟩ ⟨m, n⟩ E M) (winSet R C m n V A) := by
  obtain ⟨vr, vc⟩ := Params2.at_valid hr hc h
  have hm := dims_ok hr hc hR hC h hs hM
  intro x y hx hy ox oy
  unfold winSet
  by_cases hin : (R ≤ x ∧ x < R + m) ∧ (C ≤ y ∧ y < C + n)
  · rw [if_pos hin]
    obtain ⟨a, rfl⟩ : ∃ a, x = R + a := ⟨x - R, by omega⟩
    obtain ⟨b, rfl⟩ : ∃ b, y = C + b := ⟨y - C, by omega⟩
    rw [Nat.add_sub_cancel_left, Nat.add_sub_cancel_left]
    rw [Nat.cast_add] at ox oy hx hy
    rw [Nat.cast_add, Nat.cast_add]
    have ha : (a : Int) < m := by omega
    have hb : (b : Int) < n := by omega
    rw [show P.row.localPos ((R : Int) + a) = P.row.localPos ((⟨R, C⟩ : Coord2).row + a) from rfl,
      show P.col.localPos ((C : Int) + b) = P.col.localPos ((⟨R, C⟩ : Coord2).col + b) from rfl,
      Ref.put_in vr vc (o := ⟨R, C⟩) (n := ⟨m, n⟩) ⟨by dsimp only; omega, by dsimp only; omega⟩
      ⟨by dsimp only; omega, by dsimp only; omega⟩ ⟨by show _ ≤ P.row.size; dsimp only; omega, by show _ ≤ P.col.size; dsimp only; omega⟩ hm ⟨by omega, ha⟩ ⟨by omega, hb⟩ ox oy]
    obtain ⟨i, a1, a2, a3, a4, a5, a6, a7⟩ := Ref.cover vr (o := R) (n := m) (by omega) (by omega) (by show _ ≤ P.row.size; omega) (e := a) (by omega) ha ox
    obtain ⟨j, b1, b2, b3, b4, b5, b6, b7⟩ := Ref.cover vc (o := C) (n := n) (by omega) (by omega) (by show _ ≤ P.col.size; omega) (e := b) (by omega) hb oy
    dsimp only
    have sr := hr.sub (o := R) (n := m) (by omega) (by omega)
    have sc := hc.sub (o := C) (n := n) (by omega) (by omega)
    obtain ⟨ti, hti⟩ : ∃ i : Nat, (P.row.sub R m).tileOf a = i := ⟨_, (Int.toNat_of_nonneg a3.1).symm⟩
    obtain ⟨tj, htj⟩ : ∃ i : Nat, (P.col.sub C n).tileOf b = i := ⟨_, (Int.toNat_of_nonneg b3.1).symm⟩
    have ai : ((P.at' .Row r).sub R m).tileOf a = ti := hti
    have bj : ((P.at' .Col r).sub C n).tileOf b = tj := htj
    rw [ai] at a2 a3 a4 a5 a6 a7
    rw [bj] at b2 b3 b4 b5 b6 b7
    rw [hti, htj]
    have hi' : ti < (P.sub ⟨R, C⟩ ⟨m, n⟩).row.ntn := by
      have : (ti : Int) < (P.sub ⟨R, C⟩ ⟨m, n⟩).row.dist.nrTiles := a3.2
      unfold Params.ntn; omega
    have hj' : tj < (P.sub ⟨R, C⟩ ⟨m, n⟩).col.ntn := by
      have : (tj : Int) < (P.sub ⟨R, C⟩ ⟨m, n⟩).col.dist.nrTiles := b3.2
      unfold Params.ntn; omega
    have key := hM ti hi' tj hj' a4 b4
    have key' : M ⟨((P.at' .Row r).sub R m).dist.local_tile_from_global_tile ti, ((P.at' .Col r).sub C n).dist.local_tile_from_global_tile tj⟩ = c1 (ti, tj) := key
    rw [key']
    have q1 := (Ref.at_tile vr (o := R) (n := m) (by omega) (by omega) (by show _ ≤ P.row.size; omega) (t := ti) (by omega) a3.2 a4).1
    have q2 := (Ref.at_tile vc (o := C) (n := n) (by omega) (by omega) (by show _ ≤ P.col.size; omega) (t := tj) (by omega) b3.2 b4).1
    rw [← a5] at q1
    rw [← b5] at q2
    have t1 := sr.tileStart_eq hi'
    have t2 := sc.tileStart_eq hj'
    have t1' : ((P.at' .Row r).sub R m).tileBegin ti = (tileStart (P.sub ⟨R, C⟩ ⟨m, n⟩).row.tileSizes ti : Nat) := t1.symm
    have t2' : ((P.at' .Col r).sub C n).tileBegin tj = (tileStart (P.sub ⟨R, C⟩ ⟨m, n⟩).col.tileSizes tj : Nat) := t2.symm
    have u1 : (P.row.sub R m).tileBegin ti = (tileStart (P.sub ⟨R, C⟩ ⟨m, n⟩).row.tileSizes ti : Nat) := t1.symm
    have u2 : (P.col.sub C n).tileBegin tj = (tileStart (P.sub ⟨R, C⟩ ⟨m, n⟩).col.tileSizes tj : Nat) := t2.symm
    rw [t1'] at a6 a7
    rw [t2'] at b6 b7
    rw [u1, u2]
    have q1' : ((P.sub ⟨R, C⟩ ⟨m, n⟩).row.tileSizes ti : Int) = Ref.size (P.at' .Row r).dist R m i := by
      rw [q1]
      exact Int.toNat_of_nonneg (by have := sr.wf.global_tsz_pos (t := ti) (by omega) a3.2; show 0 ≤ (P.row.sub R m).dist.global_tile_size_of ti; omega)
    have q2' : ((P.sub ⟨R, C⟩ ⟨m, n⟩).col.tileSizes tj : Int) = Ref.size (P.at' .Col r).dist C n j := by
      rw [q2]
      exact Int.toNat_of_nonneg (by have := sc.wf.global_tsz_pos (t := tj) (by omega) b3.2; show 0 ≤ (P.col.sub C n).dist.global_tile_size_of tj; omega)
    have f := hV ti hi' tj hj' (a - tileStart (P.sub ⟨R, C⟩ ⟨m, n⟩).row.tileSizes ti) (by omega) (b - tileStart (P.sub ⟨R, C⟩ ⟨m, n⟩).col.tileSizes tj) (by omega) trivial
    rw [show ((a : Int) - (tileStart (P.sub ⟨R, C⟩ ⟨m, n⟩).row.tileSizes ti : Nat)).toNat = a - tileStart (P.sub ⟨R, C⟩ ⟨m, n⟩).row.tileSizes ti by omega,
      show ((b : Int) - (tileStart (P.sub ⟨R, C⟩ ⟨m, n⟩).col.tileSizes tj : Nat)).toNat = b - tileStart (P.sub ⟨R, C⟩ ⟨m, n⟩).col.tileSizes tj by omega, f]
    congr 1 <;> omega
  · rw [if_neg hin, Ref.put_out vr vc (o := ⟨R, C⟩) (n := ⟨m, n⟩) ⟨by dsimp only; omega, by dsimp only; omega⟩
      ⟨by dsimp only; omega, by dsimp only; omega⟩ ⟨by show _ ≤ P.row.size; dsimp only; omega, by show _ ≤ P.col.size; dsimp only; omega⟩ hm (by omega) (by omega) ox oy (by dsimp only; omega)]
    exact hE x y hx hy ox oy

theorem copy_holds {E1 : Coord2 → LocE K} {A1 : Nat → Nat → K} (h1 : ∀ r ∈ P.ranks, HoldsLoc P r (E1 r) A1) {E : LocE K} {A : Nat → Nat → K} (hE : HoldsLoc P r E A) :
    HoldsLoc P r (Ref.put (P.on r) ⟨R, C⟩ ⟨m, n⟩ E (Ref.tiles (P.on r) ⟨R, C⟩ ⟨m, n⟩ (E1 r)))
      (winSet R C m n (fun x y => A1 (R + x) (C + y)) A) :=
  put_holds hr hc hR hC h (refTiles_size hr hc (o := ⟨R, C⟩) (n := ⟨m, n⟩) ⟨by dsimp only; omega, by dsimp only; omega⟩
      ⟨by dsimp only; omega, by dsimp only; omega⟩ ⟨by dsimp only; omega, by dsimp only; omega⟩ E1)
    (refTiles_holds E1 r _ _) (refTiles_elem hr hc (o := ⟨R, C⟩) (n := ⟨m, n⟩) ⟨by dsimp only; omega, by dsimp only; omega⟩
      ⟨by dsimp only; omega, by dsimp only; omega⟩ ⟨by dsimp only; omega, by dsimp only; omega⟩ h1) hE
end
end DLAF
