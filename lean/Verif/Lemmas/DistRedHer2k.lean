import Verif.Lemmas.DistRedTrail
/- Distributed reduction to band: the update of the trailing matrix. -/
namespace DLAF
open scoped Classical
namespace DistRed
variable {K : Type*} [RCLike K] {P : Params2} {n nb band j : Nat} {dt : Coord2 → Dist1}

/-- The trailing matrix after the update. -/
noncomputable def updA (n band j : Nat) (V X A : Elems K) : Elems K := fun x y =>
  if ((j + 1) * band ≤ y ∧ y ≤ x) ∧ x < n then her2kE (nr n band j) V X A x y else A x y

section
variable (h : Geo P n nb band j)
include h

omit [RCLike K] h in
theorem her2k_perm (r : Coord2) {z : Coord2} : z ∈ her2kTiles band (P.on r) j ↔ z ∈ hemmTiles band (P.on r) j := by
  unfold her2kTiles hemmTiles
  simp only [List.mem_flatMap, List.mem_map, List.mem_reverse]

omit [RCLike K] h in
theorem her2kTiles_nodup (r : Coord2) : (her2kTiles band (P.on r) j).Nodup := by
  unfold her2kTiles
  rw [List.nodup_flatMap]
  refine ⟨fun i _ => (irange_nodup _ _).map fun a b e => ?_, (view_nodup _ _ : (rows band (P.on r) j).Nodup).imp fun {a b} hab => ?_⟩
  · exact congrArg Coord2.col e
  · intro z hz hz'
    rw [List.mem_map] at hz hz'
    obtain ⟨_, _, rfl⟩ := hz
    obtain ⟨_, _, e⟩ := hz'
    exact hab (congrArg Coord2.row e).symm

omit [RCLike K] in
/-- The pieces lie in the tiles. -/
theorem Geo.pc_in {m : Nat} (hm : (j + 1) * band / nb ≤ m) : m * nb ≤ (pc nb n band j m).1 ∧ (j + 1) * band ≤ (pc nb n band j m).1 := by
  have hd := h.r0_div
  unfold pc pieceOf
  dsimp only
  by_cases e : m = (j + 1) * band / nb
  · rw [if_pos e, e]; omega
  · rw [if_neg e]
    have : (j + 1) * band / nb + 1 ≤ m := by omega
    have := Nat.mul_le_mul_right nb this
    rw [Nat.add_mul] at this
    have := h.modr
    have := h.hb
    omega

theorem Geo.her2kTask_ps {r : Coord2} (hr : r ∈ P.ranks) {A V X : Elems K} {s : RbSt K} (hV : HR P n nb band j r V s.pV) (hX : HR P n nb band j r X s.pX)
    (hVt : HT P n nb band j ((((n + nb - 1) / nb : Nat) : Int) - 1) r V s.pVt) {e : Int} (he : (((n + nb - 1) / nb : Nat) : Int) - 1 ≤ e)
    (hXt : HT P n nb band j e r X s.pXt) {z : Coord2} (hz : z ∈ hemmTiles band (P.on r) j)
    (ha : IsWin (s.a z) A ((P.row.onRank r.row).gn z.row * nb) ((P.col.onRank r.col).gn z.col * nb)
      (min nb (n - (P.row.onRank r.row).gn z.row * nb)) (min nb (n - (P.col.onRank r.col).gn z.col * nb))) :
    ∃ t, her2kTask band (P.on r) j z s = some { s with a := set1 s.a z t } ∧
      IsWin t (updA n band j V X A) ((P.row.onRank r.row).gn z.row * nb) ((P.col.onRank r.col).gn z.col * nb)
      (min nb (n - (P.row.onRank r.row).gn z.row * nb)) (min nb (n - (P.col.onRank r.col).gn z.col * nb)) := by
  obtain ⟨hi, l0, l1, l2, l3⟩ := (h.mem_hemmTiles hr).1 hz
  have hi' := (h.mem_rows hr).1 hi
  have a1 := h.row hr
  have a2 := h.col hr
  obtain ⟨c, c', z1, z2, z3, z4, z5⟩ := h.aSpec_eq hr hi l0 l1 l2
  obtain ⟨v, v1, v2⟩ : ∃ v, s.pV z.row = some v ∧ IsWin v V (pc nb n band j ((P.row.onRank r.row).gn z.row)).1 0
    (pc nb n band j ((P.row.onRank r.row).gn z.row)).2 (nr n band j) := hV z.row hi
  obtain ⟨x, x1, x2⟩ : ∃ v, s.pX z.row = some v ∧ IsWin v X (pc nb n band j ((P.row.onRank r.row).gn z.row)).1 0
    (pc nb n band j ((P.row.onRank r.row).gn z.row)).2 (nr n band j) := hX z.row hi
  have hgi : (P.on r).row.global_tile_from_local_tile z.row = (((P.row.onRank r.row).gn z.row : Nat) : Int) := (a1.gn_cast hi'.1).symm
  have hgl : (P.on r).col.global_tile_from_local_tile z.col = (((P.col.onRank r.col).gn z.col : Nat) : Int) := (a2.gn_cast l0).symm
  have e1 : RbSt.rV.read z.row s = some v := v1
  have e2 : RbSt.rX.read z.row s = some x := x1
  have hz1 : aSpec band (P.on r) j z = aSpec band (P.on r) j ⟨z.row, z.col⟩ := rfl
  have hpi := h.pc_in hi'.2.2
  have hpl := h.pc_in l2
  have hgn := (a1.lt_nt _).2 (a1.gn_lt hi'.1 hi'.2.1)
  unfold her2kTask
  dsimp only
  rw [hz1, z1, hgi, hgl]
  dsimp only
  -- elements outside the sub-tile are not in the trailing matrix
  have hout : ∀ p q, (P.row.onRank r.row).gn z.row * nb ≤ p → p < (P.row.onRank r.row).gn z.row * nb + min nb (n - (P.row.onRank r.row).gn z.row * nb) →
      (P.col.onRank r.col).gn z.col * nb ≤ q → q < (P.col.onRank r.col).gn z.col * nb + min nb (n - (P.col.onRank r.col).gn z.col * nb) →
      ¬ (((P.row.onRank r.row).gn z.row * nb + c ≤ p ∧ p < (P.row.onRank r.row).gn z.row * nb + c + (pc nb n band j ((P.row.onRank r.row).gn z.row)).2) ∧
        ((P.col.onRank r.col).gn z.col * nb + c' ≤ q ∧ q < (P.col.onRank r.col).gn z.col * nb + c' + (pc nb n band j ((P.col.onRank r.col).gn z.col)).2)) →
      updA n band j V X A p q = A p q := by
    intro p q p1 p2 q1 q2 hn
    unfold updA
    refine if_neg ?_
    rintro ⟨⟨k1, k2⟩, k3⟩
    have hcut : ∀ m, (j + 1) * band / nb ≤ m → ∀ c, m * nb + c = (pc nb n band j m).1 → ∀ p, m * nb ≤ p → (j + 1) * band ≤ p → m * nb + c ≤ p := by
      intro m _ c hc p hp hp'
      unfold pc pieceOf at hc
      dsimp only at hc
      by_cases e : m = (j + 1) * band / nb
      · rw [if_pos e] at hc
        have := h.r0_div
        rw [← e] at this
        omega
      · rw [if_neg e] at hc
        omega
    refine hn ⟨⟨hcut _ hi'.2.2 c z2 p p1 (by omega), by omega⟩, hcut _ l2 c' z4 q q1 k1, by omega⟩
  by_cases hd : (P.row.onRank r.row).gn z.row = (P.col.onRank r.col).gn z.col
  · rw [if_pos (by rw [hd]), e1, Option.bind_some, e2, Option.bind_some]
    refine Exists.elim (Blk.onSub_win (N := updA n band j V X A) (r0 := c) (c0 := c') (h := (pc nb n band j ((P.row.onRank r.row).gn z.row)).2)
      (w := (pc nb n band j ((P.col.onRank r.col).gn z.col)).2) (f := fun a => her2k .Lower .NoTrans (-1) v x 1 a) ha (by omega) (by omega) ?_ hout) ?_
    · intro d hdw
      rw [z2, z4, ← hd] at hdw ⊢
      obtain ⟨d', d1, d2⟩ := her2k_win v2 x2 hdw
      refine ⟨d', d1, d2.congr fun p p1 p2 q q1 q2 => ?_⟩
      unfold updA
      rw [← hd] at hpl
      have hrng := h.piece_range hr hi
      by_cases hqp : q ≤ p
      · rw [if_pos hqp, if_pos ⟨⟨by omega, hqp⟩, by omega⟩]
      · rw [if_neg hqp, if_neg (by omega)]
    · rintro t ⟨t1, t2⟩
      refine ⟨t, ?_, t2⟩
      rw [t1]
      rfl
  · have hlt : (P.col.onRank r.col).gn z.col < (P.row.onRank r.row).gn z.row := by omega
    have hpm := h.pc_mono hlt
    obtain ⟨vt, t1, t2⟩ := hVt z.col l0 l1 l2 (by omega)
    obtain ⟨xt, u1, u2⟩ := hXt z.col l0 l1 l2 (by omega)
    have e3 : RbSt.rVt.read z.col s = some vt := t1
    have e4 : RbSt.rXt.read z.col s = some xt := u1
    rw [if_neg (by omega), e2, Option.bind_some, e3, Option.bind_some, e1, Option.bind_some, e4, Option.bind_some]
    refine Exists.elim (Blk.onSub_win (N := updA n band j V X A) (r0 := c) (c0 := c') (h := (pc nb n band j ((P.row.onRank r.row).gn z.row)).2)
      (w := (pc nb n band j ((P.col.onRank r.col).gn z.col)).2)
      (f := fun a => (gemm .NoTrans .ConjTrans (-1) x vt 1 a).bind fun a => gemm .NoTrans .ConjTrans (-1) v xt 1 a) ha (by omega) (by omega) ?_ hout) ?_
    · intro d hdw
      rw [z2, z4] at hdw ⊢
      obtain ⟨d', d1, d2⟩ := her2k_off_win v2 x2 t2 u2 hdw
      refine ⟨d', d1, d2.congr fun p p1 p2 q q1 q2 => ?_⟩
      unfold updA
      have hrng := h.piece_range hr hi
      rw [if_pos ⟨⟨by omega, by omega⟩, by omega⟩]
    · rintro t ⟨t1, t2⟩
      refine ⟨t, ?_, t2⟩
      rw [t1]
      rfl

/-- `her2kUpdateTrailingMatrix`. -/
theorem Geo.her2k_local {r : Coord2} (hr : r ∈ P.ranks) {A V X : Elems K} {s : RbSt K} (hA : WinAt P n nb n nb r A s.a)
    (hV : HR P n nb band j r V s.pV) (hX : HR P n nb band j r X s.pX)
    (hVt : HT P n nb band j ((((n + nb - 1) / nb : Nat) : Int) - 1) r V s.pVt) {e : Int} (he : (((n + nb - 1) / nb : Nat) : Int) - 1 ≤ e)
    (hXt : HT P n nb band j e r X s.pXt) :
    ∃ a', runLocs ((her2kTiles band (P.on r) j).map (her2kTask band (P.on r) j)) s = some { s with a := a' } ∧ WinAt P n nb n nb r (updA n band j V X A) a' := by
  refine Exists.elim (runLocs_each (her2kTiles_nodup (P := P) (band := band) (j := j) r) (s := s) (f := her2kTask band (P.on r) j)
    (fun D s' => ∃ a', s' = { s with a := a' } ∧ ∀ i l, 0 ≤ i → i < (P.row.onRank r.row).dist.localNrTiles → 0 ≤ l → l < (P.col.onRank r.col).dist.localNrTiles →
      IsWin (a' ⟨i, l⟩) (if D ⟨i, l⟩ then updA n band j V X A else A) ((P.row.onRank r.row).gn i * nb) ((P.col.onRank r.col).gn l * nb)
        (min nb (n - (P.row.onRank r.row).gn i * nb)) (min nb (n - (P.col.onRank r.col).gn l * nb))) ?_ ?_) ?_
  · refine ⟨s.a, rfl, fun i l i0 i1 l0 l1 => ?_⟩
    rw [if_neg id]
    exact hA i l i0 i1 l0 l1
  · rintro D z s' hz hD _ ⟨a', rfl, ha⟩
    rw [her2k_perm] at hz
    obtain ⟨hi, l0, l1, l2, l3⟩ := (h.mem_hemmTiles hr).1 hz
    have hi' := (h.mem_rows hr).1 hi
    have hw := ha z.row z.col hi'.1 hi'.2.1 l0 l1
    rw [if_neg hD] at hw
    obtain ⟨t, t1, t2⟩ := h.her2kTask_ps hr (A := A) (s := { s with a := a' }) hV hX hVt he hXt hz hw
    refine ⟨_, t1, _, rfl, fun i l i0 i1 j0 j1 => ?_⟩
    by_cases ez : (⟨i, l⟩ : Coord2) = z
    · subst ez
      rw [if_pos (.inr rfl)]
      have : set1 a' ⟨i, l⟩ t ⟨i, l⟩ = t := by unfold set1; rw [if_pos rfl]
      rw [this]
      exact t2
    · have e5 : set1 a' z t ⟨i, l⟩ = a' ⟨i, l⟩ := by unfold set1; rw [if_neg ez]
      show IsWin (set1 a' z t ⟨i, l⟩) _ _ _ _ _
      rw [e5]
      refine (congrArg (fun M => IsWin (a' ⟨i, l⟩) M _ _ _ _) ?_).mp (ha i l i0 i1 j0 j1)
      exact ite_of_iff ⟨.inl, fun hh => hh.resolve_right ez⟩
  · rintro s' ⟨h1, a', rfl, ha⟩
    refine ⟨a', h1, fun i l i0 i1 l0 l1 => ?_⟩
    have hw := ha i l i0 i1 l0 l1
    by_cases hz : (⟨i, l⟩ : Coord2) ∈ her2kTiles band (P.on r) j
    · rw [if_pos hz] at hw
      exact hw
    · rw [if_neg hz] at hw
      refine hw.congr fun p p1 p2 q q1 q2 => ?_
      unfold updA
      rw [if_neg]
      rintro ⟨⟨k1, k2⟩, k3⟩
      refine hz ((her2k_perm r).2 ((h.mem_hemmTiles hr).2 ?_))
      have hd := h.r0_div
      have hlt := Nat.mod_lt ((j + 1) * band) h.nbp
      have g1 : (j + 1) * band / nb ≤ (P.col.onRank r.col).gn l := by
        by_contra hc
        have := Nat.mul_le_mul_right nb (show (P.col.onRank r.col).gn l + 1 ≤ (j + 1) * band / nb by omega)
        rw [Nat.add_mul] at this
        omega
      have g2 : (P.col.onRank r.col).gn l ≤ (P.row.onRank r.row).gn i := by
        by_contra hc
        have := Nat.mul_le_mul_right nb (show (P.row.onRank r.row).gn i + 1 ≤ (P.col.onRank r.col).gn l by omega)
        rw [Nat.add_mul] at this
        omega
      exact ⟨(h.mem_rows hr).2 ⟨i0, i1, Nat.le_trans g1 g2⟩, l0, l1, g1, g2⟩

end
end DistRed
end DLAF
