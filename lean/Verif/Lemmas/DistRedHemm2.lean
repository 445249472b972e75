import Verif.Lemmas.DistRedReduce
/- Distributed reduction to band: the local part of `hemmComputeX`. -/
namespace DLAF
open scoped Classical
namespace DistRed

theorem ite_of_iff {K : Type*} {p q : Prop} {dp : Decidable p} {dq : Decidable q} (h : p ↔ q) {a b : K} : @ite _ p dp a b = @ite _ q dq a b := by
  by_cases hp : p
  · rw [if_pos hp, if_pos (h.1 hp)]
  · rw [if_neg hp, if_neg fun hq => hp (h.2 hq)]

theorem sum2_step {K X Y : Type*} [AddCommMonoid K] (S : Finset X) (T : Finset Y) (D : X → Y → Prop) (f : X → Y → K) {a : X} {b : Y} (ha : a ∈ S) (hb : b ∈ T)
    (hD : ¬ D a b) :
    (∑ i ∈ S, ∑ l ∈ T, if D i l ∨ (i = a ∧ l = b) then f i l else 0) = (∑ i ∈ S, ∑ l ∈ T, if D i l then f i l else 0) + f a b := by
  have e : f a b = ∑ i ∈ S, ∑ l ∈ T, if i = a ∧ l = b then f i l else 0 := by
    rw [Finset.sum_eq_single a, Finset.sum_eq_single b]
    · simp
    · intro l _ hl; simp [hl]
    · intro h; exact absurd hb h
    · intro i _ hi; simp [hi]
    · intro h; exact absurd ha h
  rw [e, ← Finset.sum_add_distrib]
  refine Finset.sum_congr rfl fun i _ => ?_
  rw [← Finset.sum_add_distrib]
  refine Finset.sum_congr rfl fun l _ => ?_
  by_cases h1 : D i l
  · have : ¬ (i = a ∧ l = b) := by rintro ⟨rfl, rfl⟩; exact hD h1
    rw [if_pos (.inl h1), if_pos h1, if_neg this, add_zero]
  · rw [if_neg h1, zero_add]
    by_cases h2 : i = a ∧ l = b
    · rw [if_pos (.inr h2), if_pos h2]
    · rw [if_neg (by tauto), if_neg h2]

variable {K : Type*} [RCLike K] {P : Params2} {n nb band j : Nat} {dt : Coord2 → Dist1}

/-- What the process `(p, q)` contributes to the tile `t` of `A W`. -/
noncomputable def Gs (P : Params2) (n nb band j : Nat) (A W : Elems K) (p q : Int) (t : Nat) : Elems K := fun x y =>
  ∑ m ∈ (Finset.Ico ((j + 1) * band / nb) ((n + nb - 1) / nb)).filter (fun t : Nat => P.row.dist.rank_global_tile t = p),
    ∑ m' ∈ (Finset.Ico ((j + 1) * band / nb) ((n + nb - 1) / nb)).filter (fun t : Nat => P.col.dist.rank_global_tile t = q),
      if m' ≤ m then contrib n nb band j A W m m' t x y else 0

section
variable (h : Geo P n nb band j)
include h

omit [RCLike K] in
theorem Geo.mem_tTiles {r : Coord2} (hr : r ∈ P.ranks) {l : Int} : l ∈ tTiles nb band (P.on r) j ↔
    0 ≤ l ∧ l < (P.col.onRank r.col).dist.localNrTiles ∧ (j + 1) * band / nb ≤ (P.col.onRank r.col).gn l ∧
      (P.col.onRank r.col).gn l + 1 < (n + nb - 1) / nb := by
  have a := h.col hr
  have hlt := h.r0_lt
  unfold tTiles
  rw [h.tStart_eq, mem_irange]
  unfold tEnd
  rw [h.ntiles_eq]
  have e : ∀ t : Int, (P.on r).col.next_local_tile_from_global_tile t = (P.col.onRank r.col).nx t := fun _ => rfl
  rw [e, e]
  have h0 := a.plain.nx_nonneg (s := (((j + 1) * band / nb : Nat) : Int)) (Int.natCast_nonneg _)
  constructor
  · rintro ⟨x1, x2⟩
    have h1 : 0 ≤ l := by omega
    have h2 := (a.plain.lt_nx (s := ((((n + nb - 1) / nb : Nat) : Int) - 1)) h1 (by have := Int.natCast_nonneg ((j + 1) * band / nb); omega)).1 x2
    have h3 : ¬ (P.col.onRank r.col).gl l < (((j + 1) * band / nb : Nat) : Int) := fun hc => by
      have := (a.plain.lt_nx h1 (Int.natCast_nonneg _)).2 hc
      omega
    rw [← a.gn_cast h1] at h2 h3
    refine ⟨h1, ?_, by omega, by omega⟩
    rw [← a.plain.nx_all]
    refine (a.plain.lt_nx h1 (by rw [a.nt]; exact Int.natCast_nonneg _)).2 ?_
    rw [a.nt, ← a.gn_cast h1]
    omega
  · rintro ⟨h1, h2, h3, h4⟩
    constructor
    · by_contra hc
      have := (a.plain.lt_nx h1 (Int.natCast_nonneg _)).1 (show l < (P.col.onRank r.col).nx (((j + 1) * band / nb : Nat) : Int) by omega)
      rw [← a.gn_cast h1] at this
      omega
    · refine (a.plain.lt_nx h1 (by omega)).2 ?_
      rw [← a.gn_cast h1]
      omega

omit [RCLike K] in
theorem Geo.mem_hemmTiles {r : Coord2} (hr : r ∈ P.ranks) {z : Coord2} : z ∈ hemmTiles band (P.on r) j ↔
    z.row ∈ rows band (P.on r) j ∧ 0 ≤ z.col ∧ z.col < (P.col.onRank r.col).dist.localNrTiles ∧
      (j + 1) * band / nb ≤ (P.col.onRank r.col).gn z.col ∧ (P.col.onRank r.col).gn z.col ≤ (P.row.onRank r.row).gn z.row := by
  have a2 := h.col hr
  have a1 := h.row hr
  have hv : ∀ i ∈ rows band (P.on r) j, ∀ l, l ∈ irange (View.begin' (P.on r).col (r0 band j)) (limit (P.on r) i) ↔
      0 ≤ l ∧ l < (P.col.onRank r.col).dist.localNrTiles ∧ (j + 1) * band / nb ≤ (P.col.onRank r.col).gn l ∧
      (P.col.onRank r.col).gn l ≤ (P.row.onRank r.row).gn i := by
    intro i hi l
    have hi' := (h.mem_rows hr).1 hi
    have hil := (a1.lt_nt _).2 (a1.gn_lt hi'.1 hi'.2.1)
    have el : limit (P.on r) i = (P.col.onRank r.col).nx ((((P.row.onRank r.row).gn i : Nat) : Int) + 1) := by
      rw [a1.gn_cast hi'.1]; rfl
    have key : l ∈ irange (View.begin' (P.on r).col (r0 band j)) (limit (P.on r) i) ↔
        l ∈ View.tiles (P.col.onRank r.col).dist (((j + 1) * band : Nat) : Int) ∧ l < limit (P.on r) i := by
      unfold View.tiles
      rw [mem_irange, mem_irange]
      have e5 : View.begin' (P.on r).col (r0 band j) = View.begin' (P.col.onRank r.col).dist (((j + 1) * band : Nat) : Int) := rfl
      rw [e5]
      constructor
      · rintro ⟨x1, x2⟩
        refine ⟨⟨x1, ?_⟩, x2⟩
        rw [el] at x2
        have := a2.plain.nx_mono (s := (((P.row.onRank r.row).gn i : Nat) : Int) + 1) (t := (P.col.onRank r.col).dist.nrTiles) (by omega) (by rw [a2.nt]; omega)
        rw [a2.plain.nx_all] at this
        omega
      · rintro ⟨⟨x1, _⟩, x2⟩
        exact ⟨x1, x2⟩
    rw [key, a2.mem_view, el]
    constructor
    · rintro ⟨⟨x1, x2, x3⟩, x4⟩
      have := (a2.plain.lt_nx x1 (by omega)).1 x4
      rw [← a2.gn_cast x1] at this
      exact ⟨x1, x2, x3, by omega⟩
    · rintro ⟨x1, x2, x3, x4⟩
      refine ⟨⟨x1, x2, x3⟩, (a2.plain.lt_nx x1 (by omega)).2 ?_⟩
      rw [← a2.gn_cast x1]
      omega
  unfold hemmTiles
  rw [List.mem_flatMap]
  constructor
  · rintro ⟨i, hi, hz⟩
    rw [List.mem_map] at hz
    obtain ⟨l, hl, rfl⟩ := hz
    rw [List.mem_reverse] at hl
    exact ⟨hi, (hv i hi l).1 hl⟩
  · rintro ⟨h1, h2⟩
    exact ⟨z.row, h1, List.mem_map.2 ⟨z.col, List.mem_reverse.2 ((hv _ h1 _).2 h2), rfl⟩⟩

omit [RCLike K] h in
theorem hemmTiles_nodup (r : Coord2) : (hemmTiles band (P.on r) j).Nodup := by
  unfold hemmTiles
  rw [List.nodup_flatMap]
  refine ⟨fun i _ => (List.nodup_reverse.2 (irange_nodup _ _)).map fun a b e => ?_, (view_nodup _ _ : (rows band (P.on r) j).Nodup).imp fun {a b} hab => ?_⟩
  · exact congrArg Coord2.col e
  · intro z hz hz'
    rw [List.mem_map] at hz hz'
    obtain ⟨_, _, rfl⟩ := hz
    obtain ⟨_, _, e⟩ := hz'
    exact hab (congrArg Coord2.row e).symm

/-- The local part of `hemmComputeX`. -/
theorem Geo.hemm_local {r : Coord2} (hr : r ∈ P.ranks) {A W : Elems K} {s : RbSt K} (hA : WinAt P n nb n nb r A s.a)
    (hW : HR P n nb band j r W s.pW) (hWt : HT P n nb band j ((((n + nb - 1) / nb : Nat) : Int) - 1) r W s.pWt) :
    ∃ p pt, runLocs ((rows band (P.on r) j).map (zeroX n band (P.on r) j) ++ (tTiles nb band (P.on r) j).map (zeroXt n band (P.on r) j) ++
        (hemmTiles band (P.on r) j).map (hemmTask n band (P.on r) j)) s = some { s with pX := p, pXt := pt } ∧
      HX P n nb band j r (Gs P n nb band j A W r.row r.col) { s with pX := p, pXt := pt } := by
  have a1 := h.row hr
  have a2 := h.col hr
  obtain ⟨p, p1, p2, -⟩ := write_each RbSt.rX_ok (s := s) (f := zeroX n band (P.on r) j)
    (fun i d => IsWin d (fun _ _ => (0 : K)) (pc nb n band j ((P.row.onRank r.row).gn i)).1 0 (pc nb n band j ((P.row.onRank r.row).gn i)).2 (nr n band j))
    (l := rows band (P.on r) j) (view_nodup _ _) (fun i hi p _ => by
      refine ⟨Blk.zero (vSize n band (P.on r) j i).1 (vSize n band (P.on r) j i).2, ERef.write_of RbSt.rX_ok rfl rfl p, ?_⟩
      rw [h.vSize_eq hr hi]
      exact ⟨rfl, rfl, fun _ _ _ _ => rfl⟩)
  obtain ⟨pt, t1, t2, -⟩ := write_each RbSt.rXt_ok (s := RbSt.rX.set s p) (f := zeroXt n band (P.on r) j)
    (fun l d => IsWin d (fun _ _ => (0 : K)) (pc nb n band j ((P.col.onRank r.col).gn l)).1 0 (pc nb n band j ((P.col.onRank r.col).gn l)).2 (nr n band j))
    (l := tTiles nb band (P.on r) j) (irange_nodup _ _) (fun l hl p _ => by
      refine ⟨Blk.zero (vtSize n band (P.on r) j l).1 (vtSize n band (P.on r) j l).2, ERef.write_of RbSt.rXt_ok rfl rfl p, ?_⟩
      rw [h.mem_tTiles hr] at hl
      rw [h.vtSize_eq hr hl.1 hl.2.1]
      exact ⟨rfl, rfl, fun _ _ _ _ => rfl⟩)
  refine Exists.elim (runLocs_each (hemmTiles_nodup (P := P) (band := band) (j := j) r) (s := RbSt.rXt.set (RbSt.rX.set s p) pt) (f := hemmTask n band (P.on r) j)
    (fun D s' => ∃ p pt, s' = { s with pX := p, pXt := pt } ∧ HX P n nb band j r (fun t x y =>
      ∑ i ∈ (View.tiles (P.row.onRank r.row).dist (((j + 1) * band : Nat) : Int)).toFinset,
        ∑ l ∈ (View.tiles (P.col.onRank r.col).dist (((j + 1) * band : Nat) : Int)).toFinset,
          if D ⟨i, l⟩ then contrib n nb band j A W ((P.row.onRank r.row).gn i) ((P.col.onRank r.col).gn l) t x y else 0) s') ?_ ?_) ?_
  · refine ⟨p, pt, rfl, fun i hi => ?_, fun l l0 l1 l2 l3 _ => ?_⟩
    · obtain ⟨d, d1, d2⟩ := p2 i hi
      refine ⟨d, d1, d2.congr fun x _ _ y _ _ => ?_⟩
      simp
    · obtain ⟨d, d1, d2⟩ := t2 l ((h.mem_tTiles hr).2 ⟨l0, l1, l2, l3⟩)
      refine ⟨d, d1, d2.congr fun x _ _ y _ _ => ?_⟩
      simp
  · rintro D z s' hz hD _ ⟨p, pt, rfl, hx⟩
    obtain ⟨z1, z2, z3, z4, z5⟩ := (h.mem_hemmTiles hr).1 hz
    obtain ⟨p', pt', e1, e2⟩ := h.hemmTask_ps hr (A := A) (W := W) (s := { s with pX := p, pXt := pt }) hA hW hWt hx z1 z2 z3 z4 z5
    refine ⟨_, e1, p', pt', rfl, ?_⟩
    refine (congrArg (fun XM => HX P n nb band j r XM _) ?_).mp e2
    funext t x y
    have := sum2_step (View.tiles (P.row.onRank r.row).dist (((j + 1) * band : Nat) : Int)).toFinset
      (View.tiles (P.col.onRank r.col).dist (((j + 1) * band : Nat) : Int)).toFinset (fun i l => D ⟨i, l⟩)
      (fun i l => contrib n nb band j A W ((P.row.onRank r.row).gn i) ((P.col.onRank r.col).gn l) t x y) (a := z.row) (b := z.col)
      (List.mem_toFinset.2 z1) (List.mem_toFinset.2 (a2.mem_view.2 ⟨z2, z3, z4⟩)) hD
    rw [← this]
    refine Finset.sum_congr rfl fun i _ => Finset.sum_congr rfl fun l _ => ?_
    refine ite_of_iff ?_
    constructor
    · rintro (h1 | ⟨rfl, rfl⟩)
      · exact .inl h1
      · exact .inr rfl
    · rintro (h1 | h1)
      · exact .inl h1
      · rw [← h1]; exact .inr ⟨rfl, rfl⟩
  · rintro s' ⟨e1, p', pt', rfl, hx⟩
    refine ⟨p', pt', ?_, ?_⟩
    · rw [runLocs_append, runLocs_append, p1]
      simp only [Option.bind_eq_bind, Option.bind_some]
      rw [t1, Option.bind_some]
      exact e1
    · refine (congrArg (fun XM => HX P n nb band j r XM _) ?_).mp hx
      funext t x y
      unfold Gs
      have e3 := a1.sum_view ((j + 1) * band) (fun m => ∑ m' ∈ (Finset.Ico ((j + 1) * band / nb) ((n + nb - 1) / nb)).filter
        (fun t : Nat => P.col.dist.rank_global_tile t = r.col), if m' ≤ m then contrib n nb band j A W m m' t x y else 0)
      refine Eq.trans ?_ e3
      refine Finset.sum_congr rfl fun i hi => ?_
      have e4 := a2.sum_view ((j + 1) * band) (fun m' => if m' ≤ (P.row.onRank r.row).gn i then contrib n nb band j A W ((P.row.onRank r.row).gn i) m' t x y else 0)
      refine Eq.trans ?_ e4
      refine Finset.sum_congr rfl fun l hl => ?_
      rw [List.mem_toFinset] at hi hl
      have hl' := a2.mem_view.1 hl
      refine ite_of_iff ((h.mem_hemmTiles hr).trans ?_)
      exact ⟨fun hh => hh.2.2.2.2, fun hh => ⟨hi, hl'.1, hl'.2.1, hl'.2.2, hh⟩⟩

end
end DistRed
end DLAF
