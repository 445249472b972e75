import Verif.Lemmas.DistRedHemm3
/- Distributed reduction to band: `hemmComputeX`. -/
namespace DLAF
open scoped Classical
namespace DistRed
variable {K : Type*} [RCLike K] {P : Params2} {n nb band j : Nat} {dt : Coord2 → Dist1}

section
variable (h : Geo P n nb band j)
include h

/-- Reductions in the process rows. -/
theorem Geo.reduceX_runs {XM : Int → Nat → Elems K} {g : Glob (RbSt K) (Blk K)} (hcl : Clean P.ranks g)
    (hX : ∀ r ∈ P.ranks, ∀ i ∈ rows band (P.on r) j, ∃ v, (g.st r).pX i = some v ∧ IsWin v (XM r.col ((P.row.onRank r.row).gn i))
          (pc nb n band j ((P.row.onRank r.row).gn i)).1 0 (pc nb n band j ((P.row.onRank r.row).gn i)).2 (nr n band j)) :
    ∃ g', Runs (fun r => if r ∈ P.ranks then (if 1 < (P.on r).col.grid then (rows band (P.on r) j).flatMap (reduceX n band (P.on r) j) else []) else []) g g' ∧
      Clean P.ranks g' ∧ ∀ r ∈ P.ranks, ∃ p, g'.st r = { g.st r with pX := p } ∧
        (r ∈ onCol P nb band j → ∀ i ∈ rows band (P.on r) j, ∃ v, p i = some v ∧
          IsWin v (fun x y => ((irange 0 P.col.grid).map fun q => XM q ((P.row.onRank r.row).gn i) x y).sum)
          (pc nb n band j ((P.row.onRank r.row).gn i)).1 0 (pc nb n band j ((P.row.onRank r.row).gn i)).2 (nr n band j)) := by
  have hg : ∀ r, (P.on r).col.grid = P.col.grid := fun _ => rfl
  by_cases h1 : 1 < P.col.grid
  · have hv : ∀ r i, ∃ v, r ∈ P.ranks → i ∈ rows band (P.on r) j → (g.st r).pX i = some v ∧ IsWin v (XM r.col ((P.row.onRank r.row).gn i))
          (pc nb n band j ((P.row.onRank r.row).gn i)).1 0 (pc nb n band j ((P.row.onRank r.row).gn i)).2 (nr n band j) := by
      intro r i
      by_cases hr : r ∈ P.ranks
      · by_cases hl : i ∈ rows band (P.on r) j
        · obtain ⟨v, hv⟩ := hX r hr i hl
          exact ⟨v, fun _ _ => hv⟩
        · exact ⟨⟨0, 0, fun _ _ => 0⟩, fun _ h' => absurd h' hl⟩
      · exact ⟨⟨0, 0, fun _ _ => 0⟩, fun h' => absurd h' hr⟩
    choose v hv using hv
    have hrow : ∀ r ∈ P.ranks, ∀ q, 0 ≤ q → q < P.col.grid → (⟨r.row, q⟩ : Coord2) ∈ P.ranks := fun r hr p p0 p1 =>
      Params2.mem_ranks.2 fun a => by
        cases a
        · exact Params2.mem_ranks.1 hr .Row
        · exact ⟨p0, p1⟩
    have hb : ∀ r i, ∃ b, r ∈ P.ranks → i ∈ rows band (P.on r) j →
        sumBlk ((irange 0 P.col.grid).map fun q => v ⟨r.row, q⟩ i) = some b ∧
        IsWin b (fun x y => ((irange 0 P.col.grid).map fun q => XM q ((P.row.onRank r.row).gn i) x y).sum)
          (pc nb n band j ((P.row.onRank r.row).gn i)).1 0 (pc nb n band j ((P.row.onRank r.row).gn i)).2 (nr n band j) := by
      intro r i
      by_cases hr : r ∈ P.ranks
      · by_cases hl : i ∈ rows band (P.on r) j
        · obtain ⟨b, b1, b2⟩ := sumBlk_wins (r0 := (pc nb n band j ((P.row.onRank r.row).gn i)).1) (c0 := 0)
            (R := (pc nb n band j ((P.row.onRank r.row).gn i)).2) (C := nr n band j) (m := P.col.grid) (by omega) (fun q => v ⟨r.row, q⟩ i)
            (fun q => XM q ((P.row.onRank r.row).gn i)) (fun q p0 p1 => (hv ⟨r.row, q⟩ i (hrow r hr q p0 p1) hl).2)
          exact ⟨b, fun _ _ => ⟨b1, b2⟩⟩
        · exact ⟨⟨0, 0, fun _ _ => 0⟩, fun _ h' => absurd h' hl⟩
      · exact ⟨⟨0, 0, fun _ _ => 0⟩, fun h' => absurd h' hr⟩
    choose b hb using hb
    refine Exists.elim (reduce_list P.ranks_nodup hcl (fun r => Chan.row r.row) (fun r => rows band (P.on r) j) (fun _ => view_nodup _ _)
      (fun r _ => by simp [Chan.has]) (fun r _ s _ hs => ?_) RbSt.rX_ok (fun r _ => decide (rc P nb band j = r.col)) (fun r _ => .reduce (rc P nb band j))
      (fun r => (irange 0 P.col.grid).map (Chan.row r.row).rankOf) (fun r i s => RbSt.rX.read i s) (fun r i => vSize n band (P.on r) j i) (fun _ i => i) v b
      (fun _ _ _ _ _ _ _ _ e => e) ?_ ?_ ?_ ?_) ?_
    · simp only [Chan.has, decide_eq_true_eq] at hs
      rw [hs]
      refine ⟨rfl, ?_⟩
      rw [rows_eq, rows_eq, hs]
    · intro r hr i hi p hp
      rw [← (hv r i hr hi).1]
      show p i = (g.st r).pX i
      by_contra hne
      obtain ⟨i', h1, h2, h3, h4⟩ := hp _ hne
      exact h2 h4.symm
    · intro r hr s hs
      rw [List.mem_map] at hs
      obtain ⟨p, hp, rfl⟩ := hs
      rw [mem_irange] at hp
      exact ⟨hrow r hr p hp.1 hp.2, by simp [Chan.has, Chan.rankOf]⟩
    · intro r hr i hi _
      rw [List.map_map]
      exact (hb r i hr hi).1
    · intro r hr i hi ho
      have := (hb r i hr hi).2
      rw [h.vSize_eq hr hi]
      exact ⟨this.1, this.2.1⟩
    · rintro g' ⟨G1, G2, G3⟩
      refine ⟨g', G1.congr fun r => ?_, G2, fun r hr => ?_⟩
      · by_cases hr : r ∈ P.ranks
        · rw [if_pos hr, if_pos hr, if_pos (show 1 < (P.on r).col.grid from h1)]
          refine List.flatMap_congr fun i hi => ?_
          unfold reduceX redOne
          dsimp only
          rw [rootCol_on h.a2]
          have ho' : (rc P nb band j = (P.on r).col.rank) ↔ rc P nb band j = r.col := Iff.rfl
          by_cases ho : rc P nb band j = r.col
          · rw [if_pos (ho'.2 ho), if_pos (decide_eq_true ho)]
            rfl
          · rw [if_neg (fun hc => ho (ho'.1 hc)), if_neg (by rw [decide_eq_true_iff]; exact ho)]
            rfl
        · rw [if_neg hr, if_neg hr]
      · obtain ⟨p, p1, p2, p3⟩ := G3 r hr
        refine ⟨p, p1, fun hon i hi => ⟨_, p2 i hi (decide_eq_true (mem_onCol.1 hon).2.symm), (hb r i hr hi).2⟩⟩
  · refine ⟨g, Runs.nil (fun r => ?_) g, hcl, fun r hr => ⟨(g.st r).pX, rfl, fun _ i hi => ?_⟩⟩
    · rw [hg, if_neg h1]; split <;> rfl
    · obtain ⟨v, v1, v2⟩ := hX r hr i hi
      refine ⟨v, v1, v2.congr fun x _ _ y _ _ => ?_⟩
      have hrr : 0 ≤ r.col ∧ r.col < P.col.grid := Params2.mem_ranks.1 hr .Col
      rw [sum_irange]
      symm
      refine Finset.sum_eq_single_of_mem r.col (List.mem_toFinset.2 (mem_irange.2 hrr)) fun q hq hne => ?_
      rw [List.mem_toFinset, mem_irange] at hq
      exfalso
      omega

/-- `hemmComputeX`. -/
theorem Geo.hemm_runs {A W : Elems K} {g : Glob (RbSt K) (Blk K)} (hcl : Clean P.ranks g) (hA : ∀ r ∈ P.ranks, WinAt P n nb n nb r A (g.st r).a)
    (hW : ∀ r ∈ P.ranks, HR P n nb band j r W (g.st r).pW)
    (hWt : ∀ r ∈ P.ranks, HT P n nb band j ((((n + nb - 1) / nb : Nat) : Int) - 1) r W (g.st r).pWt) :
    ∃ g', Runs (fun r => if r ∈ P.ranks then hemmPart n nb band (P.on r) j else []) g g' ∧ Clean P.ranks g' ∧
      ∀ r ∈ P.ranks, ∃ p pt, g'.st r = { g.st r with pX := p, pXt := pt } ∧
        (r ∈ onCol P nb band j → HR P n nb band j r (fun x y => ∑ z ∈ Finset.Ico ((j + 1) * band) n, lowE A x z * W z y) p) := by
  obtain ⟨g1, r1, c1, q1⟩ := Runs.locals_ex P.ranks_nodup hcl
    (fun r => (rows band (P.on r) j).map (zeroX n band (P.on r) j) ++ (tTiles nb band (P.on r) j).map (zeroXt n band (P.on r) j) ++
        (hemmTiles band (P.on r) j).map (hemmTask n band (P.on r) j))
    (fun r s' => ∃ p pt, s' = { g.st r with pX := p, pXt := pt } ∧ HX P n nb band j r (Gs P n nb band j A W r.row r.col) s')
    (fun r hr => by
      obtain ⟨p, pt, h1, h2⟩ := h.hemm_local hr (hA r hr) (hW r hr) (hWt r hr)
      exact ⟨_, h1, p, pt, rfl, h2⟩)
  obtain ⟨g2, r2, c2, q2⟩ := h.reduceXt_runs c1 (A := A) (W := W) fun r hr => (q1 r hr).choose_spec.choose_spec.2
  obtain ⟨g3, r3, c3, q3⟩ := h.reduceX_runs c2 (XM := XC P n nb band j A W) (fun r hr => by
    obtain ⟨p, e, hp⟩ := q2 r hr
    rw [e]
    exact hp)
  refine ⟨g3, (Runs.if_append (Runs.if_append r1 r2) r3).congr fun r => ?_, c3, fun r hr => ?_⟩
  · by_cases hr : r ∈ P.ranks
    · rw [if_pos hr, if_pos hr]
      unfold hemmPart
      simp only [List.map_append, List.map_map]
      rfl
    · rw [if_neg hr, if_neg hr]
  · obtain ⟨p1, pt1, e1, _⟩ := q1 r hr
    obtain ⟨p2, e2, _⟩ := q2 r hr
    obtain ⟨p3, e3, hp⟩ := q3 r hr
    refine ⟨p3, pt1, ?_, fun hon i hi => ?_⟩
    · rw [e3, e2, e1]
    · have hi2 : i ∈ rows band (P.on r) j := hi
      obtain ⟨v, v1, v2⟩ := hp hon i hi2
      have hi' := (h.mem_rows hr).1 hi2
      have a1 := h.row hr
      refine ⟨v, v1, v2.congr fun x _ _ y _ _ => ?_⟩
      exact h.Gs_total hi'.2.2 ((a1.lt_nt _).2 (a1.gn_lt hi'.1 hi'.2.1)) x y

end
end DistRed
end DLAF
