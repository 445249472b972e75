import Verif.Lemmas.DistRedHemm2
/- Distributed reduction to band: the reductions of `hemmComputeX`. -/
namespace DLAF
open scoped Classical
namespace DistRed
variable {K : Type*} [RCLike K] {P : Params2} {n nb band j : Nat} {dt : Coord2 → Dist1}

theorem sum_irange {m : Int} (f : Int → K) : ((irange 0 m).map f).sum = ∑ q ∈ (irange 0 m).toFinset, f q :=
  (List.sum_toFinset f (irange_nodup 0 m)).symm

/-- What the process column `q` contributes to the tile `t` of `A W`. -/
noncomputable def XC (P : Params2) (n nb band j : Nat) (A W : Elems K) (q : Int) (t : Nat) : Elems K := fun x y =>
  ((irange 0 P.row.grid).map fun p => Gs P n nb band j A W p q t x y).sum

theorem Gs_zero {A W : Elems K} {p q : Int} {t : Nat} (hp : P.row.dist.rank_global_tile t ≠ p)
    (hq : P.col.dist.rank_global_tile t ≠ q ∨ t + 1 = (n + nb - 1) / nb) (x y : Nat) : Gs P n nb band j A W p q t x y = 0 := by
  unfold Gs
  refine Finset.sum_eq_zero fun m hm => Finset.sum_eq_zero fun m' hm' => ?_
  rw [Finset.mem_filter, Finset.mem_Ico] at hm hm'
  have h1 : m ≠ t := fun e => hp (by rw [← e]; exact hm.2)
  split
  · unfold contrib
    rw [if_neg h1, if_neg, add_zero]
    rintro ⟨e, -⟩
    rcases hq with hq | hq
    · exact hq (by rw [← e]; exact hm'.2)
    · omega
  · rfl

theorem XC_eq {A W : Elems K} {p q : Int} (h0 : 0 ≤ p) (h1 : p < P.row.grid) {t : Nat} (x y : Nat)
    (hz : ∀ p', 0 ≤ p' → p' < P.row.grid → p' ≠ p → Gs P n nb band j A W p' q t x y = 0) :
    XC P n nb band j A W q t x y = Gs P n nb band j A W p q t x y := by
  unfold XC
  rw [sum_irange]
  refine Finset.sum_eq_single p (fun p' hp' hne => ?_) fun hn => ?_
  · rw [List.mem_toFinset, mem_irange] at hp'
    exact hz p' hp'.1 hp'.2 hne
  · exact absurd (List.mem_toFinset.2 (mem_irange.2 ⟨h0, h1⟩)) hn

section
variable (h : Geo P n nb band j)
include h

/-- All contributions together. -/
theorem Geo.Gs_total {A W : Elems K} {t : Nat} (t0 : (j + 1) * band / nb ≤ t) (t1 : t < (n + nb - 1) / nb) (x y : Nat) :
    ((irange 0 P.col.grid).map fun q => XC P n nb band j A W q t x y).sum = ∑ z ∈ Finset.Ico ((j + 1) * band) n, lowE A x z * W z y := by
  have e1 : ((irange 0 P.col.grid).map fun q => XC P n nb band j A W q t x y).sum =
      ∑ m ∈ Finset.Ico ((j + 1) * band / nb) ((n + nb - 1) / nb), ∑ m' ∈ Finset.Ico ((j + 1) * band / nb) ((n + nb - 1) / nb),
        if m' ≤ m then contrib n nb band j A W m m' t x y else 0 := by
    have e2 : ∀ q, XC P n nb band j A W q t x y = ∑ m ∈ Finset.Ico ((j + 1) * band / nb) ((n + nb - 1) / nb),
        ∑ m' ∈ (Finset.Ico ((j + 1) * band / nb) ((n + nb - 1) / nb)).filter (fun t : Nat => P.col.dist.rank_global_tile t = q),
          if m' ≤ m then contrib n nb band j A W m m' t x y else 0 := by
      intro q
      exact sum_owners h.a1.plain _ fun m => ∑ m' ∈ (Finset.Ico ((j + 1) * band / nb) ((n + nb - 1) / nb)).filter
        (fun t : Nat => P.col.dist.rank_global_tile t = q), if m' ≤ m then contrib n nb band j A W m m' t x y else 0
    have e3 : (fun q => XC P n nb band j A W q t x y) = fun q => ∑ m ∈ Finset.Ico ((j + 1) * band / nb) ((n + nb - 1) / nb),
        ∑ m' ∈ (Finset.Ico ((j + 1) * band / nb) ((n + nb - 1) / nb)).filter (fun t : Nat => P.col.dist.rank_global_tile t = q),
          if m' ≤ m then contrib n nb band j A W m m' t x y else 0 := funext e2
    rw [e3, sum_irange, Finset.sum_comm]
    refine Finset.sum_congr rfl fun m _ => ?_
    rw [← sum_irange]
    exact sum_owners h.a2.plain _ fun m' => if m' ≤ m then contrib n nb band j A W m m' t x y else 0
  rw [e1]
  have ht : t ∈ Finset.Ico ((j + 1) * band / nb) ((n + nb - 1) / nb) := Finset.mem_Ico.2 ⟨t0, t1⟩
  have e4 : ∀ m ∈ Finset.Ico ((j + 1) * band / nb) ((n + nb - 1) / nb),
      (∑ m' ∈ Finset.Ico ((j + 1) * band / nb) ((n + nb - 1) / nb), if m' ≤ m then contrib n nb band j A W m m' t x y else 0) =
        (if m = t then ∑ m' ∈ Finset.Ico ((j + 1) * band / nb) ((n + nb - 1) / nb), if m' ≤ t then Sm n nb band j A W m' x y else 0 else 0) +
          if t < m then Sm n nb band j A W m x y else 0 := by
    intro m _
    have e5 : ∀ m', (if m' ≤ m then contrib n nb band j A W m m' t x y else 0) =
        (if m = t then (if m' ≤ t then Sm n nb band j A W m' x y else 0) else 0) + if m' = t then (if t < m then Sm n nb band j A W m x y else 0) else 0 := by
      intro m'
      unfold contrib
      by_cases c1 : m = t
      · subst c1
        by_cases c2 : m' ≤ m <;> simp [c2]
      · by_cases c3 : m' = t
        · subst c3
          by_cases c2 : m' ≤ m
          · rw [if_pos c2, if_neg c1, if_neg c1, if_pos ⟨rfl, c1⟩, if_pos rfl, if_pos (by omega)]
          · rw [if_neg c2, if_neg c1, if_pos rfl, if_neg (by omega), add_zero]
        · simp [c1, c3]
    rw [Finset.sum_congr rfl fun m' _ => e5 m', Finset.sum_add_distrib]
    congr 1
    · by_cases c1 : m = t
      · simp [c1]
      · simp [c1]
    · rw [Finset.sum_ite_eq' _ t, if_pos ht]
  rw [Finset.sum_congr rfl e4, Finset.sum_add_distrib, Finset.sum_ite_eq' _ t, if_pos ht, ← Finset.sum_add_distrib]
  have hs := sum_pieces (nb := nb) (n := n) (off := (j + 1) * band) h.nbp h.r0n fun z => lowE A x z * W z y
  rw [← hs]
  refine Finset.sum_congr rfl fun m _ => ?_
  by_cases c : m ≤ t
  · rw [if_pos c, if_neg (by omega), add_zero]; rfl
  · rw [if_neg c, if_pos (by omega), zero_add]; rfl

/-- Reductions in the process columns. -/
theorem Geo.reduceXt_runs {A W : Elems K} {g : Glob (RbSt K) (Blk K)} (hcl : Clean P.ranks g)
    (hX : ∀ r ∈ P.ranks, HX P n nb band j r (Gs P n nb band j A W r.row r.col) (g.st r)) :
    ∃ g', Runs (fun r => if r ∈ P.ranks then (if 1 < (P.on r).row.grid then (tTiles nb band (P.on r) j).flatMap (reduceXt n band (P.on r) j) else []) else []) g g' ∧
      Clean P.ranks g' ∧ ∀ r ∈ P.ranks, ∃ p, g'.st r = { g.st r with pX := p } ∧
        ∀ i ∈ rows band (P.on r) j, ∃ v, p i = some v ∧ IsWin v (XC P n nb band j A W r.col ((P.row.onRank r.row).gn i))
          (pc nb n band j ((P.row.onRank r.row).gn i)).1 0 (pc nb n band j ((P.row.onRank r.row).gn i)).2 (nr n band j) := by
  have hg : ∀ r, (P.on r).row.grid = P.row.grid := fun _ => rfl
  by_cases h1 : 1 < P.row.grid
  · let own : Coord2 → Int → Int := fun r l => P.row.dist.rank_global_tile (((P.col.onRank r.col).gn l : Nat) : Int)
    let ix : Coord2 → Int → Int := fun r l => (P.row.onRank r.row).lc (((P.col.onRank r.col).gn l : Nat) : Int)
    let rd : Coord2 → Int → RbSt K → Option (Blk K) := fun r l =>
      if own r l = r.row then fun s => RbSt.rX.read (ix r l) s else fun s => RbSt.rXt.read l s
    have hv : ∀ r l, ∃ v, r ∈ P.ranks → l ∈ tTiles nb band (P.on r) j → rd r l (g.st r) = some v ∧
        IsWin v (Gs P n nb band j A W r.row r.col ((P.col.onRank r.col).gn l)) (pc nb n band j ((P.col.onRank r.col).gn l)).1 0
          (pc nb n band j ((P.col.onRank r.col).gn l)).2 (nr n band j) := by
      intro r l
      by_cases hr : r ∈ P.ranks
      · by_cases hl : l ∈ tTiles nb band (P.on r) j
        · obtain ⟨l0, l1, l2, l3⟩ := (h.mem_tTiles hr).1 hl
          by_cases ho : own r l = r.row
          · obtain ⟨o1, o2⟩ := h.own_row hr (show (P.col.onRank r.col).gn l < _ by omega) l2 ho
            obtain ⟨v, v1, v2⟩ := (hX r hr).1 _ o1
            rw [o2] at v2
            exact ⟨v, fun _ _ => ⟨by simp only [rd]; rw [if_pos ho]; exact v1, v2⟩⟩
          · obtain ⟨v, v1, v2⟩ := (hX r hr).2 l l0 l1 l2 l3 ho
            exact ⟨v, fun _ _ => ⟨by simp only [rd]; rw [if_neg ho]; exact v1, v2⟩⟩
        · exact ⟨⟨0, 0, fun _ _ => 0⟩, fun _ h' => absurd h' hl⟩
      · exact ⟨⟨0, 0, fun _ _ => 0⟩, fun h' => absurd h' hr⟩
    choose v hv using hv
    have hcol : ∀ r ∈ P.ranks, ∀ p, 0 ≤ p → p < P.row.grid → (⟨p, r.col⟩ : Coord2) ∈ P.ranks := fun r hr p p0 p1 =>
      Params2.mem_ranks.2 fun a => by
        cases a
        · exact ⟨p0, p1⟩
        · exact Params2.mem_ranks.1 hr .Col
    have hb : ∀ r l, ∃ b, r ∈ P.ranks → l ∈ tTiles nb band (P.on r) j →
        sumBlk ((irange 0 P.row.grid).map fun p => v ⟨p, r.col⟩ l) = some b ∧
        IsWin b (XC P n nb band j A W r.col ((P.col.onRank r.col).gn l)) (pc nb n band j ((P.col.onRank r.col).gn l)).1 0
          (pc nb n band j ((P.col.onRank r.col).gn l)).2 (nr n band j) := by
      intro r l
      by_cases hr : r ∈ P.ranks
      · by_cases hl : l ∈ tTiles nb band (P.on r) j
        · obtain ⟨b, b1, b2⟩ := sumBlk_wins (r0 := (pc nb n band j ((P.col.onRank r.col).gn l)).1) (c0 := 0)
            (R := (pc nb n band j ((P.col.onRank r.col).gn l)).2) (C := nr n band j) (m := P.row.grid) (by omega) (fun p => v ⟨p, r.col⟩ l)
            (fun p => Gs P n nb band j A W p r.col ((P.col.onRank r.col).gn l)) (fun p p0 p1 => (hv ⟨p, r.col⟩ l (hcol r hr p p0 p1) hl).2)
          exact ⟨b, fun _ _ => ⟨b1, b2⟩⟩
        · exact ⟨⟨0, 0, fun _ _ => 0⟩, fun _ h' => absurd h' hl⟩
      · exact ⟨⟨0, 0, fun _ _ => 0⟩, fun h' => absurd h' hr⟩
    choose b hb using hb
    have hinj : ∀ r ∈ P.ranks, ∀ i ∈ tTiles nb band (P.on r) j, ∀ i' ∈ tTiles nb band (P.on r) j, own r i = r.row → own r i' = r.row → ix r i = ix r i' → i = i' := by
      intro r hr i hi i' hi' ho ho' e
      obtain ⟨l0, l1, l2, l3⟩ := (h.mem_tTiles hr).1 hi
      obtain ⟨l0', l1', l2', l3'⟩ := (h.mem_tTiles hr).1 hi'
      obtain ⟨o1, o2⟩ := h.own_row hr (show (P.col.onRank r.col).gn i < _ by omega) l2 ho
      obtain ⟨o1', o2'⟩ := h.own_row hr (show (P.col.onRank r.col).gn i' < _ by omega) l2' ho'
      have a2 := h.col hr
      refine a2.plain.gl_inj l0 l0' ?_
      rw [← a2.gn_cast l0, ← a2.gn_cast l0', ← o2, ← o2']
      have e' : (P.row.onRank r.row).lc (((P.col.onRank r.col).gn i : Nat) : Int) = (P.row.onRank r.row).lc (((P.col.onRank r.col).gn i' : Nat) : Int) := e
      rw [e']
    refine Exists.elim (reduce_list P.ranks_nodup hcl (fun r => Chan.col r.col) (fun r => tTiles nb band (P.on r) j) (fun _ => irange_nodup _ _)
      (fun r _ => by simp [Chan.has]) (fun r _ s _ hs => ?_) RbSt.rX_ok (fun r l => decide (own r l = r.row)) (fun r l => .reduce (own r l))
      (fun r => (irange 0 P.row.grid).map (Chan.col r.col).rankOf) rd (fun r l => vSize n band (P.on r) j (ix r l)) ix v b ?_ ?_ ?_ ?_ ?_) ?_
    · simp only [Chan.has, decide_eq_true_eq] at hs
      rw [hs]
      refine ⟨rfl, ?_⟩
      have : (P.on s).col = (P.on r).col := by
        show (P.col.onRank s.col).dist = (P.col.onRank r.col).dist
        rw [hs]
      have e2 : tStart nb band (P.on s) j = tStart nb band (P.on r) j := by rw [h.tStart_eq, h.tStart_eq]
      have e3 : tEnd (P.on s) = tEnd (P.on r) := rfl
      unfold tTiles
      rw [this, e2, e3]
    · intro r hr i hi i' hi' ho ho' e
      exact hinj r hr i hi i' hi' (of_decide_eq_true ho) (of_decide_eq_true ho') e
    · intro r hr i hi p hp
      obtain ⟨v1, _⟩ := hv r i hr hi
      rw [← v1]
      simp only [rd]
      by_cases ho : own r i = r.row
      · rw [if_pos ho]
        show p (ix r i) = (g.st r).pX (ix r i)
        by_contra hne
        obtain ⟨i', h1, h2, h3, h4⟩ := hp _ hne
        exact h2 (hinj r hr i hi i' h1 ho (of_decide_eq_true h3) h4).symm
      · rw [if_neg ho]
        rfl
    · intro r hr s hs
      rw [List.mem_map] at hs
      obtain ⟨p, hp, rfl⟩ := hs
      rw [mem_irange] at hp
      exact ⟨hcol r hr p hp.1 hp.2, by simp [Chan.has, Chan.rankOf]⟩
    · intro r hr i hi _
      rw [List.map_map]
      exact (hb r i hr hi).1
    · intro r hr i hi ho
      obtain ⟨l0, l1, l2, l3⟩ := (h.mem_tTiles hr).1 hi
      obtain ⟨o1, o2⟩ := h.own_row hr (show (P.col.onRank r.col).gn i < _ by omega) l2 (of_decide_eq_true ho)
      have := (hb r i hr hi).2
      have e5 := h.vSize_eq hr o1
      rw [o2] at e5
      have e6 : vSize n band (P.on r) j (ix r i) = ((pc nb n band j ((P.col.onRank r.col).gn i)).2, nr n band j) := e5
      rw [e6]
      exact ⟨this.1, this.2.1⟩
    · rintro g' ⟨G1, G2, G3⟩
      refine ⟨g', G1.congr fun r => ?_, G2, fun r hr => ?_⟩
      · by_cases hr : r ∈ P.ranks
        · rw [if_pos hr, if_pos hr, if_pos (show 1 < (P.on r).row.grid from h1)]
          refine List.flatMap_congr fun l hl => ?_
          obtain ⟨l0, l1, l2, l3⟩ := (h.mem_tTiles hr).1 hl
          have hgl : (P.on r).col.global_tile_from_local_tile l = (((P.col.onRank r.col).gn l : Nat) : Int) := ((h.col hr).gn_cast l0).symm
          unfold reduceXt redOne
          dsimp only
          rw [hgl]
          have ho' : ((P.on r).row.rank_global_tile (((P.col.onRank r.col).gn l : Nat) : Int) = (P.on r).row.rank) ↔ own r l = r.row := Iff.rfl
          by_cases ho : own r l = r.row
          · rw [if_pos (ho'.2 ho), if_pos (decide_eq_true ho)]
            simp only [rd]
            rw [if_pos ho]
            rfl
          · rw [if_neg (fun hc => ho (ho'.1 hc)), if_neg (by rw [decide_eq_true_iff]; exact ho)]
            simp only [rd]
            rw [if_neg ho]
            rfl
        · rw [if_neg hr, if_neg hr]
      · obtain ⟨p, p1, p2, p3⟩ := G3 r hr
        refine ⟨p, p1, fun i hi => ?_⟩
        have hi' := (h.mem_rows hr).1 hi
        have a1 := h.row hr
        have a2 := h.col hr
        have hgn := (a1.lt_nt _).2 (a1.gn_lt hi'.1 hi'.2.1)
        have hown : P.row.dist.rank_global_tile (((P.row.onRank r.row).gn i : Nat) : Int) = r.row := by
          rw [a1.gn_cast hi'.1]; exact a1.plain.gl_own hi'.1
        by_cases hc : P.col.dist.rank_global_tile (((P.row.onRank r.row).gn i : Nat) : Int) = r.col ∧ (P.row.onRank r.row).gn i + 1 < (n + nb - 1) / nb
        · obtain ⟨o1, o2, o3⟩ := h.own_col' hr hgn hc.1
          have hl : (P.col.onRank r.col).lc (((P.row.onRank r.row).gn i : Nat) : Int) ∈ tTiles nb band (P.on r) j :=
            (h.mem_tTiles hr).2 ⟨o1, o2, by rw [o3]; exact hi'.2.2, by rw [o3]; exact hc.2⟩
          generalize (P.col.onRank r.col).lc (((P.row.onRank r.row).gn i : Nat) : Int) = l at *
          have hix : ix r l = i := by
            simp only [ix]
            rw [o3, a1.gn_cast hi'.1]
            exact a1.plain.lc_gl hi'.1
          have ho : own r l = r.row := by simp only [own]; rw [o3]; exact hown
          have q1 := p2 l hl (decide_eq_true ho)
          rw [hix] at q1
          refine ⟨_, q1, ?_⟩
          have := (hb r l hr hl).2
          rw [o3] at this
          exact this
        · obtain ⟨v, v1, v2⟩ := (hX r hr).1 i hi
          refine ⟨v, ?_, v2.congr fun x _ _ y _ _ => ?_⟩
          · rw [p3 i fun l hl ho e => ?_]
            · exact v1
            · obtain ⟨l0, l1, l2, l3⟩ := (h.mem_tTiles hr).1 hl
              obtain ⟨o1, o2⟩ := h.own_row hr (show (P.col.onRank r.col).gn l < _ by omega) l2 (of_decide_eq_true ho)
              have e' : (P.row.onRank r.row).lc (((P.col.onRank r.col).gn l : Nat) : Int) = i := e
              rw [e'] at o2
              refine hc ⟨?_, by omega⟩
              rw [o2, a2.gn_cast l0]
              exact a2.plain.gl_own l0
          · have hrr := Params2.mem_ranks.1 hr .Row
            refine (XC_eq (p := r.row) hrr.1 hrr.2 x y fun p' _ _ hne => Gs_zero (by rw [hown]; exact fun e => hne e.symm) ?_ x y).symm
            by_cases c : P.col.dist.rank_global_tile (((P.row.onRank r.row).gn i : Nat) : Int) = r.col
            · exact .inr (by have : ¬ _ := fun h' => hc ⟨c, h'⟩; omega)
            · exact .inl c
  · refine ⟨g, Runs.nil (fun r => ?_) g, hcl, fun r hr => ⟨(g.st r).pX, rfl, fun i hi => ?_⟩⟩
    · rw [hg, if_neg h1]; split <;> rfl
    · obtain ⟨v, v1, v2⟩ := (hX r hr).1 i hi
      refine ⟨v, v1, v2.congr fun x _ _ y _ _ => ?_⟩
      have hrr := Params2.mem_ranks.1 hr .Row
      have hrr' : 0 ≤ r.row ∧ r.row < P.row.grid := hrr
      refine (XC_eq (p := r.row) hrr'.1 hrr'.2 x y fun p' _ _ hne => ?_).symm
      exfalso
      omega

end
end DistRed
end DLAF
