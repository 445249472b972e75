import Verif.Lemmas.DistBtRedBand
import Verif.Spec.DistHolds
/- The iterations of the distributed back-transformation of the reduction to band; collectives; what processes hold. -/
namespace DLAF
variable {K : Type*}

section sigs
variable {S : Type*} {P : Params2} {axis : Coord} {R : ERef S K}

theorem bcastTiles_sigs (sz : Coord2 → Int → Nat × Nat) (xs : Int → List Int) (root : Int) {c : Chan} {r q : Coord2}
    (h1 : c.has r = true) (h2 : c.has q = true) :
    sigs c (bcastTiles axis (P.on r) root R (sz r) (xs (r.get axis.orth))) = sigs c (bcastTiles axis (P.on q) root R (sz q) (xs (q.get axis.orth))) := by
  have hs : ∀ r : Coord2, sigs c (bcastTiles axis (P.on r) root R (sz r) (xs (r.get axis.orth))) =
      if (P.get axis).grid ≤ 1 then [] else if panelChan axis r = c then (xs (r.get axis.orth)).flatMap fun _ => [.bcast root] else [] := by
    intro r
    have hgr : ((P.on r).get axis).grid = (P.get axis).grid := by cases axis <;> rfl
    have hme : (⟨(P.on r).row.rank, (P.on r).col.rank⟩ : Coord2) = r := rfl
    unfold bcastTiles
    dsimp only
    rw [hgr, hme]
    by_cases hg : (P.get axis).grid ≤ 1
    · rw [if_pos hg, if_pos hg]; rfl
    · rw [if_neg hg, if_neg hg, sigs_flatMap]
      have e : ∀ i, sigs c (if ((P.on r).get axis).rank = root then bcastSend (panelChan axis r) root fun s => (R.read i s).map fun b => (s, b)
          else bcastRecv (panelChan axis r) root fun s b => R.write (sz r i) i b s) = if panelChan axis r = c then [.bcast root] else [] := by
        intro i
        split
        · rw [sigs_bcastSend]
        · rw [sigs_bcastRecv]
      simp only [e]
      split
      · rfl
      · simp
  rw [hs, hs]
  rcases chan_mem (axis := axis) h1 with (e | e) | n1
  · have hq : q.get axis.orth = r.get axis.orth := (chan_has axis r q).1 (by rw [e]; exact h2)
    rw [hq, chan_eq axis hq]
  · have n1 : panelChan axis r ≠ c := fun h => chan_ne axis r r (h.trans e.symm)
    have n2 : panelChan axis q ≠ c := fun h => chan_ne axis q r (h.trans e.symm)
    rw [if_neg n1, if_neg n2]
  · rw [if_neg (n1 axis r), if_neg (n1 axis q)]

theorem allReduceTiles_sigs [Field K] (sz : Coord2 → Int → Nat × Nat) (xs : Int → List Int) {c : Chan} {r q : Coord2}
    (h1 : c.has r = true) (h2 : c.has q = true) :
    sigs c (allReduceTiles axis (P.on r) R (sz r) (xs (r.get axis.orth))) = sigs c (allReduceTiles axis (P.on q) R (sz q) (xs (q.get axis.orth))) := by
  have hs : ∀ r : Coord2, sigs c (allReduceTiles axis (P.on r) R (sz r) (xs (r.get axis.orth))) =
      if panelChan axis r = c then (xs (r.get axis.orth)).flatMap fun _ => [.allReduce] else [] := by
    intro r
    have hme : (⟨(P.on r).row.rank, (P.on r).col.rank⟩ : Coord2) = r := rfl
    unfold allReduceTiles
    dsimp only
    rw [hme, sigs_flatMap]
    simp only [sigs]
    split
    · rfl
    · simp
  rw [hs, hs]
  rcases chan_mem (axis := axis) h1 with (e | e) | n1
  · have hq : q.get axis.orth = r.get axis.orth := (chan_has axis r q).1 (by rw [e]; exact h2)
    rw [hq, chan_eq axis hq]
  · have n1 : panelChan axis r ≠ c := fun h => chan_ne axis r r (h.trans e.symm)
    have n2 : panelChan axis q ≠ c := fun h => chan_ne axis q r (h.trans e.symm)
    rw [if_neg n1, if_neg n2]
  · rw [if_neg (n1 axis r), if_neg (n1 axis q)]

end sigs

section holds
variable {P : Params2} {r : Coord2} {n1 nb1 n2 nb2 : Nat} {M : Elems K} {loc : Coord2 → Blk K}

theorem Ax.tileSizes {p : Params} {n nb : Nat} (h : Ax p n nb) (i : Nat) : p.tileSizes i = min nb (n - i * nb) := by
  unfold Params.tileSizes
  rw [h.plain.tsz, h.size, h.tile]
  have : ((i : Nat) : Int) * (nb : Int) = ((i * nb : Nat) : Int) := by push_cast; rfl
  rw [this]
  omega

theorem WinAt.of_holds (h1 : Ax P.row n1 nb1) (h2 : Ax P.col n2 nb2) (hr : r ∈ P.ranks) (h : HoldsElems P r M loc) : WinAt P n1 nb1 n2 nb2 r M loc := by
  have b1 := Params2.mem_ranks.1 hr .Row
  have b2 := Params2.mem_ranks.1 hr .Col
  have a1 := h1.onRank b1.1 b1.2
  have a2 := h2.onRank b2.1 b2.2
  intro i j hi hi' hj hj'
  have g1 : (P.row.onRank r.row).gl i < P.row.dist.nrTiles := a1.plain.gl_lt hi hi'
  have g2 : (P.col.onRank r.col).gl j < P.col.dist.nrTiles := a2.plain.gl_lt hj hj'
  have c1 : (((P.row.onRank r.row).gn i : Nat) : Int) = (P.row.onRank r.row).gl i := a1.gn_cast hi
  have c2 : (((P.col.onRank r.col).gn j : Nat) : Int) = (P.col.onRank r.col).gl j := a2.gn_cast hj
  have := h ((P.row.onRank r.row).gn i) (by omega) ((P.col.onRank r.col).gn j) (by omega) (by rw [c1]; exact a1.plain.gl_own hi)
    (by rw [c2]; exact a2.plain.gl_own hj)
  rw [c1, c2] at this
  have l1 : (P.at' .Row r).dist.local_tile_from_global_tile ((P.row.onRank r.row).gl i) = i := a1.plain.lc_gl hi
  have l2 : (P.at' .Col r).dist.local_tile_from_global_tile ((P.col.onRank r.col).gl j) = j := a2.plain.lc_gl hj
  rw [l1, l2, h1.tileSizes, h2.tileSizes, h1.tile, h2.tile] at this
  dsimp only at this
  refine ⟨this.1, this.2.1, fun x hx y hy => ?_⟩
  rw [this.2.2 x (by rw [this.1]; exact hx) y (by rw [this.2.1]; exact hy)]
  simp only [Int.toNat_natCast]

theorem WinAt.holds (h1 : Ax P.row n1 nb1) (h2 : Ax P.col n2 nb2) (hr : r ∈ P.ranks) (h : WinAt P n1 nb1 n2 nb2 r M loc) : HoldsElems P r M loc := by
  have b1 := Params2.mem_ranks.1 hr .Row
  have b2 := Params2.mem_ranks.1 hr .Col
  have a1 := h1.onRank b1.1 b1.2
  have a2 := h2.onRank b2.1 b2.2
  intro i hi j hj o1 o2
  have d1 := a1.plain.lc_bounds (t := ((i : Nat) : Int)) (by omega) (by show _ < P.row.dist.nrTiles; omega) o1
  have d2 := a2.plain.lc_bounds (t := ((j : Nat) : Int)) (by omega) (by show _ < P.col.dist.nrTiles; omega) o2
  have g1 : (P.row.onRank r.row).gl ((P.row.onRank r.row).lc i) = i := a1.plain.gl_lc (by omega) o1
  have g2 : (P.col.onRank r.col).gl ((P.col.onRank r.col).lc j) = j := a2.plain.gl_lc (by omega) o2
  have c1 : (((P.row.onRank r.row).gn ((P.row.onRank r.row).lc i) : Nat) : Int) = _ := a1.gn_cast d1.1
  have c2 : (((P.col.onRank r.col).gn ((P.col.onRank r.col).lc j) : Nat) : Int) = _ := a2.gn_cast d2.1
  have c1' : (P.row.onRank r.row).gn ((P.row.onRank r.row).lc i) = i := by exact_mod_cast c1.trans g1
  have c2' : (P.col.onRank r.col).gn ((P.col.onRank r.col).lc j) = j := by exact_mod_cast c2.trans g2
  have := h ((P.row.onRank r.row).lc i) ((P.col.onRank r.col).lc j) d1.1 d1.2 d2.1 d2.2
  rw [c1', c2'] at this
  rw [h1.tileSizes, h2.tileSizes, h1.tile, h2.tile]
  simp only [Int.toNat_natCast]
  exact ⟨this.1, this.2.1, fun x hx y hy => this.2.2 x (this.1 ▸ hx) y (this.2.1 ▸ hy)⟩

theorem WinAt.congr {N : Elems K} (h1 : Ax P.row n1 nb1) (h2 : Ax P.col n2 nb2) (hr : r ∈ P.ranks) (h : WinAt P n1 nb1 n2 nb2 r M loc)
    (he : ∀ x < n1, ∀ y < n2, M x y = N x y) : WinAt P n1 nb1 n2 nb2 r N loc := by
  have b1 := Params2.mem_ranks.1 hr .Row
  have b2 := Params2.mem_ranks.1 hr .Col
  have a1 := h1.onRank b1.1 b1.2
  have a2 := h2.onRank b2.1 b2.2
  intro i j hi hi' hj hj'
  have l1 := a1.gn_lt hi hi'
  have l2 := a2.gn_lt hj hj'
  refine (h i j hi hi' hj hj').congr fun x q1 q2 y q3 q4 => he x ?_ y ?_
  · have : x < (P.row.onRank r.row).gn i * nb1 + min nb1 (n1 - (P.row.onRank r.row).gn i * nb1) := q2
    omega
  · have : y < (P.col.onRank r.col).gn j * nb2 + min nb2 (n2 - (P.col.onRank r.col).gn j * nb2) := q4
    omega

end holds

theorem TausAt.of_holds {p : Params} {n mb b : Nat} (h1 : Ax p n mb) {q : Int} {taus : Nat → K} {loc : Int → Blk K}
    (h : HoldsVec (tausParams p b) q taus loc) : TausAt p n mb b q taus ((tausParams p b).onRank q).dist loc := by
  have ht : Ax (tausParams p b) (n - b - 1) mb := by
    refine ⟨⟨⟨⟨?_, h1.plain.valid.2⟩, h1.plain.block⟩, h1.plain.offset⟩, ?_, h1.tile⟩
    · exact Int.natCast_nonneg _
    · show ((p.size.toNat - b - 1 : Nat) : Int) = _
      have := h1.size
      omega
  intro k hk ho
  have := h k (by rw [ht.nt, Int.toNat_natCast]; exact (ht.lt_nt k).2 hk) ho
  rw [ht.tileSizes, ht.tile, Int.toNat_natCast] at this
  refine ⟨⟨this.1, this.2.1⟩, fun x hx => this.2.2 x (by rw [this.1]; exact hx)⟩

theorem Ax.taus {p : Params} {n mb b : Nat} (h1 : Ax p n mb) : Ax (tausParams p b) (n - b - 1) mb := by
  refine ⟨⟨⟨⟨?_, h1.plain.valid.2⟩, h1.plain.block⟩, h1.plain.offset⟩, ?_, h1.tile⟩
  · exact Int.natCast_nonneg _
  · show ((p.size.toNat - b - 1 : Nat) : Int) = _
    have := h1.size
    omega

theorem TausAt.holds {p : Params} {n mb b : Nat} (h1 : Ax p n mb) {q : Int} {taus : Nat → K} {loc : Int → Blk K}
    (h : TausAt p n mb b q taus ((tausParams p b).onRank q).dist loc) : HoldsVec (tausParams p b) q taus loc := by
  have ht : Ax (tausParams p b) (n - b - 1) mb := h1.taus
  intro k hk ho
  rw [ht.nt, Int.toNat_natCast] at hk
  obtain ⟨⟨a1, a2⟩, a3⟩ := h k ((ht.lt_nt k).1 hk) ho
  rw [ht.tileSizes, ht.tile, Int.toNat_natCast]
  exact ⟨a1, a2, fun x hx => a3 x (by rw [← a1]; exact hx)⟩

namespace DistBt
variable [Field K] [StarRing K]
section
variable {PV : Params2} {cc : Params} {n mb nc nbc b : Nat} {dt : Coord2 → Dist1} {V C : Elems K} {taus : Nat → K}

/-- All iterations. -/
theorem loop_runs (hr : Ax PV.row n mb) (hv : Ax PV.col n mb) (hc : Ax cc nc nbc) (hg : cc.grid = PV.col.grid)
    {avail : Coord2 → Nat} (ha : ∀ r, 0 < avail r) (junk : Coord2 → Int → Int → Blk K) {g : Glob (DBtSt K) (Blk K)} (hcl : Clean PV.ranks g)
    (hb : ∀ r ∈ PV.ranks, Base PV cc n mb nc nbc b (dt r) V taus C r (g.st r)) :
    ∀ j, j ≤ ceilDivN (n - b - 1) mb → ∃ g' C', Runs (fun r => if r ∈ PV.ranks then (downto (ceilDivN (n - b - 1) mb) (ceilDivN (n - b - 1) mb - j)).flatMap fun k : Nat =>
        step n mb b (avail r) (junk r k) (PV.on r) ((⟨PV.row, cc⟩ : Params2).on r) (dt r) k else []) g g' ∧
      Clean PV.ranks g' ∧ (∀ r ∈ PV.ranks, Base PV cc n mb nc nbc b (dt r) V taus C' r (g'.st r)) ∧
      toM n nc C' = reflectorProd n (fun x i => storedRefl b V x ((ceilDivN (n - b - 1) mb - j) * mb + i))
            (fun i => taus ((ceilDivN (n - b - 1) mb - j) * mb + i))
            (n - b - 1 - (ceilDivN (n - b - 1) mb - j) * mb) * toM n nc C := by
  have hmb := hr.nb_pos
  have hblk : ∀ k, k < ceilDivN (n - b - 1) mb → k * mb < n - b - 1 := by
    intro k hk
    unfold ceilDivN at hk
    rw [Nat.lt_iff_add_one_le, Nat.le_div_iff_mul_le hmb, Nat.add_mul] at hk
    omega
  intro j
  induction j with
  | zero =>
    intro _
    have hle : n - b - 1 ≤ ceilDivN (n - b - 1) mb * mb := le_ceilDivN_mul _ hmb
    refine ⟨g, C, .nil (fun r => ?_) g, hcl, hb, ?_⟩
    · rw [Nat.sub_zero, downto, upto_self]
      simp
    · rw [Nat.sub_zero, show n - b - 1 - ceilDivN (n - b - 1) mb * mb = 0 by omega]
      simp [reflectorProd]
  | succ j ih =>
    intro hj
    obtain ⟨g1, C1, r1, c1, b1, m1⟩ := ih (by omega)
    generalize ceilDivN (n - b - 1) mb = nb at *
    obtain ⟨k, rfl⟩ : ∃ k, nb = k + 1 + j := ⟨nb - 1 - j, by omega⟩
    rw [show k + 1 + j - j = k + 1 by omega] at r1 m1
    rw [show k + 1 + j - (j + 1) = k by omega]
    have hk := hblk k (by omega)
    obtain ⟨g2, C2, r2, c2, b2, m2, _⟩ := step_runs hr hv hc hg hk ha (fun r => junk r k) c1 b1
    refine ⟨g2, C2, (r1.append r2).congr fun r => ?_, c2, b2, ?_⟩
    · by_cases h : r ∈ PV.ranks
      · simp only [if_pos h]
        rw [downto, upto_cons (by omega), List.reverse_cons, List.flatMap_append]
        rw [downto]
        simp
      · simp [if_neg h]
    · rw [m2, m1, ← Matrix.mul_assoc]
      congr 1
      by_cases hl : (k + 1) * mb ≤ n - b - 1
      · rw [Nat.add_mul, Nat.one_mul] at hl
        rw [show min mb (n - b - 1 - k * mb) = mb by omega,
          show n - b - 1 - k * mb = mb + (n - b - 1 - (k + 1) * mb) by rw [Nat.add_mul, Nat.one_mul]; omega,
          reflectorProd_add]
        congr 1
        refine reflectorProd_congr fun i _ => ?_
        rw [Nat.add_mul, Nat.one_mul, Nat.add_assoc]
        exact ⟨fun _ _ => rfl, rfl⟩
      · rw [Nat.add_mul, Nat.one_mul] at hl
        rw [show min mb (n - b - 1 - k * mb) = n - b - 1 - k * mb by omega,
          show n - b - 1 - (k + 1) * mb = 0 by rw [Nat.add_mul, Nat.one_mul]; omega]
        simp [reflectorProd]

/-- The whole call. -/
theorem program_runs (hr : Ax PV.row n mb) (hv : Ax PV.col n mb) (hc : Ax cc nc nbc) (hg : cc.grid = PV.col.grid)
    {avail : Coord2 → Nat} (ha : ∀ r, 0 < avail r) (junk : Coord2 → Int → Int → Blk K) {g : Glob (DBtSt K) (Blk K)} (hcl : Clean PV.ranks g)
    (hb : ∀ r ∈ PV.ranks, Base PV cc n mb nc nbc b (dt r) V taus C r (g.st r)) :
    ∃ g' C', Runs (fun r => if r ∈ PV.ranks then program n mb b (avail r) (junk r) (PV.on r) ((⟨PV.row, cc⟩ : Params2).on r) (dt r) else []) g g' ∧
      (∀ r ∈ PV.ranks, Base PV cc n mb nc nbc b (dt r) V taus C' r (g'.st r)) ∧
      toM n nc C' = reflectorProd n (storedRefl b V) taus (n - b - 1) * toM n nc C := by
  have hmb := hr.nb_pos
  have hnbc := hc.nb_pos
  by_cases h0 : ((⟨PV.row, cc⟩ : Params2).on ⟨0, 0⟩).row.nrTiles = 0 ∨ ((⟨PV.row, cc⟩ : Params2).on ⟨0, 0⟩).col.nrTiles = 0
  · refine ⟨g, C, .nil (fun r => ?_) g, hb, ?_⟩
    · unfold program
      have : ((⟨PV.row, cc⟩ : Params2).on r).row.nrTiles = 0 ∨ ((⟨PV.row, cc⟩ : Params2).on r).col.nrTiles = 0 := h0
      rw [if_pos this]
      simp
    · have e1 : ((⟨PV.row, cc⟩ : Params2).on ⟨0, 0⟩).row.nrTiles = PV.row.dist.nrTiles := rfl
      have e2 : ((⟨PV.row, cc⟩ : Params2).on ⟨0, 0⟩).col.nrTiles = cc.dist.nrTiles := rfl
      rw [e1, e2, hr.nt, hc.nt] at h0
      have z1 := hr.lt_nt 0
      have z2 := hc.lt_nt 0
      rw [Nat.zero_mul] at z1 z2
      ext x y
      have := x.2
      have := y.2
      omega
  · by_cases h1 : n ≤ b + 1
    · refine ⟨g, C, .nil (fun r => ?_) g, hb, ?_⟩
      · unfold program
        have : ¬ (((⟨PV.row, cc⟩ : Params2).on r).row.nrTiles = 0 ∨ ((⟨PV.row, cc⟩ : Params2).on r).col.nrTiles = 0) := h0
        rw [if_neg this, if_pos (show (n : Int) - b - 1 ≤ 0 by omega)]
        simp
      · rw [show n - b - 1 = 0 by omega]
        simp [reflectorProd]
    · obtain ⟨g', C', r1, _, b1, m1⟩ := loop_runs (V := V) (taus := taus) (C := C) hr hv hc hg ha junk hcl hb (ceilDivN (n - b - 1) mb) (Nat.le_refl _)
      rw [Nat.sub_self] at r1 m1
      refine ⟨g', C', r1.congr fun r => ?_, b1, ?_⟩
      · by_cases h : r ∈ PV.ranks
        · rw [if_pos h, if_pos h]
          unfold program
          have : ¬ (((⟨PV.row, cc⟩ : Params2).on r).row.nrTiles = 0 ∨ ((⟨PV.row, cc⟩ : Params2).on r).col.nrTiles = 0) := h0
          rw [if_neg this, if_neg (show ¬ (n : Int) - b - 1 ≤ 0 by omega)]
          have e : ceilDiv ((n : Int) - b - 1) mb = ((ceilDivN (n - b - 1) mb : Nat) : Int) := by
            have : (n : Int) - b - 1 = ((n - b - 1 : Nat) : Int) := by omega
            rw [this]
            unfold ceilDivN
            show Int.tdiv _ _ = _
            rw [show ((n - b - 1 : Nat) : Int) + (mb : Int) - 1 = ((n - b - 1 + mb - 1 : Nat) : Int) by omega,
              Int.tdiv_eq_ediv_of_nonneg (by omega), Int.natCast_ediv]
          rw [e, show (0 : Int) = ((0 : Nat) : Int) from rfl, irange_upto, downto, ← List.map_reverse, List.flatMap_map]
        · rw [if_neg h, if_neg h]
      · rw [m1, Nat.zero_mul]
        simp only [Nat.zero_add, Nat.sub_zero]

omit [Field K] [StarRing K] in
theorem sigs_loc (c : Chan) (f : DBtSt K → Option (DBtSt K)) : sigs c [Instr.loc (V := Blk K) f] = [] := sigs_locs c [f]

/-- Collectives of the call. -/
theorem program_sigs (avail : Coord2 → Nat) (junk : Coord2 → Int → Int → Blk K) (dt : Coord2 → Dist1) (cc : Params) :
    SameCollectives PV.ranks fun r => program n mb b (avail r) (junk r) (PV.on r) ((⟨PV.row, cc⟩ : Params2).on r) (dt r) := by
  intro c r hr' q hq h1 h2
  beta_reduce
  have e0 : ∀ r, ((⟨PV.row, cc⟩ : Params2).on r).row.nrTiles = PV.row.dist.nrTiles := fun _ => rfl
  have e1 : ∀ r, ((⟨PV.row, cc⟩ : Params2).on r).col.nrTiles = cc.dist.nrTiles := fun _ => rfl
  unfold program
  rw [e0, e0, e1, e1]
  split
  · rfl
  split
  · rfl
  rw [sigs_flatMap, sigs_flatMap]
  refine List.flatMap_congr fun k _ => ?_
  have a1 : ∀ r, rootCol (PV.on r) k = PV.col.dist.rank_global_tile k := fun _ => rfl
  have a2 : ∀ r, (PV.on r).col.rank = r.col := fun _ => rfl
  have a3 : ∀ r, (PV.on r).row.grid = PV.row.grid := fun _ => rfl
  have a4 : ∀ r : Coord2, View.tiles (PV.on r).row (off mb b k) = (fun x => View.tiles (PV.row.onRank x).dist (off mb b k)) (r.get Coord.Col.orth) := fun _ => rfl
  have a5 : ∀ r : Coord2, View.tiles ((⟨PV.row, cc⟩ : Params2).on r).col 0 = (fun x => View.tiles (cc.onRank x).dist 0) (r.get Coord.Row.orth) := fun _ => rfl
  have hloc : ∀ {X : Type} (xs : List X) (f : X → DBtSt K → Option (DBtSt K)), sigs c (xs.map fun x => Instr.loc (V := Blk K) (f x)) = [] := by
    intro X xs f
    rw [← map_loc, sigs_locs]
  unfold step
  dsimp only
  simp only [a1, a2, a3]
  have hB : ∀ (R : ERef (DBtSt K) K), sigs c (bcastTiles .Col (PV.on r) (PV.col.dist.rank_global_tile k) R (vSize n mb b (PV.on r) k) (View.tiles (PV.on r).row (off mb b k))) =
      sigs c (bcastTiles .Col (PV.on q) (PV.col.dist.rank_global_tile k) R (vSize n mb b (PV.on q) k) (View.tiles (PV.on q).row (off mb b k))) := by
    intro R
    rw [a4, a4]
    exact bcastTiles_sigs (axis := .Col) (fun r => vSize n mb b (PV.on r) k) (fun x => View.tiles (PV.row.onRank x).dist (off mb b k)) _ h1 h2
  have hW2 : sigs c (allReduceTiles .Row (PV.on r) (DBtSt.rW2 (K := K)) (w2Size n mb b ((⟨PV.row, cc⟩ : Params2).on r) k) (View.tiles ((⟨PV.row, cc⟩ : Params2).on r).col 0)) =
      sigs c (allReduceTiles .Row (PV.on q) (DBtSt.rW2 (K := K)) (w2Size n mb b ((⟨PV.row, cc⟩ : Params2).on q) k) (View.tiles ((⟨PV.row, cc⟩ : Params2).on q).col 0)) := by
    rw [a5, a5]
    exact allReduceTiles_sigs (axis := .Row) (fun r => w2Size n mb b ((⟨PV.row, cc⟩ : Params2).on r) k) (fun x => View.tiles (cc.onRank x).dist 0) h1 h2
  have hT : ∀ r : Coord2, sigs c (if r.col = PV.col.dist.rank_global_tile k then
      (View.tiles (PV.on r).row (off mb b k)).map (fun i => .loc (setV n mb b (PV.on r) k i)) ++
      [.loc (tLocal n mb b (avail r) (junk r k) (PV.on r) (dt r) k)] ++
      (if 1 < PV.row.grid then allReduceTiles .Row (PV.on r) DBtSt.rT (fun _ => (nr n mb b k, nr n mb b k)) [tIdx (PV.on r) k] else []) ++
      [.loc (tFinish n mb b (PV.on r) (dt r) k)] ++
      (View.tiles (PV.on r).row (off mb b k)).map (fun i => .loc (setW n mb b (junk r k) (PV.on r) k i)) else []) =
      if 1 < PV.row.grid then sigs c (allReduceTiles .Row (PV.on r) (DBtSt.rT (K := K)) (fun _ => (nr n mb b k, nr n mb b k))
        ((fun x => if x = PV.col.dist.rank_global_tile k then [(PV.col.onRank x).lc k] else []) (r.get Coord.Row.orth))) else [] := by
    intro r
    have a6 : r.get Coord.Row.orth = r.col := rfl
    rw [a6]
    by_cases ho : r.col = PV.col.dist.rank_global_tile k
    · rw [if_pos ho]
      simp only [sigs_append, hloc, sigs_loc, List.nil_append, List.append_nil]
      rw [if_pos ho]
      split
      · rfl
      · rfl
    · rw [if_neg ho]
      beta_reduce
      rw [if_neg ho]
      split
      · rfl
      · rfl
  have hT2 := allReduceTiles_sigs (P := PV) (axis := .Row) (R := (DBtSt.rT (K := K))) (fun _ _ => (nr n mb b k, nr n mb b k))
    (fun x => if x = PV.col.dist.rank_global_tile k then [(PV.col.onRank x).lc k] else []) h1 h2
  have hW2' : sigs c (if 1 < PV.row.grid then allReduceTiles .Row (PV.on r) (DBtSt.rW2 (K := K)) (w2Size n mb b ((⟨PV.row, cc⟩ : Params2).on r) k) (View.tiles ((⟨PV.row, cc⟩ : Params2).on r).col 0) else []) =
      sigs c (if 1 < PV.row.grid then allReduceTiles .Row (PV.on q) (DBtSt.rW2 (K := K)) (w2Size n mb b ((⟨PV.row, cc⟩ : Params2).on q) k) (View.tiles ((⟨PV.row, cc⟩ : Params2).on q).col 0) else []) := by
    split
    · exact hW2
    · rfl
  rw [sigs_append, sigs_append, sigs_append, sigs_append, sigs_append, sigs_append, sigs_append,
    sigs_append _ _ [_], sigs_append, sigs_append, sigs_append, sigs_append, sigs_append, sigs_append]
  rw [hT, hT, hT2, hB, hB, hW2']
  simp only [hloc, sigs_loc, List.append_nil]

end
end DistBt
end DLAF
