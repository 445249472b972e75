import Verif.Lemmas.DistRotRun
/- Distributed Givens rotations: the call. -/
namespace DLAF
namespace DistRot
open scoped Classical

theorem src_owner {p : Params} (hp : Plain p) : p.dist.src = p.dist.rank_global_tile 0 := by
  rw [hp.rank_eq (le_refl 0), hp.valid.src_eq, hp.offset, Int.zero_ediv, Int.add_zero, Int.zero_add]

section
variable {p : Params} {n nb : Nat} (h : Ax p n nb) {ib ie len : Nat} (R : Rng n nb ib ie len)
include h R

/-- The panel of the workspace. -/
theorem panel_ws (ax : Int) : ∃ w : Panel Unit, Panel.create (p.cut (ib * nb + len) 0).dist ax ib = some w ∧
    (p.nx ie ≠ p.nx ib → w.startLocal < w.stopLocal ∧ ((p.cut len ib).dist.localSize.toNat : Int) ≤ w.data.size) := by
  obtain ⟨e1, e2, e3, e4, e5⟩ := R.bounds
  have hp := h.nb_pos
  have R0 : Rng n nb 0 ie (ib * nb + len) := ⟨by have := R.lt; omega, R.top, by omega⟩
  have hW := h.cut (ib * nb + len) 0
  have hnt : (p.cut (ib * nb + len) 0).dist.nrTiles = ie := by have := cut_tiles h R0; rw [this]; simp
  have hnx : ∀ t : Nat, (p.cut (ib * nb + len) 0).nx t = p.nx t := by
    intro t
    rw [h.cut_nx, show ((0 : Nat) : Int) = 0 from rfl, h.plain.nx_zero, Nat.zero_add, Int.sub_zero]
  have hgn : ∀ k : Nat, (p.cut (ib * nb + len) 0).gn k = p.gn k := by
    intro k
    have := h.cut_gn (ib * nb + len) 0 k
    rw [show ((0 : Nat) : Int) = 0 from rfl, h.plain.nx_zero, Int.zero_add, Nat.zero_add] at this
    exact this.symm
  have hts : (p.cut (ib * nb + len) 0).dist.tileSize = nb := h.tile
  have ho : (p.cut (ib * nb + len) 0).dist.offset = 0 := by rw [hW.plain.valid.offset_eq, hW.plain.offset, Int.zero_emod]
  have hbt : (p.cut (ib * nb + len) 0).dist.blockSize = (p.cut (ib * nb + len) 0).dist.tileSize := rfl
  obtain ⟨N, hN⟩ : ∃ N : Nat, p.nx ib = N := ⟨(p.nx ib).toNat, by have := h.plain.nx_nonneg (s := (ib : Int)) (by omega); omega⟩
  have hloc : (p.cut (ib * nb + len) 0).dist.localNrTiles = p.nx ie := by
    rw [← hW.plain.nx_all, hnt, hnx]
  -- elements of the workspace
  have hel : ∀ k : Nat, ((k / nb : Nat) : Int) < p.nx ie - p.nx ib → k % nb < min nb (ib * nb + len - p.gn (p.nx ib + ((k / nb : Nat) : Int)) * nb) →
      p.nx ib * nb + k < (p.cut (ib * nb + len) 0).dist.localSize := by
    intro k k1 k2
    have d1 : (N * nb + k) / nb = N + k / nb := col_tile hp
    have d2 : (N * nb + k) % nb = k % nb := by rw [Nat.add_comm, Nat.add_mul_mod_self_right]
    have := (hW.lt_localSize (N * nb + k)).2 (by
      rw [d1, d2, hgn, hloc]
      rw [hN] at k1 k2
      exact ⟨by push_cast at k1 ⊢; omega, by push_cast at k2 ⊢; exact k2⟩)
    rw [hN]
    push_cast at this
    exact this
  have hm := h.plain.nx_mono (s := (ib : Int)) (t := (ie : Int)) (by omega) (by have := R.lt; omega)
  have hsz : 0 ≤ (p.cut (ib * nb + len) 0).dist.localSize - p.nx ib * nb := by
    by_cases hz : p.nx ie = p.nx ib
    · -- no tile: all local elements are before
      by_cases hN0 : N = 0
      · rw [hN, hN0]
        have := hW.plain.valid.wf.localSize_nonneg
        simpa using this
      · have := (hW.lt_localSize ((N - 1) * nb + (min nb (ib * nb + len - p.gn ((N - 1 : Nat) : Int) * nb) - 1))).2 ?_
        · have g1 : p.gl ((N - 1 : Nat) : Int) < ib := (h.plain.lt_nx (Int.natCast_nonneg _) (Int.natCast_nonneg _)).1 (by rw [hN]; omega)
          rw [← h.gn_cast (Int.natCast_nonneg _)] at g1
          have g2 : p.gn ((N - 1 : Nat) : Int) * nb + nb ≤ ib * nb := by
            have : (p.gn ((N - 1 : Nat) : Int) + 1) * nb ≤ ib * nb := Nat.mul_le_mul_right _ (by omega)
            rwa [Nat.add_mul, Nat.one_mul] at this
          have g3 : (N - 1) * nb + nb = N * nb := by
            conv_rhs => rw [show N = (N - 1) + 1 by omega, Nat.add_mul, Nat.one_mul]
          rw [hN]
          have g4 : ((N : Nat) : Int) * (nb : Int) = ((N * nb : Nat) : Int) := by push_cast; rfl
          rw [g4]
          omega
        · have g1 : p.gl ((N - 1 : Nat) : Int) < ib := (h.plain.lt_nx (Int.natCast_nonneg _) (Int.natCast_nonneg _)).1 (by rw [hN]; omega)
          rw [← h.gn_cast (Int.natCast_nonneg _)] at g1
          have g2 : p.gn ((N - 1 : Nat) : Int) * nb + nb ≤ ib * nb := by
            have : (p.gn ((N - 1 : Nat) : Int) + 1) * nb ≤ ib * nb := Nat.mul_le_mul_right _ (by omega)
            rwa [Nat.add_mul, Nat.one_mul] at this
          have d1 : ((N - 1) * nb + (min nb (ib * nb + len - p.gn ((N - 1 : Nat) : Int) * nb) - 1)) / nb = N - 1 := by
            rw [col_tile hp, Nat.div_eq_of_lt (by omega), Nat.add_zero]
          have d2 : ((N - 1) * nb + (min nb (ib * nb + len - p.gn ((N - 1 : Nat) : Int) * nb) - 1)) % nb = min nb (ib * nb + len - p.gn ((N - 1 : Nat) : Int) * nb) - 1 := by
            rw [Nat.add_comm, Nat.add_mul_mod_self_right, Nat.mod_eq_of_lt (by omega)]
          rw [d1, d2, hgn, hloc]
          exact ⟨by omega, by omega⟩
    · have := hel 0 (by rw [Nat.zero_div]; push_cast; omega) (by
        rw [Nat.zero_mod, Nat.zero_div]
        have g := hW.gn_lt (i := (N : Int)) (by omega) (by rw [hloc]; omega)
        rw [hgn] at g
        rw [hN, show ((0 : Nat) : Int) = 0 from rfl, Int.add_zero]
        omega)
      omega
  unfold Panel.create Panel.setupInternal
  rw [if_pos (.inr ho), ho]
  dsimp only
  rw [Int.add_zero, ite_self, hts, show (p.cut (ib * nb + len) 0).dist.next_local_tile_from_global_tile ib = p.nx ib from hnx ib, if_pos ⟨hsz, by omega⟩]
  rw [Option.bind_some, if_pos (by rw [hbt]; exact hts)]
  unfold Panel.initRange
  dsimp only
  rw [if_pos]
  · refine ⟨_, rfl, fun hz => ?_⟩
    dsimp only
    rw [hnt]
    refine ⟨by have a := hnx ib; have b := hnx ie; dsimp only [Params.nx] at a b hm hz ⊢; omega, ?_⟩
    show _ ≤ (p.cut (ib * nb + len) 0).dist.localSize - p.nx ib * nb
    by_contra hc
    obtain ⟨m, hm'⟩ : ∃ m : Nat, (p.cut len ib).dist.localSize.toNat = m + 1 := ⟨(p.cut len ib).dist.localSize.toNat - 1, by omega⟩
    obtain ⟨k1, k2⟩ := ((h.cut len ib).lt_localSize m).1 (by omega)
    have := hel m (by rw [← cut_local h R]; exact k1) (by rw [h.cut_gn len, Nat.add_mul]; omega)
    omega
  · rw [hnt]
    refine ⟨by have := R.lt; omega, ?_, le_refl _⟩
    exact (hnx ib).ge

end

section
variable {P : Params2} {n nb : Nat} (h1 : Ax P.row n nb) (h2 : Ax P.col n nb) {ib ie len : Nat} (R : Rng n nb ib ie len)
include h1 h2 R

/-- The program of a process. -/
theorem program_eq (rots : List Rot) : ∃ wsz : Coord2 → Int, (∀ r ∈ P.ranks, inR P ib ie r → (loc P ib len r : Int) ≤ wsz r) ∧ ∀ r ∈ P.ranks,
    program (P.on r) ib ie rots = rots.flatMap fun q => if inR P ib ie r then rotate (P.on r) (sub P ib len r) (org P ib r) (ext P ib ie r) (wsz r) q else [] := by
  obtain ⟨e1, e2, e3, e4, e5⟩ := R.bounds
  have hp := h1.nb_pos
  have key : ∀ r : Coord2, ∃ w : Int, r ∈ P.ranks → (inR P ib ie r → (loc P ib len r : Int) ≤ w) ∧
    program (P.on r) ib ie rots = rots.flatMap fun q => if inR P ib ie r then rotate (P.on r) (sub P ib len r) (org P ib r) (ext P ib ie r) w q else [] := by
    intro r
    by_cases hr : r ∈ P.ranks
    · have b1 := Params2.mem_ranks.1 hr .Row
      have b2 := Params2.mem_ranks.1 hr .Col
      have a1 : Ax (P.row.onRank r.row) n nb := h1.onRank b1.1 b1.2
      have a2 : Ax (P.col.onRank r.col) n nb := h2.onRank b2.1 b2.2
      obtain ⟨w, w1, w2⟩ := panel_ws a1 R (P.on r).col.tileSize
      refine ⟨w.data.size, fun _ => ⟨fun hin => (w2 hin.1).2, ?_⟩⟩
      have t1 : (P.on r).row.tileSize = nb := h1.tile
      have t2 : (P.on r).col.tileSize = nb := h2.tile
      have sz : (P.on r).row.size = n := h1.size
      have hlim : min (P.on r).row.size ((ie : Int) * (P.on r).row.tileSize) = ((ib * nb + len : Nat) : Int) := by
        rw [t1, sz, e3]; push_cast; rfl
      have hlen : min (P.on r).row.size ((ie : Int) * (P.on r).row.tileSize) - (ib : Int) * (P.on r).row.tileSize = (len : Int) := by
        rw [hlim, t1]; push_cast; omega
      unfold program
      dsimp only
      by_cases hin : inR P ib ie r
      · have c1 : (P.on r).row.next_local_tile_from_global_tile ie - (P.on r).row.next_local_tile_from_global_tile ib ≠ 0 := by
          have := hin.1; intro z; exact this (by
            have : (P.row.onRank r.row).nx ie - (P.row.onRank r.row).nx ib = 0 := z
            omega)
        have c2 : (P.on r).col.next_local_tile_from_global_tile ie - (P.on r).col.next_local_tile_from_global_tile ib ≠ 0 := by
          have := hin.2; intro z; exact this (by
            have : (P.col.onRank r.col).nx ie - (P.col.onRank r.col).nx ib = 0 := z
            omega)
        rw [if_pos ⟨c1, c2⟩, hlen, hlim]
        have d1 := C01_create_2d true (a1.cut len ib).plain.valid (a2.cut len ib).plain.valid
        have d2 := C01_create_2d true (a1.cut (ib * nb + len) 0).plain.valid (a2.cut 1 0).plain.valid
        have d3 : workspace (P.on r) ((ib * nb + len : Nat) : Int) ib = some w.data.size := by
          unfold workspace
          have s1 : (P.on r).row.src = (P.row.onRank r.row).dist.rank_global_tile 0 := src_owner a1.plain
          have s2 : (P.on r).col.src = (P.col.onRank r.col).dist.rank_global_tile 0 := src_owner a2.plain
          rw [s1, s2]
          have : Distribution.create true ⟨((ib * nb + len : Nat) : Int), 1⟩ ⟨(P.on r).row.tileSize, (P.on r).col.tileSize⟩ ⟨(P.on r).row.tileSize, (P.on r).col.tileSize⟩
            ⟨(P.on r).row.grid, (P.on r).col.grid⟩ ⟨(P.on r).row.rank, (P.on r).col.rank⟩ ⟨(P.row.onRank r.row).dist.rank_global_tile 0, (P.col.onRank r.col).dist.rank_global_tile 0⟩ ⟨0, 0⟩ =
            some ⟨((P.row.onRank r.row).cut (ib * nb + len) 0).dist, ((P.col.onRank r.col).cut 1 0).dist⟩ := d2
          rw [this, Option.bind_some]
          have w1' : Panel.create (V := Unit) ((P.row.onRank r.row).cut (ib * nb + len) 0).dist ((P.col.onRank r.col).cut 1 0).dist.tileSize ib = some w := w1
          dsimp only
          rw [w1', Option.bind_some, if_pos (w2 hin.1).1]
        have d1' : Distribution.create true ⟨(len : Int), (len : Int)⟩ ⟨(P.on r).row.tileSize, (P.on r).col.tileSize⟩ ⟨(P.on r).row.tileSize, (P.on r).col.tileSize⟩
            ⟨(P.on r).row.grid, (P.on r).col.grid⟩ ⟨(P.on r).row.rank, (P.on r).col.rank⟩ ⟨(P.on r).row.rank_global_tile ib, (P.on r).col.rank_global_tile ib⟩ ⟨0, 0⟩ =
            some (sub P ib len r) := d1
        rw [d1', d3]
        simp only [if_pos hin]
        rfl
      · rw [if_neg]
        · simp only [if_neg hin]
          symm
          rw [List.flatMap_eq_nil_iff]
          exact fun _ _ => rfl
        · rintro ⟨c1, c2⟩
          exact hin ⟨fun z => c1 (by
            show (P.row.onRank r.row).nx ie - (P.row.onRank r.row).nx ib = 0
            omega), fun z => c2 (by
            show (P.col.onRank r.col).nx ie - (P.col.onRank r.col).nx ib = 0
            omega)⟩
    · exact ⟨0, fun z => absurd z hr⟩
  choose w hw using key
  exact ⟨w, fun r hr => (hw r hr).1, fun r hr => (hw r hr).2⟩

/-- The whole call. -/
theorem program_runs (rots : List Rot) (hq : ∀ q ∈ rots, q.i < len ∧ q.j < len ∧ q.i ≠ q.j) {M : Elems ℝ} {g : Glob RotSt (Blk ℝ)} (hc : Clean P.ranks g)
    (hw : ∀ r ∈ P.ranks, WinAt P n nb n nb r M (g.st r).a) :
    ∃ g', Runs (fun r => if r ∈ P.ranks then program (P.on r) ib ie rots else []) g g' ∧ Clean P.ranks g' ∧
      ∀ r ∈ P.ranks, WinAt P n nb n nb r (rots.foldl (fun M q => rotG (ib * nb) len q M) M) (g'.st r).a := by
  obtain ⟨wsz, w1, w2⟩ := program_eq h1 h2 R rots
  suffices hs : ∃ g', Runs (fun r => if r ∈ P.ranks then (rots.flatMap fun q => if inR P ib ie r then rotate (P.on r) (sub P ib len r) (org P ib r) (ext P ib ie r) (wsz r) q else []) else []) g g' ∧ Clean P.ranks g' ∧
      ∀ r ∈ P.ranks, WinAt P n nb n nb r (rots.foldl (fun M q => rotG (ib * nb) len q M) M) (g'.st r).a by
    obtain ⟨g', r1, r2⟩ := hs
    refine ⟨g', r1.congr fun r => ?_, r2⟩
    by_cases hr : r ∈ P.ranks
    · rw [if_pos hr, if_pos hr, w2 r hr]
    · rw [if_neg hr, if_neg hr]
  clear w2
  induction rots generalizing M g with
  | nil => exact ⟨g, .nil (fun r => by simp) g, hc, hw⟩
  | cons q rots ih =>
    obtain ⟨q1, q2, q3⟩ := hq q (List.mem_cons_self ..)
    obtain ⟨ga, r1, c1, s1⟩ := rotate_runs h1 h2 R q1 q2 q3 wsz w1 hc hw
    obtain ⟨gb, r2, c2, s2⟩ := ih (fun q h => hq q (List.mem_cons_of_mem _ h)) c1 s1
    exact ⟨gb, (DistRed.Runs.if_append r1 r2).congr fun r => by rw [List.flatMap_cons], c2, s2⟩

/-- The exchanges of one rotation. -/
theorem rotate_sigs {q : Rot} (hi : q.i < len) (hj : q.j < len) {r : Coord2} (hr : r ∈ P.ranks) (wsz : Int) {c : Chan} (hcr : c.has r = true) :
    sigs c (if inR P ib ie r then rotate (P.on r) (sub P ib len r) (org P ib r) (ext P ib ie r) wsz q else []) =
      if (P.row.onRank r.row).nx ie ≠ (P.row.onRank r.row).nx ib ∧ own P nb ib q.i ≠ own P nb ib q.j ∧
        Chan.pair r.row (min (own P nb ib q.i) (own P nb ib q.j)) (max (own P nb ib q.i) (own P nb ib q.j)) = c then [.exchange] else [] := by
  have b2 := Params2.mem_ranks.1 hr .Col
  have a2 : Ax (P.col.onRank r.col) n nb := h2.onRank b2.1 b2.2
  have hown : own P nb ib q.i ≠ own P nb ib q.j → Chan.pair r.row (min (own P nb ib q.i) (own P nb ib q.j)) (max (own P nb ib q.i) (own P nb ib q.j)) = c →
      r.col = own P nb ib q.i ∨ r.col = own P nb ib q.j := by
    rintro _ rfl
    have := (pair_has.1 hcr).2
    omega
  have ex : ∀ (p : Option ColPtr) (x : Int) (f : RotSt → Option RotSt), sigs c (exchange (P.on r) (loc P ib len r) wsz p r.row (own P nb ib q.i) (own P nb ib q.j) x ++ [.loc f]) =
      if Chan.pair r.row (min (own P nb ib q.i) (own P nb ib q.j)) (max (own P nb ib q.i) (own P nb ib q.j)) = c then [.exchange] else [] := by
    intro p x f
    unfold exchange
    simp only [List.cons_append, List.nil_append, sigs]
  by_cases hz : (P.row.onRank r.row).nx ie ≠ (P.row.onRank r.row).nx ib
  · by_cases hin : inR P ib ie r
    · rw [if_pos hin, rotate_eq h1 h2 hr]
      by_cases o1 : r.col = own P nb ib q.i
      · rw [if_pos o1]
        by_cases o2 : r.col = own P nb ib q.j
        · rw [if_pos o2, if_neg (fun z => z.2.1 (o1.symm.trans o2))]
          rfl
        · rw [if_neg o2, ex]
          by_cases hc : Chan.pair r.row (min (own P nb ib q.i) (own P nb ib q.j)) (max (own P nb ib q.i) (own P nb ib q.j)) = c
          · rw [if_pos hc, if_pos ⟨hz, fun z => o2 (o1.trans z), hc⟩]
          · rw [if_neg hc, if_neg (fun z => hc z.2.2)]
      · rw [if_neg o1]
        by_cases o2 : r.col = own P nb ib q.j
        · rw [if_pos o2, ex]
          by_cases hc : Chan.pair r.row (min (own P nb ib q.i) (own P nb ib q.j)) (max (own P nb ib q.i) (own P nb ib q.j)) = c
          · rw [if_pos hc, if_pos ⟨hz, fun z => o1 (o2.trans z.symm), hc⟩]
          · rw [if_neg hc, if_neg (fun z => hc z.2.2)]
        · rw [if_neg o2, if_neg (fun z => (hown z.2.1 z.2.2).elim o1 o2)]
          rfl
    · rw [if_neg hin, if_neg]
      · rfl
      · rintro ⟨_, z1, z2⟩
        exact hin ⟨hz, (hown z1 z2).elim (fun o => owner_in a2 R hi o.symm) (fun o => owner_in a2 R hj o.symm)⟩
  · rw [if_neg (fun z : inR P ib ie r => hz z.1), if_neg (fun z => hz z.1)]
    rfl

theorem program_sigs {rots : List Rot} (hq : ∀ q ∈ rots, q.i < len ∧ q.j < len ∧ q.i ≠ q.j) :
    SameCollectives P.ranks fun r => program (P.on r) ib ie rots := by
  obtain ⟨wsz, w1, w2⟩ := program_eq h1 h2 R rots
  intro c r hr s hs hcr hcs
  beta_reduce
  rw [w2 r hr, w2 s hs, sigs_flatMap, sigs_flatMap]
  refine List.flatMap_congr fun q hmem => ?_
  obtain ⟨q1, q2, _⟩ := hq q hmem
  rw [rotate_sigs h1 h2 R q1 q2 hr _ hcr, rotate_sigs h1 h2 R q1 q2 hs _ hcs]
  cases c with
  | row i =>
    rw [if_neg (fun z => Chan.noConfusion z.2.2), if_neg (fun z => Chan.noConfusion z.2.2)]
  | col i =>
    rw [if_neg (fun z => Chan.noConfusion z.2.2), if_neg (fun z => Chan.noConfusion z.2.2)]
  | pair i a b =>
    have e1 := (pair_has.1 hcr).1
    have e2 := (pair_has.1 hcs).1
    rw [e1, e2]
  | duo cl jj a b tag =>
    rw [if_neg (fun z => Chan.noConfusion z.2.2), if_neg (fun z => Chan.noConfusion z.2.2)]
  | full q =>
    rw [if_neg (fun z => Chan.noConfusion z.2.2), if_neg (fun z => Chan.noConfusion z.2.2)]

end
end DistRot
end DLAF
