import Verif.Lemmas.DistRedIter1
import Verif.Lemmas.CollectiveList
/- Distributed reduction to band: the broadcast of a panel and of its transposed. -/
namespace DLAF
open scoped Classical

theorem foldl_set1 {K : Type*} (lc : Int → Int) (val : Int → Blk K) : ∀ (l : List Int) (p : EPanel K), l.Nodup →
    (∀ a ∈ l, ∀ b ∈ l, lc a = lc b → a = b) → ∀ k ∈ l, (l.foldl (fun p k => set1 p (lc k) (some (val k))) p) (lc k) = some (val k) := by
  intro l
  induction l using List.reverseRecOn with
  | nil => intro p _ _ k hk; cases hk
  | append_singleton l a ih =>
    intro p hnd hinj k hk
    rw [List.foldl_append]
    simp only [List.foldl_cons, List.foldl_nil, set1]
    by_cases e : lc k = lc a
    · rw [if_pos e]
      have : k = a := hinj k hk a (by simp) e
      rw [this]
    · rw [if_neg e]
      have hk' : k ∈ l := by
        rcases List.mem_append.1 hk with h | h
        · exact h
        · rw [List.mem_singleton] at h
          exact absurd (by rw [h]) e
      exact ih p (List.Nodup.of_append_left hnd) (fun a ha b hb => hinj a (by simp [ha]) b (by simp [hb])) k hk'

namespace DistRed
variable {K : Type*} [RCLike K] {P : Params2} {n nb band j : Nat} {dt : Coord2 → Dist1}

/-- A transposed panel holds the rows of `M` of the local tile columns in `[.., eT)`. -/
def HT (P : Params2) (n nb band j : Nat) (eT : Int) (r : Coord2) (M : Elems K) (pan : EPanel K) : Prop :=
  ∀ l, 0 ≤ l → l < (P.col.onRank r.col).dist.localNrTiles → (j + 1) * band / nb ≤ (P.col.onRank r.col).gn l →
    (((P.col.onRank r.col).gn l : Nat) : Int) < eT →
    ∃ v, pan l = some v ∧ IsWin v M (pc nb n band j ((P.col.onRank r.col).gn l)).1 0 (pc nb n band j ((P.col.onRank r.col).gn l)).2 (nr n band j)

section
variable (h : Geo P n nb band j)
include h

omit [RCLike K] in
theorem Geo.ntiles_eq (r : Coord2) : ntiles (P.on r) = (((n + nb - 1) / nb : Nat) : Int) := h.a1.nt

omit [RCLike K] in
theorem Geo.tStart_eq (r : Coord2) : tStart nb band (P.on r) j = (((j + 1) * band / nb : Nat) : Int) := by
  unfold tStart DistRed.r0
  split
  · rename_i e; rw [← e]
  · rfl

omit [RCLike K] in
theorem Geo.r0_lt : (j + 1) * band / nb < (n + nb - 1) / nb :=
  (h.a1.lt_nt _).2 (by have := h.r0_div; have := h.r0n; omega)

omit [RCLike K] in
theorem Geo.vtSize_eq {r : Coord2} (hr : r ∈ P.ranks) {l : Int} (h0 : 0 ≤ l) (h1 : l < (P.col.onRank r.col).dist.localNrTiles) :
    vtSize n band (P.on r) j l = ((pc nb n band j ((P.col.onRank r.col).gn l)).2, nr n band j) := by
  unfold vtSize DistRed.r0 pc pieceOf
  have a := h.col hr
  have e1 : (P.on r).col = (P.col.onRank r.col).dist := rfl
  have e2 : (P.col.onRank r.col).dist.global_tile_from_local_tile l = (P.col.onRank r.col).gl l := rfl
  rw [e1, e2, a.sz h0 h1, a.panelCut h0]
  dsimp only
  congr 1
  omega

omit [RCLike K] in
/-- The local row of a global tile. -/
theorem Geo.own_row {r : Coord2} (hr : r ∈ P.ranks) {k : Nat} (hk : k < (n + nb - 1) / nb) (hk0 : (j + 1) * band / nb ≤ k)
    (ho : P.row.dist.rank_global_tile k = r.row) :
    (P.row.onRank r.row).lc k ∈ rows band (P.on r) j ∧ (P.row.onRank r.row).gn ((P.row.onRank r.row).lc k) = k := by
  have a := h.row hr
  have hlt : ((k : Nat) : Int) < (P.row.onRank r.row).dist.nrTiles := by rw [a.nt]; omega
  have b := a.plain.lc_bounds (t := (k : Int)) (by omega) hlt ho
  have e := a.plain.gl_lc (t := (k : Int)) (by omega) ho
  have g : (P.row.onRank r.row).gn ((P.row.onRank r.row).lc k) = k := by
    have := a.gn_cast b.1
    omega
  exact ⟨(h.mem_rows hr).2 ⟨b.1, b.2, by rw [g]; exact hk0⟩, g⟩

omit [RCLike K] in
theorem Geo.own_col' {r : Coord2} (hr : r ∈ P.ranks) {k : Nat} (hk : k < (n + nb - 1) / nb)
    (ho : P.col.dist.rank_global_tile k = r.col) :
    0 ≤ (P.col.onRank r.col).lc k ∧ (P.col.onRank r.col).lc k < (P.col.onRank r.col).dist.localNrTiles ∧
    (P.col.onRank r.col).gn ((P.col.onRank r.col).lc k) = k := by
  have a := h.col hr
  have hlt : ((k : Nat) : Int) < (P.col.onRank r.col).dist.nrTiles := by rw [a.nt]; omega
  have b := a.plain.lc_bounds (t := (k : Int)) (by omega) hlt ho
  have e := a.plain.gl_lc (t := (k : Int)) (by omega) ho
  refine ⟨b.1, b.2, ?_⟩
  have := a.gn_cast b.1
  omega

/-- The broadcast of a panel from the column of the panel, and of its transposed. -/
theorem Geo.mirror_runs {R RT : ERef (RbSt K) K} (hR : R.OK) (hRT : RT.OK) (hdis : ∀ s p, R.get (RT.set s p) = R.get s)
    {eT : Coord2 → Int} {e : Int} (he : ∀ r, eT r = e) (hle : e ≤ (((n + nb - 1) / nb : Nat) : Int)) {M : Elems K}
    {g : Glob (RbSt K) (Blk K)} (hcl : Clean P.ranks g) (hM : ∀ r ∈ onCol P nb band j, HR P n nb band j r M (R.get (g.st r))) :
    ∃ g', Runs (fun r => if r ∈ P.ranks then mirror n nb band (P.on r) j R RT (eT r) else []) g g' ∧ Clean P.ranks g' ∧
      ∀ r ∈ P.ranks, ∃ p pt, g'.st r = RT.set (R.set (g.st r) p) pt ∧ HR P n nb band j r M p ∧ HT P n nb band j e r M pt := by
  have hroot := h.rc_range
  have hlt := h.r0_lt
  -- checks
  obtain ⟨g0, r0', c0', q0⟩ := Runs.locals_ex P.ranks_nodup hcl
    (fun r => [fun s => if (P.on r).row.size = (P.on r).col.size ∧ (P.on r).row.tileSize = (P.on r).col.tileSize ∧
        ((DistRed.r0 band j / nb : Nat) : Int) ≤ tStart nb band (P.on r) j ∧ eT r ≤ ntiles (P.on r) then some s else none])
    (fun r s' => s' = g.st r) (fun r hr => by
      refine ⟨_, ?_, rfl⟩
      rw [runLocs_one]
      refine if_pos ⟨?_, ?_, ?_, ?_⟩
      · exact h.a1.size.trans h.a2.size.symm
      · exact h.a1.tile.trans h.a2.tile.symm
      · rw [h.tStart_eq]; exact Int.le_refl _
      · rw [he, h.ntiles_eq]; exact hle)
  -- the rows
  obtain ⟨g1, r1, c1, q1⟩ := bcast_tiles (P := P) (axis := .Col) hR c0' (root := rc P nb band j) hroot
    (fun r => vSize n band (P.on r) j) (fun q i => ((pc nb n band j ((P.row.onRank q).gn i)).2, nr n band j))
    (fun q => View.tiles (P.row.onRank q).dist (((j + 1) * band : Nat) : Int)) (fun r hr i hi => h.vSize_eq hr hi) (by
      intro r hr ho i hi
      obtain ⟨w, w1, w2⟩ := hM r (mem_onCol.2 ⟨hr, ho⟩) i hi
      exact ⟨w, by rw [q0 r hr]; exact w1, w2.1, w2.2.1⟩)
  have q1' : ∀ r ∈ P.ranks, ∃ p, g1.st r = R.set (g.st r) p ∧ HR P n nb band j r M p ∧
      ∀ i ∈ rows band (P.on r) j, p i = R.get (g.st ⟨r.row, rc P nb band j⟩) i := by
    intro r hr
    obtain ⟨p, p1, p2, _⟩ := q1 r hr
    have hm : (⟨r.row, rc P nb band j⟩ : Coord2) ∈ onCol P nb band j := h.on_mk (Params2.mem_ranks.1 hr .Row).1 (Params2.mem_ranks.1 hr .Row).2
    have e1 : ∀ i ∈ rows band (P.on r) j, p i = R.get (g.st ⟨r.row, rc P nb band j⟩) i := by
      intro i hi
      rw [p2 i hi]
      have : mkRank Coord.Col (rc P nb band j) (r.get Coord.Col.orth) = ⟨r.row, rc P nb band j⟩ := rfl
      rw [this, q0 _ (mem_onCol.1 hm).1]
    refine ⟨p, by rw [p1, q0 r hr], fun i hi => ?_, e1⟩
    obtain ⟨w, w1, w2⟩ := hM _ hm i hi
    exact ⟨w, by rw [e1 i hi]; exact w1, w2⟩
  -- the transposed panel
  let val : Int → Blk K := fun k =>
    (R.get (g.st ⟨P.row.dist.rank_global_tile k, rc P nb band j⟩) ((P.row.onRank (P.row.dist.rank_global_tile k)).lc k)).getD (Blk.zero 0 0)
  let lcC : Coord2 → Int → Int := fun r k => (P.col.onRank r.col).lc k
  let ys : Coord2 → List Int := fun r => (irange (((j + 1) * band / nb : Nat) : Int) e).filter fun k => P.col.dist.rank_global_tile k = r.col
  let Fp : Coord2 → List Int → EPanel K := fun r l => l.foldl (fun p k => set1 p (lcC r k) (some (val k))) (RT.get (g1.st r))
  let own : Coord2 → Int → Bool := fun r k => decide (P.row.dist.rank_global_tile k = r.row)
  have hys : ∀ r k, k ∈ ys r → ∃ t : Nat, k = t ∧ (j + 1) * band / nb ≤ t ∧ t < (n + nb - 1) / nb ∧ (t : Int) < e ∧
      P.col.dist.rank_global_tile t = r.col := by
    intro r k hk
    obtain ⟨h1, h2⟩ := List.mem_filter.1 hk
    rw [mem_irange] at h1
    have h0 := Int.natCast_nonneg ((j + 1) * band / nb)
    have h3 : k = (k.toNat : Int) := by omega
    refine ⟨k.toNat, h3, by omega, by omega, by omega, ?_⟩
    rw [← h3]
    exact of_decide_eq_true h2
  have hval : ∀ r ∈ P.ranks, ∀ k : Nat, (j + 1) * band / nb ≤ k → k < (n + nb - 1) / nb →
      IsWin (val k) M (pc nb n band j k).1 0 (pc nb n band j k).2 (nr n band j) ∧
      (P.row.dist.rank_global_tile k = r.row → R.get (g1.st r) ((P.row.onRank r.row).lc k) = some (val k)) := by
    intro r hr k hk0 hk
    have hrg : 0 ≤ P.row.dist.rank_global_tile k ∧ P.row.dist.rank_global_tile k < P.row.grid :=
      h.a1.plain.valid.wf.cyc.rank_range (Int.natCast_nonneg _)
    have hm := h.on_mk (t := P.row.dist.rank_global_tile k) hrg.1 hrg.2
    obtain ⟨o1, o2⟩ := h.own_row (mem_onCol.1 hm).1 hk hk0 rfl
    obtain ⟨w, w1, w2⟩ := hM _ hm _ o1
    have hv : val k = w := by
      show (R.get _ _).getD _ = w
      rw [w1]
      rfl
    rw [hv]
    constructor
    · have w3 := w2
      rw [o2] at w3
      exact w3
    · intro ho
      obtain ⟨p, p1, _, p3⟩ := q1' r hr
      obtain ⟨u1, _⟩ := h.own_row hr hk hk0 ho
      rw [p1, hR.get_set, p3 _ u1, ← ho]
      exact w1
  have hfs : ∀ r l i, Fp r (l ++ [i]) = set1 (Fp r l) (lcC r i) (some (val i)) := by
    intro r l i
    show List.foldl _ _ (l ++ [i]) = _
    rw [List.foldl_append]
    rfl
  obtain ⟨g2, r2, c2, q2⟩ := collective_list (V := Blk K) P.ranks_nodup c1 (decide (1 < P.row.grid)) (fun r => Chan.col r.col) ys
    (fun r _ => by simp [Chan.has]) (fun r _ s _ hh => by
      have e1 : s.col = r.col := by simpa [Chan.has] using hh
      refine ⟨by rw [e1], ?_⟩
      show (irange _ e).filter _ = (irange _ e).filter _
      rw [e1])
    (fun r k => if P.row.dist.rank_global_tile k = r.row then
      [fun s => (R.read ((P.row.onRank r.row).lc k) s).bind fun b => RT.write (vtSize n band (P.on r) j (lcC r k)) (lcC r k) b s] else [])
    own
    (fun r k s => (RT.read (lcC r k) s).map fun b => (s, b))
    (fun r k => if P.row.dist.rank_global_tile k = r.row then .bcast r.row else .bcast (P.row.dist.rank_global_tile k))
    (fun r k => if P.row.dist.rank_global_tile k = r.row then [] else [(Chan.col r.col).rankOf (P.row.dist.rank_global_tile k)])
    (fun r k => if P.row.dist.rank_global_tile k = r.row then fun s _ => some s else
      recvOne fun s b => RT.write (vtSize n band (P.on r) j (lcC r k)) (lcC r k) b s)
    (fun r l => RT.set (g1.st r) (Fp r l))
    (fun r l i => if P.row.dist.rank_global_tile i = r.row then RT.set (g1.st r) (Fp r (l ++ [i])) else RT.set (g1.st r) (Fp r l))
    (fun _ k => val k)
    (fun r hr => by
      show RT.set (g1.st r) (RT.get (g1.st r)) = _
      exact hRT.set_get _)
    (fun r hr l i hi => by
      obtain ⟨t, ht⟩ := hi
      obtain ⟨k, rfl, k0, k1, k2, k3⟩ := hys r i (by rw [ht]; simp)
      by_cases ho : P.row.dist.rank_global_tile k = r.row
      · rw [if_pos ho, if_pos ho, runLocs_one]
        obtain ⟨v1, v2⟩ := hval r hr k k0 k1
        obtain ⟨o1, o2, o3⟩ := h.own_col' hr k1 k3
        have : R.read ((P.row.onRank r.row).lc k) (RT.set (g1.st r) (Fp r l)) = some (val k) := by
          unfold ERef.read
          rw [hdis]
          exact v2 ho
        rw [this, Option.bind_some, hfs]
        refine ERef.write_of hRT ?_ ?_ _
        · rw [h.vtSize_eq hr o1 o2, o3]; exact v1.1
        · rw [h.vtSize_eq hr o1 o2, o3]; exact v1.2.1
      · rw [if_neg ho, if_neg ho]
        rfl)
    (fun hp r hr l i hi => by
      obtain ⟨t, ht⟩ := hi
      obtain ⟨k, rfl, k0, k1, k2, k3⟩ := hys r i (by rw [ht]; simp)
      have hg : ¬ 1 < P.row.grid := of_decide_eq_false hp
      have hrg : 0 ≤ P.row.dist.rank_global_tile k ∧ P.row.dist.rank_global_tile k < P.row.grid :=
        h.a1.plain.valid.wf.cyc.rank_range (Int.natCast_nonneg _)
      have hrr : 0 ≤ r.row ∧ r.row < P.row.grid := Params2.mem_ranks.1 hr .Row
      exact if_pos (by omega))
    (fun hp r hr l i hi hpo => by
      obtain ⟨t, ht⟩ := hi
      have ho : P.row.dist.rank_global_tile i = r.row := of_decide_eq_true hpo
      rw [if_pos ho]
      have : RT.read (lcC r i) (RT.set (g1.st r) (Fp r (l ++ [i]))) = some (val i) := by
        unfold ERef.read
        rw [hRT.get_set, hfs]
        exact set1_at _ _ _
      rw [this]
      rfl)
    (fun hp r hr i hi s hs => by
      obtain ⟨k, rfl, k0, k1, k2, k3⟩ := hys r i hi
      have hrg : 0 ≤ P.row.dist.rank_global_tile k ∧ P.row.dist.rank_global_tile k < P.row.grid :=
        h.a1.plain.valid.wf.cyc.rank_range (Int.natCast_nonneg _)
      by_cases ho : P.row.dist.rank_global_tile k = r.row
      · rw [if_pos ho] at hs
        cases hs
      · rw [if_neg ho, List.mem_singleton] at hs
        subst hs
        refine ⟨P.mem_ranks' .Row hrg (Params2.mem_ranks.1 hr .Col), by simp [Chan.has, Chan.rankOf], ?_⟩
        exact decide_eq_true rfl)
    (fun hp r hr l i hi => by
      obtain ⟨t, ht⟩ := hi
      obtain ⟨k, rfl, k0, k1, k2, k3⟩ := hys r i (by rw [ht]; simp)
      by_cases ho : P.row.dist.rank_global_tile k = r.row
      · rw [if_pos ho, if_pos ho]
      · rw [if_neg ho, if_neg ho, if_neg ho]
        obtain ⟨v1, v2⟩ := hval r hr k k0 k1
        obtain ⟨o1, o2, o3⟩ := h.own_col' hr k1 k3
        show RT.write _ _ (val k) _ = _
        rw [hfs]
        refine ERef.write_of hRT ?_ ?_ _
        · rw [h.vtSize_eq hr o1 o2, o3]; exact v1.1
        · rw [h.vtSize_eq hr o1 o2, o3]; exact v1.2.1)
  refine ⟨g2, (Runs.if_append (Runs.if_append r0' r1) r2).congr fun r => ?_, c2, fun r hr => ?_⟩
  · by_cases hr : r ∈ P.ranks
    · rw [if_pos hr, if_pos hr]
      unfold mirror bcastMirror
      dsimp only
      have hne : ¬ (((DistRed.r0 band j / nb : Nat) : Int) = ntiles (P.on r)) := by
        rw [h.ntiles_eq]
        have : DistRed.r0 band j = (j + 1) * band := rfl
        rw [this]
        omega
      rw [if_neg hne, List.append_assoc, rootCol_on h.a2, h.tStart_eq, he]
      congr 2
      have hcolr : (P.on r).col.rank = r.col := rfl
      have hrowr : (P.on r).row.rank = r.row := rfl
      have hrg : (P.on r).row.grid = P.row.grid := rfl
      have hp : ∀ k, ((P.on r).col.rank_global_tile k = (P.on r).col.rank) ↔ P.col.dist.rank_global_tile k = r.col := fun k => Iff.rfl
      have hq : ∀ k, ((P.on r).row.rank_global_tile k = (P.on r).row.rank) ↔ P.row.dist.rank_global_tile k = r.row := fun k => Iff.rfl
      refine (List.flatMap_congr fun k _ => if_congr (hp k) rfl rfl).trans ?_
      rw [flatMap_ite_filter]
      refine List.flatMap_congr fun k _ => ?_
      unfold collProg
      refine (if_congr (hq k) rfl rfl).trans ?_
      by_cases ho : P.row.dist.rank_global_tile k = r.row
      · have hown : own r k = true := decide_eq_true ho
        rw [if_pos ho]
        beta_reduce
        rw [if_pos ho, if_pos ho, if_pos ho, if_pos ho, hown]
        by_cases hg : 1 < P.row.grid
        · simp only [hg, hrg, if_true, decide_true]
          rfl
        · simp only [hg, hrg, if_false, decide_false]
          rfl
      · have hown : own r k = false := decide_eq_false ho
        rw [if_neg ho]
        beta_reduce
        rw [if_neg ho, if_neg ho, if_neg ho, if_neg ho, hown]
        by_cases hg : 1 < P.row.grid
        · simp only [hg, hrg, if_true, decide_true]
          rfl
        · simp only [hg, hrg, if_false, decide_false]
          rfl
    · rw [if_neg hr, if_neg hr]
  · obtain ⟨p, p1, p2, _⟩ := q1' r hr
    refine ⟨p, Fp r (ys r), by rw [q2 r hr, p1], p2, fun l l0 l1 l2 l3 => ?_⟩
    have a := h.col hr
    have hgc := a.gn_cast l0
    have hlt2 := (a.lt_nt _).2 (a.gn_lt l0 l1)
    have ho : P.col.dist.rank_global_tile (((P.col.onRank r.col).gn l : Nat) : Int) = r.col := by
      rw [hgc]; exact a.plain.gl_own l0
    have hk : (((P.col.onRank r.col).gn l : Nat) : Int) ∈ ys r := by
      refine List.mem_filter.2 ⟨mem_irange.2 ⟨by omega, l3⟩, decide_eq_true ho⟩
    have hl : lcC r (((P.col.onRank r.col).gn l : Nat) : Int) = l := by
      show (P.col.onRank r.col).lc _ = l
      rw [hgc]
      exact a.plain.lc_gl l0
    have := foldl_set1 (lcC r) val (ys r) (RT.get (g1.st r)) ((irange_nodup _ _).filter _) (by
      intro x hx y hy hxy
      obtain ⟨x', rfl, _, x1, _, x3⟩ := hys r x hx
      obtain ⟨y', rfl, _, y1, _, y3⟩ := hys r y hy
      have hx3 := (h.own_col' hr x1 x3).2.2
      have hy3 := (h.own_col' hr y1 y3).2.2
      have hxy' : (P.col.onRank r.col).lc x' = (P.col.onRank r.col).lc y' := hxy
      rw [hxy', hy3] at hx3
      rw [hx3]) _ hk
    rw [hl] at this
    exact ⟨_, this, (hval r hr _ l2 hlt2).1⟩

end
end DistRed
end DLAF
