import Verif.Lemmas.DistAlg
import Verif.Spec.DistMul
/- The tiles of a matrix a process holds, by local indices. -/
namespace DLAF
section
variable {K : Type*}

/-- Global index of a local tile, local index of a global tile, number of local tiles before a global tile. -/
abbrev Params.gl (p : Params) (i : Int) : Int := p.dist.global_tile_from_local_tile i
abbrev Params.lc (p : Params) (t : Int) : Int := p.dist.local_tile_from_global_tile t
abbrev Params.nx (p : Params) (t : Int) : Int := p.dist.next_local_tile_from_global_tile t

section
variable {p : Params} (hp : Tiled p)
include hp

theorem Tiled.nx_zero : p.nx 0 = 0 := hp.valid.wf.cyc.next_local_zero

theorem Tiled.nx_all : p.nx p.dist.nrTiles = p.dist.localNrTiles := hp.valid.wf.localNrTiles_eq.symm

theorem Tiled.nx_mono {s t : Int} (hs : 0 ≤ s) (h : s ≤ t) : p.nx s ≤ p.nx t := hp.valid.wf.cyc.next_local_mono hs h

theorem Tiled.nx_nonneg {s : Int} (hs : 0 ≤ s) : 0 ≤ p.nx s := hp.valid.wf.cyc.next_local_nonneg hs

theorem Tiled.gl_nonneg {i : Int} (hi : 0 ≤ i) : 0 ≤ p.gl i := (hp.valid.wf.cyc.global_local hi).1
theorem Tiled.gl_own {i : Int} (hi : 0 ≤ i) : p.dist.rank_global_tile (p.gl i) = p.rank := (hp.valid.wf.cyc.global_local hi).2.1
theorem Tiled.lc_gl {i : Int} (hi : 0 ≤ i) : p.lc (p.gl i) = i := (hp.valid.wf.cyc.global_local hi).2.2
theorem Tiled.gl_lc {t : Int} (ht : 0 ≤ t) (ho : p.dist.rank_global_tile t = p.rank) : p.gl (p.lc t) = t :=
  hp.valid.wf.cyc.local_global ht ho.symm
theorem Tiled.lc_nx {t : Int} (ht : 0 ≤ t) (ho : p.dist.rank_global_tile t = p.rank) : p.lc t = p.nx t :=
  hp.valid.wf.cyc.local_eq_next ht ho.symm

theorem Tiled.nx_succ {t : Int} (ht : 0 ≤ t) (ho : p.dist.rank_global_tile t = p.rank) : p.nx (t + 1) = p.nx t + 1 := by
  have : p.nx (t + 1) = p.nx t + (if p.rank = p.dist.rank_global_tile t then 1 else 0) := hp.valid.wf.cyc.next_local_succ ht
  rw [if_pos ho.symm] at this
  exact this

theorem Tiled.nx_skip {t : Int} (ht : 0 ≤ t) (ho : p.dist.rank_global_tile t ≠ p.rank) : p.nx (t + 1) = p.nx t := by
  have : p.nx (t + 1) = p.nx t + (if p.rank = p.dist.rank_global_tile t then 1 else 0) := hp.valid.wf.cyc.next_local_succ ht
  rw [if_neg (Ne.symm ho), Int.add_zero] at this
  exact this

theorem Tiled.lt_nx {i s : Int} (hi : 0 ≤ i) (hs : 0 ≤ s) : i < p.nx s ↔ p.gl i < s := by
  have g0 := hp.gl_nonneg hi
  have e : p.nx (p.gl i) = i := by rw [← hp.lc_nx g0 (hp.gl_own hi), hp.lc_gl hi]
  have e' := hp.nx_succ g0 (hp.gl_own hi)
  constructor
  · intro h
    by_contra hc
    have := hp.nx_mono hs (show s ≤ p.gl i by omega)
    omega
  · intro h
    have := hp.nx_mono (by omega : 0 ≤ p.gl i + 1) (show p.gl i + 1 ≤ s by omega)
    omega

theorem Tiled.gl_lt {i : Int} (hi : 0 ≤ i) (h : i < p.dist.localNrTiles) : p.gl i < p.dist.nrTiles := by
  rw [← hp.nx_all] at h
  exact (hp.lt_nx hi hp.valid.wf.nrTiles_nonneg).1 h

theorem Tiled.lc_bounds {t : Int} (ht : 0 ≤ t) (h : t < p.dist.nrTiles) (ho : p.dist.rank_global_tile t = p.rank) :
    0 ≤ p.lc t ∧ p.lc t < p.dist.localNrTiles := by
  have h0 := hp.nx_nonneg ht
  have h1 := hp.nx_succ ht ho
  have h2 := hp.nx_mono (by omega : 0 ≤ t + 1) (show t + 1 ≤ p.dist.nrTiles by omega)
  rw [hp.nx_all] at h2
  rw [hp.lc_nx ht ho]
  omega

theorem Tiled.gl_inj {i j : Int} (hi : 0 ≤ i) (hj : 0 ≤ j) (h : p.gl i = p.gl j) : i = j := by
  rw [← hp.lc_gl hi, ← hp.lc_gl hj, h]

/-- The contents of a panel into which the tiles of a range were linked. -/
theorem Tiled.links_content {s e : Int} (xs : List Int) (val : Int → Blk K) (W : Int → Blk K)
    (hx : ∀ i, i ∈ xs ↔ p.nx s ≤ i ∧ i < p.nx e) (hv : ∀ i ∈ xs, val i = W (p.gl i)) (hs : 0 ≤ s) :
    (fun i => if i ∈ xs then some (val i) else none) = content p s e W := by
  funext i
  unfold content
  by_cases h : i ∈ xs
  · rw [if_pos h, if_pos ((hx i).1 h), hv i h]
  · rw [if_neg h, if_neg (fun hc => h ((hx i).2 hc))]

theorem Tiled.content_at {s e i : Int} (W : Int → Blk K) (hi : 0 ≤ i) (hs : 0 ≤ s) (he : 0 ≤ e) (h1 : s ≤ p.gl i) (h2 : p.gl i < e) :
    content p s e W i = some (W (p.gl i)) ∧ InRange p s e i := by
  have a := (hp.lt_nx hi he).2 h2
  have b : p.nx s ≤ i := by
    by_contra hc
    have := (hp.lt_nx hi hs).1 (by omega)
    omega
  exact ⟨by unfold content; rw [if_pos ⟨b, a⟩], b, a⟩

theorem Tiled.nrTiles_nonneg : 0 ≤ p.dist.nrTiles := hp.valid.wf.nrTiles_nonneg
theorem Tiled.tile_pos : 0 < p.tile := hp.valid.2.2.1

theorem Tiled.size_pos {t : Int} (h0 : 0 ≤ t) (h1 : t < p.dist.nrTiles) : 0 < p.dist.global_tile_size_of t :=
  hp.valid.wf.global_tsz_pos h0 h1

theorem Tiled.size_le {t : Int} (h0 : 0 ≤ t) (h1 : t < p.dist.nrTiles) :
    p.dist.global_tile_size_of t ≤ p.tile ∧ (t ≠ 0 → t + 1 < p.dist.nrTiles → p.dist.global_tile_size_of t = p.tile) := by
  have ht : p.dist.tileSize = p.tile := rfl
  have h := hp.valid.wf.global_tsz h0 h1
  have g0 := hp.valid.wf.gteo_nonneg
  rw [ht] at h
  refine ⟨?_, fun h3 h2 => ?_⟩
  · obtain ⟨q1, q2, q3⟩ := hp.valid.wf.nrTiles_pos (hp.valid.wf.size_pos_of (by omega))
    rw [ht] at q2 q3
    rw [h]
    split <;> split <;> omega
  · rw [h, if_neg h3, if_neg (by omega)]
    omega

end

section
variable {p : Params} (hp : Plain p)
include hp

theorem Plain.size_le {t : Int} (h0 : 0 ≤ t) (h1 : t < p.dist.nrTiles) :
    p.dist.global_tile_size_of t ≤ p.tile ∧ (t + 1 < p.dist.nrTiles → p.dist.global_tile_size_of t = p.tile) := by
  have e1 : p.dist.global_tile_element_offset = 0 := by rw [hp.valid.gteo_eq, hp.offset, Int.zero_emod]
  have ht : p.dist.tileSize = p.tile := rfl
  have h := hp.valid.wf.global_tsz h0 h1
  rw [e1, ite_self, ht] at h
  refine ⟨?_, fun h2 => ?_⟩
  · obtain ⟨q1, q2, q3⟩ := hp.valid.wf.nrTiles_pos (hp.valid.wf.size_pos_of (by omega))
    rw [e1, ht] at q2 q3
    rw [h]
    split <;> omega
  · rw [h, if_neg (by omega)]
    omega

end

/-- Process `r` holds the matrix `m` of tiles; `i` counts along the coordinate orthogonal to `axis`. -/
def LView (P : Params2) (axis : Coord) (r : Coord2) (m : Tiles K) (loc : Coord2 → Blk K) : Prop :=
  ∀ i j, 0 ≤ i → i < (P.at' axis.orth r).dist.localNrTiles → 0 ≤ j → j < (P.at' axis r).dist.localNrTiles →
    loc (tileAt axis i j) = m (((P.at' axis.orth r).gl i).toNat, ((P.at' axis r).gl j).toNat)

theorem LView.of_holds {P : Params2} (hr : Tiled P.row) (hc : Tiled P.col) {r : Coord2} (h : r ∈ P.ranks) {m : Tiles K} {loc : Coord2 → Blk K}
    (hh : HoldsTiles P P.row.ntn P.col.ntn r m loc) : LView P .Col r m loc := by
  have pr : Tiled (P.at' .Row r) := Params2.tiled (c := .Row) hr h
  have pc : Tiled (P.at' .Col r) := Params2.tiled (c := .Col) hc h
  intro i j hi hi' hj hj'
  have a0 := pr.gl_nonneg hi
  have b0 := pc.gl_nonneg hj
  have a1 : (P.at' .Row r).gl i < P.row.dist.nrTiles := pr.gl_lt hi hi'
  have b1 : (P.at' .Col r).gl j < P.col.dist.nrTiles := pc.gl_lt hj hj'
  have ai : ((((P.at' .Row r).gl i).toNat : Nat) : Int) = (P.at' .Row r).gl i := by omega
  have bi : ((((P.at' .Col r).gl j).toNat : Nat) : Int) = (P.at' .Col r).gl j := by omega
  have key := hh ((P.at' .Row r).gl i).toNat (by unfold Params.ntn; omega) ((P.at' .Col r).gl j).toNat (by unfold Params.ntn; omega)
    (by rw [ai]; exact pr.gl_own hi) (by rw [bi]; exact pc.gl_own hj)
  rw [ai, bi] at key
  rw [show (P.at' .Row r).dist.local_tile_from_global_tile ((P.at' .Row r).gl i) = i from pr.lc_gl hi,
    show (P.at' .Col r).dist.local_tile_from_global_tile ((P.at' .Col r).gl j) = j from pc.lc_gl hj] at key
  exact key

theorem LView.holds {P : Params2} (hr : Tiled P.row) (hc : Tiled P.col) {r : Coord2} (h : r ∈ P.ranks) {m : Tiles K} {loc : Coord2 → Blk K}
    (hv : LView P .Col r m loc) : HoldsTiles P P.row.ntn P.col.ntn r m loc := by
  have pr : Tiled (P.at' .Row r) := Params2.tiled (c := .Row) hr h
  have pc : Tiled (P.at' .Col r) := Params2.tiled (c := .Col) hc h
  intro i hi j hj oi oj
  have a := pr.lc_bounds (t := i) (by omega) (show (i : Int) < P.row.dist.nrTiles by unfold Params.ntn at hi; omega) oi
  have b := pc.lc_bounds (t := j) (by omega) (show (j : Int) < P.col.dist.nrTiles by unfold Params.ntn at hj; omega) oj
  have key := hv _ _ a.1 a.2 b.1 b.2
  rw [show (P.at' Coord.Col.orth r).gl ((P.at' .Row r).lc i) = i from pr.gl_lc (by omega) oi, pc.gl_lc (by omega) oj] at key
  exact key

/-- Every process holds a matrix: a view with the roles of the coordinates exchanged. -/
theorem LView.swap {P : Params2} {axis : Coord} {r : Coord2} {m : Tiles K} {loc : Coord2 → Blk K} (h : LView P axis r m loc) :
    LView P axis.orth r (fun z => m (z.2, z.1)) loc := by
  intro i j hi hi' hj hj'
  rw [orth_orth] at hi' ⊢
  have := h j i hj hj' hi hi'
  cases axis <;> exact this


/-! ### Phases used by several algorithms -/

theorem irange_nodup (a b : Int) : (irange a b).Nodup := by
  unfold irange
  exact List.nodup_range.map fun x y h => by simpa using h

theorem ranks_congr {P Q : Params2} (h1 : P.row.grid = Q.row.grid) (h2 : P.col.grid = Q.col.grid) : P.ranks = Q.ranks := by
  unfold Params2.ranks
  rw [h1, h2]

section
variable {E : DEnv} {r : Coord2} {w : Bool} {a b c : Abs K}

/-- Tiles of line `k` of a matrix are linked into a panel by the processes that own them. -/
theorem LStep.linkLine (hE : E.OK) (hr : r ∈ E.G) {it : Int} {n q : Nat} {dbg : Bool} {m : Tiles K} {k : Nat} {s e : Int} (xs : List Int)
    (hv : LView (E.pd n) (E.axis n) r m (a.mat q)) (hk : (k : Int) < ((E.pd n).get (E.axis n)).dist.nrTiles)
    (h0 : 0 ≤ (a.cur n).s) (hs : (a.cur n).s ≤ s) (hse : s ≤ e) (he : e ≤ (a.cur n).e) (he' : (a.cur n).e ≤ ((E.pd n).get (E.axis n).orth).dist.nrTiles)
    (hnd : xs.Nodup) (hx : ∀ i, i ∈ xs ↔ (E.crd n r).nx s ≤ i ∧ i < (E.crd n r).nx e)
    (hf : (a.cur n).f = fun _ => none)
    (hfit : ∀ t, s ≤ t → t < e → VPanel.fits (E.tall n) (m (t.toNat, k)) (a.cur n).ax (((E.pd n).get (E.axis n).orth).dist.global_tile_size_of t) = true)
    {own : Prop} [Decidable own] (hown : own ↔ r.get (E.axis n) = ((E.pd n).get (E.axis n)).dist.rank_global_tile k)
    (hno : E.own n = false := by rfl) :
    LStep E r (rrIdx it) (if own then xs.map fun i => DSt.link (DSt.panel n it) dbg i q
        (tileAt (E.axis n) i (((E.pd n).at' (E.axis n) r).lc k)) else []) a
      (a.setPan n ⟨(a.cur n).ax, (a.cur n).s, (a.cur n).e, if r.get (E.axis n) = ((E.pd n).get (E.axis n)).dist.rank_global_tile k then
        content (E.crd n r) s e (fun t => m (t.toNat, k)) else fun _ => none⟩) := by
  have hp := hE.crd n hr
  have hq : Tiled ((E.pd n).at' (E.axis n) r) := Params2.tiled (hE.plain n _) (hE.ranks n ▸ hr)
  by_cases ho : own
  · rw [if_pos ho, if_pos (hown.1 ho)]
    have ho' : ((E.pd n).at' (E.axis n) r).dist.rank_global_tile k = ((E.pd n).at' (E.axis n) r).rank := (hown.1 ho).symm
    have hl := hq.lc_bounds (t := k) (by omega) hk ho'
    have hval : ∀ i ∈ xs, 0 ≤ i ∧ i < (E.crd n r).dist.localNrTiles ∧
        a.mat q (tileAt (E.axis n) i (((E.pd n).at' (E.axis n) r).lc k)) = m (((E.crd n r).gl i).toNat, k) := by
      intro i hi
      rw [hx] at hi
      have i0 : 0 ≤ i := by have := hp.nx_nonneg (show 0 ≤ s by omega); omega
      have i1 : i < (E.crd n r).dist.localNrTiles := by
        have := hp.nx_mono (show 0 ≤ e by omega) (show e ≤ (E.crd n r).dist.nrTiles from by
          show e ≤ ((E.pd n).get (E.axis n).orth).dist.nrTiles
          omega)
        rw [hp.nx_all] at this
        omega
      refine ⟨i0, i1, ?_⟩
      rw [hv i _ i0 i1 hl.1 hl.2, hq.gl_lc (by omega) ho']
      rfl
    have hgl : ∀ i ∈ xs, s ≤ (E.crd n r).gl i ∧ (E.crd n r).gl i < e := by
      intro i hi
      have h1 := (hval i hi).1
      rw [hx] at hi
      refine ⟨?_, (hp.lt_nx h1 (by omega)).1 hi.2⟩
      by_contra hc
      have := (hp.lt_nx h1 (show 0 ≤ s by omega)).2 (by omega)
      omega
    refine (LStep.links hE hr (it := it) (n := n) (q := q) (dbg := dbg) xs (fun i => tileAt (E.axis n) i (((E.pd n).at' (E.axis n) r).lc k))
      hnd h0 ?_ ?_ ?_ hno).to ?_
    · intro i hi
      rw [hx] at hi
      have m1 := hp.nx_mono h0 hs
      have m2 := hp.nx_mono (show 0 ≤ e by omega) he
      exact ⟨le_trans m1 hi.1, lt_of_lt_of_le hi.2 m2⟩
    · intro i _
      rw [hf]
    · intro i hi
      rw [(hval i hi).2.2]
      exact hfit _ (hgl i hi).1 (hgl i hi).2
    · rw [hf, ← hp.links_content xs _ (fun t => m (t.toNat, k)) hx (fun i hi => (hval i hi).2.2) (by omega)]
  · rw [if_neg ho, if_neg (fun hc => ho (hown.2 hc))]
    refine (LStep.nil a).to ?_
    rw [← hf]
    exact Abs.setPan_self a n

/-- The broadcast of a panel in all lines of processes. -/
theorem GStep.bcastAll (hE : E.OK) {A : Coord2 → Abs K} {it : Int} (n : Nat) {root : Int} (hroot : 0 ≤ root ∧ root < ((E.pd n).get (E.axis n)).grid) {dbg : Bool}
    {ax s e : Int} (hax : 0 ≤ ax) (hs : 0 ≤ s) (hse : s ≤ e) (he : e ≤ ((E.pd n).get (E.axis n).orth).dist.nrTiles)
    (W : Int → Blk K)
    (hW : ∀ t, s ≤ t → t < e → VPanel.fits (E.tall n) (W t) ax (((E.pd n).get (E.axis n).orth).dist.global_tile_size_of t) = true)
    (hA : ∀ r ∈ E.G, (A r).cur n = ⟨ax, s, e, if r.get (E.axis n) = root then content (E.crd n r) s e W else fun _ => none⟩)
    (ho : E.own n = false := by rfl) :
    GStep E (rrIdx it) (fun r => bcastPanel dbg (E.axis n) ((E.pd n).on r) root (DSt.panel n it) s e) A
      (fun r => (A r).setPan n ⟨ax, s, e, content (E.crd n r) s e W⟩) :=
  ((GStep.bcast hE n hroot (dbg := dbg) (it := it) hax hs hse he (fun _ => true) W hW (fun r hr _ => hA r hr) ho).congr
    (fun r _ => by rw [if_pos rfl])).to (fun r _ => by rw [if_pos rfl])

/-- The panels get the extent of tile `k`. -/
theorem LStep.setDims {it : Int} {n : Nat} {dbg : Bool} {wd : Int} {cond : Prop} [Decidable cond] (h0 : 0 < wd) (h1 : wd ≤ E.tile n)
    (hc : ¬ cond → wd = (a.cur n).ax) (hf : (a.cur n).f = fun _ => none) :
    LStep E r (rrIdx it) (if cond then [(DSt.panel n it).upd fun v => v.setDim dbg wd] else []) a
      (a.setPan n ⟨wd, (a.cur n).s, (a.cur n).e, fun _ => none⟩) := by
  refine .ite (fun h => ?_) (fun h => ?_)
  · exact (LStep.setDim h0 h1 hf).to (by rw [hf])
  · refine (LStep.nil a).to ?_
    rw [hc h, ← hf]
    exact Abs.setPan_self a n

end
end
end DLAF
