import Verif.Lemmas.DistElem
import Verif.Model.TFactor
/- Collectives on light panels, with what the panels hold before and after. -/
namespace DLAF

/-- The process of rank `t` in the communicator along `axis` of the processes whose other coordinate is `q`. -/
def mkRank (axis : Coord) (t q : Int) : Coord2 :=
  match axis with
  | .Row => ⟨t, q⟩
  | .Col => ⟨q, t⟩

theorem mkRank_eq (axis : Coord) (t : Int) (r : Coord2) : (panelChan axis r).rankOf t = mkRank axis t (r.get axis.orth) := by
  cases axis <;> rfl

theorem mkRank_get (axis : Coord) (t q : Int) : (mkRank axis t q).get axis = t ∧ (mkRank axis t q).get axis.orth = q := by
  cases axis <;> exact ⟨rfl, rfl⟩

theorem mkRank_self (axis : Coord) (r : Coord2) : mkRank axis (r.get axis) (r.get axis.orth) = r := by
  cases axis <;> rfl

section
variable {S K : Type*} [Field K] [StarRing K] {P : Params2} {axis : Coord} {R : ERef S K}

omit [Field K] [StarRing K] in
theorem mkRank_mem {r : Coord2} (hr : r ∈ P.ranks) {t : Int} (h0 : 0 ≤ t) (h1 : t < (P.get axis).grid) : mkRank axis t (r.get axis.orth) ∈ P.ranks := by
  have a := mkRank_get axis t (r.get axis.orth)
  refine P.mem_ranks' axis (by rw [a.1]; exact ⟨h0, h1⟩) ?_
  rw [a.2]
  exact Params2.mem_ranks.1 hr _

/-- Broadcast of the tiles `xs` of a panel. -/
theorem bcast_tiles (hR : R.OK) {g : Glob S (Blk K)} (hc : Clean P.ranks g) {root : Int} (hroot : 0 ≤ root ∧ root < (P.get axis).grid)
    (sz : Coord2 → Int → Nat × Nat) (SZ : Int → Int → Nat × Nat) (xs : Int → List Int)
    (hs : ∀ r ∈ P.ranks, ∀ i ∈ xs (r.get axis.orth), sz r i = SZ (r.get axis.orth) i)
    (hW : ∀ r ∈ P.ranks, r.get axis = root → ∀ i ∈ xs (r.get axis.orth), ∃ w, R.get (g.st r) i = some w ∧
      w.rows = (SZ (r.get axis.orth) i).1 ∧ w.cols = (SZ (r.get axis.orth) i).2) :
    ∃ g', Runs (fun r => if r ∈ P.ranks then bcastTiles axis (P.on r) root R (sz r) (xs (r.get axis.orth)) else []) g g' ∧ Clean P.ranks g' ∧
      ∀ r ∈ P.ranks, ∃ p, g'.st r = R.set (g.st r) p ∧ (∀ i ∈ xs (r.get axis.orth),
        p i = R.get (g.st (mkRank axis root (r.get axis.orth))) i) ∧ ∀ i, i ∉ xs (r.get axis.orth) → p i = R.get (g.st r) i := by
  have key : ∀ r ∈ P.ranks, ∀ i ∈ xs (r.get axis.orth), ∃ w, R.get (g.st (mkRank axis root (r.get axis.orth))) i = some w ∧
      w.rows = (SZ (r.get axis.orth) i).1 ∧ w.cols = (SZ (r.get axis.orth) i).2 := by
    intro r hr i hi
    have e := mkRank_get axis root (r.get axis.orth)
    have := hW _ (mkRank_mem hr hroot.1 hroot.2) e.1 i (by rw [e.2]; exact hi)
    rwa [e.2] at this
  obtain ⟨g', h1, h2, h3⟩ := bcastTiles_runs hR hc hroot sz xs
    (fun q i => (R.get (g.st (mkRank axis root q)) i).getD (Blk.zero 0 0)) (by
      intro r hr he i hi
      obtain ⟨w, w1, _⟩ := key r hr i hi
      have : mkRank axis root (r.get axis.orth) = r := by rw [← he, mkRank_self]
      rw [this] at w1 ⊢
      rw [w1]; rfl) (by
      intro r hr i hi
      obtain ⟨w, w1, w2⟩ := key r hr i hi
      beta_reduce
      rw [w1, hs r hr i hi]
      exact w2)
  refine ⟨g', h1, h2, fun r hr => ⟨_, h3 r hr, fun i hi => ?_, fun i hi => ?_⟩⟩
  · obtain ⟨w, w1, _⟩ := key r hr i hi
    beta_reduce
    rw [if_pos hi, w1]
    rfl
  · beta_reduce
    rw [if_neg hi]

/-- Sum of the tiles `xs` of a panel over the processes of the communicators; nothing is sent on a line of one process. -/
theorem allReduce_tiles (hR : R.OK) {g : Glob S (Blk K)} (hc : Clean P.ranks g)
    (sz : Coord2 → Int → Nat × Nat) (SZ : Int → Int → Nat × Nat) (xs : Int → List Int) (hnd : ∀ q, (xs q).Nodup)
    (hs : ∀ r ∈ P.ranks, ∀ i ∈ xs (r.get axis.orth), sz r i = SZ (r.get axis.orth) i)
    (hU : ∀ r ∈ P.ranks, ∀ i ∈ xs (r.get axis.orth), ∃ u, R.get (g.st r) i = some u ∧
      u.rows = (SZ (r.get axis.orth) i).1 ∧ u.cols = (SZ (r.get axis.orth) i).2) :
    ∃ g', Runs (fun r => if r ∈ P.ranks then if 1 < (P.get axis).grid then allReduceTiles axis (P.on r) R (sz r) (xs (r.get axis.orth)) else [] else []) g g' ∧
      Clean P.ranks g' ∧
      ∀ r ∈ P.ranks, ∃ p, g'.st r = R.set (g.st r) p ∧ (∀ i ∈ xs (r.get axis.orth), ∃ f,
        p i = some ⟨(SZ (r.get axis.orth) i).1, (SZ (r.get axis.orth) i).2, f⟩ ∧
        ∀ x y, f x y = ((irange 0 (P.get axis).grid).map fun t =>
          ((R.get (g.st (mkRank axis t (r.get axis.orth))) i).getD (Blk.zero 0 0)).e x y).sum) ∧
        ∀ i, i ∉ xs (r.get axis.orth) → p i = R.get (g.st r) i := by
  by_cases hg : 1 < (P.get axis).grid
  · simp only [if_pos hg]
    have key : ∀ r ∈ P.ranks, ∀ i ∈ xs (r.get axis.orth), ∀ t ∈ irange 0 (P.get axis).grid,
        ∃ u, R.get (g.st (mkRank axis t (r.get axis.orth))) i = some u ∧
          u.rows = (SZ (r.get axis.orth) i).1 ∧ u.cols = (SZ (r.get axis.orth) i).2 := by
      intro r hr i hi t ht
      rw [mem_irange] at ht
      have e := mkRank_get axis t (r.get axis.orth)
      have := hU _ (mkRank_mem hr ht.1 ht.2) i (by rw [e.2]; exact hi)
      rwa [e.2] at this
    obtain ⟨t0, ts, hts⟩ : ∃ t0 ts, irange 0 (P.get axis).grid = t0 :: ts := by
      cases h : irange 0 (P.get axis).grid with
      | nil =>
        have : (0 : Int) ∈ irange 0 (P.get axis).grid := mem_irange.2 ⟨le_refl _, by omega⟩
        rw [h] at this
        exact absurd this (List.not_mem_nil)
      | cons a l => exact ⟨a, l, rfl⟩
    obtain ⟨g', h1, h2, h3⟩ := allReduceTiles_runs hR hc sz xs hnd (fun r i => (R.get (g.st r) i).getD (Blk.zero 0 0))
      (fun q i => ⟨(SZ q i).1, (SZ q i).2, fun x y => ((irange 0 (P.get axis).grid).map fun t =>
          ((R.get (g.st (mkRank axis t q)) i).getD (Blk.zero 0 0)).e x y).sum⟩) (by
        intro r hr i hi
        obtain ⟨u, u1, _⟩ := hU r hr i hi
        beta_reduce
        rw [u1]; rfl) (by
        intro r hr i hi
        have e : ((irange 0 (P.get axis).grid).map fun t => (R.get (g.st ((panelChan axis r).rankOf t)) i).getD (Blk.zero 0 0)) =
            (irange 0 (P.get axis).grid).map fun t => (⟨(SZ (r.get axis.orth) i).1, (SZ (r.get axis.orth) i).2,
              ((R.get (g.st (mkRank axis t (r.get axis.orth))) i).getD (Blk.zero 0 0)).e⟩ : Blk K) := by
          refine List.map_congr_left fun t ht => ?_
          obtain ⟨u, u1, u2, u3⟩ := key r hr i hi t ht
          rw [mkRank_eq, u1, ← u2, ← u3]
          rfl
        beta_reduce
        rw [e, hts, sumBlk_exact]) (by
        intro r hr i hi
        rw [hs r hr i hi]
        exact ⟨rfl, rfl⟩)
    refine ⟨g', h1, h2, fun r hr => ⟨_, h3 r hr, fun i hi => ⟨_, by beta_reduce; rw [if_pos hi], fun x y => rfl⟩, fun i hi => ?_⟩⟩
    beta_reduce
    rw [if_neg hi]
  · refine ⟨g, .nil (fun r => by simp [if_neg hg]) g, hc, fun r hr => ⟨R.get (g.st r), (hR.set_get _).symm, fun i hi => ?_, fun i _ => rfl⟩⟩
    obtain ⟨u, u1, u2, u3⟩ := hU r hr i hi
    have hb := Params2.mem_ranks.1 hr axis
    have h1 : (P.get axis).grid = 1 := by omega
    have h0 : r.get axis = 0 := by omega
    refine ⟨u.e, by rw [u1, ← u2, ← u3], fun x y => ?_⟩
    have e : irange 0 1 = [(0 : Int)] := rfl
    rw [h1, e, List.map_cons, List.map_nil, List.sum_singleton]
    have := mkRank_self axis r
    rw [h0] at this
    rw [this, u1]
    rfl

end
end DLAF
