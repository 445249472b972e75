import Verif.Lemmas.DistSquare
/- The two-panel broadcast and loops over global tiles, in the global view. -/
namespace DLAF
variable {K : Type*}

theorem DSt.panel_apart {n n' : Nat} (h : n ≠ n') (it : Int) : (DSt.panel (K := K) n it).Apart (DSt.panel n' it) := by
  refine ⟨fun s v => ?_, fun s v => ?_, fun s v w => ?_⟩
  · unfold DSt.panel
    dsimp only
    rw [set1_ne _ _ h]
  · unfold DSt.panel
    dsimp only
    rw [set1_ne _ _ (Ne.symm h)]
  · unfold DSt.panel
    dsimp only
    congr 1
    funext q
    by_cases h1 : q = n
    · subst h1
      rw [set1_same, set1_ne _ _ h, set1_ne _ _ h, set1_same]
    · rw [set1_ne _ _ h1]
      by_cases h2 : q = n'
      · subst h2; rw [set1_same, set1_same, set1_ne _ _ h1]
      · rw [set1_ne _ _ h2, set1_ne _ _ h2, set1_ne _ _ h1]

section
variable {V : VEnv} {a : GV K}

/-- The two-panel broadcast. -/
theorem VStep.bcast2 (hV : V.OK) {it : Int} (n n' : Nat) (hnn : n ≠ n') (hpd : V.E.pd n' = V.E.pd n) (hax' : V.E.axis n' = (V.E.axis n).orth)
    (hsz : (V.E.pd n).row.size = (V.E.pd n).col.size) (hti : (V.E.pd n).row.tile = (V.E.pd n).col.tile)
    {root : Int} (hroot : 0 ≤ root ∧ root < ((V.E.pd n).get (V.E.axis n)).grid) {dbg : Bool}
    {ax axT s e sT eT : Int} (hax : 0 ≤ ax) (haxT : 0 ≤ axT) (hs : 0 ≤ s) (hsT : s ≤ sT) (hseT : sT ≤ eT) (heT : eT ≤ e)
    (he : e ≤ ((V.E.pd n).get (V.E.axis n).orth).dist.nrTiles) (W : Int → Blk K)
    (hW : ∀ t, s ≤ t → t < e → VPanel.fits (V.E.tall n) (W t) ax (((V.E.pd n).get (V.E.axis n).orth).dist.global_tile_size_of t) = true)
    (hWT : ∀ t, sT ≤ t → t < eT → VPanel.fits (V.E.tall n') (W t) axT (((V.E.pd n).get (V.E.axis n)).dist.global_tile_size_of t) = true)
    (hA : ∀ r ∈ V.E.G, a.pan r n = ⟨ax, s, e, if r.get (V.E.axis n) = root then fun t => some (W t) else fun _ => none⟩ ∧
      a.pan r n' = ⟨axT, sT, eT, fun _ => none⟩) (ho : V.E.own n = false) (ho' : V.E.own n' = false)
    (hrg : V.E.ranged = true := by rfl) :
    VStep V (rrIdx it) (fun r => bcastPanels dbg (V.E.axis n) ((V.E.pd n).on r) root (DSt.panel n it) (DSt.panel n' it) s e sT eT) a
      ((a.setPs n fun _ => ⟨ax, s, e, fun t => some (W t)⟩).setPs n' fun _ => ⟨axT, sT, eT, fun t => some (W t)⟩) := by
  intro g hg
  have hG := hV.env.ranks n
  have hcrd : ∀ r, V.E.crd n' r = (V.E.pd n).at' (V.E.axis n) r := fun r => by
    show (V.E.pd n').at' (V.E.axis n').orth r = _
    rw [hpd, hax', orth_orth]
  obtain ⟨g', h1, h2, h3, h4⟩ := bcastPanels_runs (P := V.E.pd n) (axis := V.E.axis n) (hV.env.range hrg n _) (hV.env.range hrg n _) hsz hti hroot
    (DSt.panel_lawful n it) (DSt.panel_lawful n' it) (DSt.panel_apart hnn it) (dbg := dbg) (tall := V.E.tall n) (tallT := V.E.tall n')
    (tile := V.E.tile n) (tileT := V.E.tile n') hax haxT hs hsT hseT heT he W hW hWT (g := g) (hG ▸ hg.clean) (by
      intro r hr
      rw [hG] at hr
      obtain ⟨x1, x2⟩ := hA r hr
      have c1 := (hg.all r hr).inv.cur n
      have c2 := (hg.all r hr).inv.cur n'
      dsimp only at c1 c2
      rw [x1] at c1
      rw [x2, VP.loc_none, hcrd] at c2
      refine ⟨?_, c2⟩
      by_cases hc : r.get (V.E.axis n) = root
      · rw [if_pos hc] at c1 ⊢
        exact c1
      · rw [if_neg hc] at c1 ⊢
        rw [VP.loc_none] at c1
        exact c1)
  rw [hG] at h1 h2 h3 h4
  refine ⟨g', h1, h2, fun r hr => ?_⟩
  obtain ⟨v, w, hvw⟩ := (h3 r).1
  obtain ⟨h5, h6⟩ := h4 r hr
  have hinv := hg.all r hr
  have e1 : (DSt.panel n it).get (g'.st r) = v := by
    rw [hvw, (DSt.panel_apart hnn it).get_left, (DSt.panel_lawful n it).get_set]
  have e2 : (DSt.panel n' it).get (g'.st r) = w := by
    rw [hvw, (DSt.panel_lawful n' it).get_set]
  rw [e1] at h5
  rw [e2] at h6
  have i1 := hinv.inv.setPanel (n := n) (it := it) (d := ⟨ax, s, e, content (V.E.crd n r) s e W⟩) (v := v) h5 fun h => by rw [ho] at h; cases h
  have i2 := i1.setPanel (n := n') (it := it) (d := ⟨axT, sT, eT, content (V.E.crd n' r) sT eT W⟩) (v := w) (by rw [hcrd]; exact h6) fun h => by rw [ho'] at h; cases h
  rw [← hvw] at i2
  have hm : (g'.st r).mat = (g.st r).mat := i2.mat
  refine ⟨?_, fun q z hz => by rw [hm]; exact hinv.mat q z hz⟩
  have : (⟨(g'.st r).mat, fun q => (((a.setPs n fun _ => ⟨ax, s, e, fun t => some (W t)⟩).setPs n' fun _ => ⟨axT, sT, eT, fun t => some (W t)⟩).pan r q).loc (V.E.crd q r)⟩ : Abs K) =
      Abs.setPan (Abs.setPan ⟨(g.st r).mat, fun q => (a.pan r q).loc (V.E.crd q r)⟩ n ⟨ax, s, e, content (V.E.crd n r) s e W⟩) n' ⟨axT, sT, eT, content (V.E.crd n' r) sT eT W⟩ := by
    unfold Abs.setPan GV.setPs
    dsimp only
    rw [hm]
    congr 1
    funext q
    by_cases hq : q = n'
    · subst hq
      rw [set1_same, set1_same, VP.loc_content]
    · rw [set1_ne _ _ hq, set1_ne _ _ hq]
      by_cases hq1 : q = n
      · subst hq1
        rw [set1_same, set1_same, VP.loc_content]
      · rw [set1_ne _ _ hq1, set1_ne _ _ hq1]
  rw [this]
  exact i2
end

section
variable {P : Params2} {A : Nat → PanKind} {m : Nat → Tiles K} {rest : Coord2 → Nat → VP K} {L : List (Coord2 → VP K)} {w : Bool}

/-- Process `r` owns tile `t`. -/
def Params2.Owns (P : Params2) (r : Coord2) (t : Nat × Nat) : Prop := P.row.dist.rank_global_tile t.1 = r.row ∧ P.col.dist.rank_global_tile t.2 = r.col

theorem sq_owns (h : SquareDist P) {r : Coord2} (hr : r ∈ P.ranks) {q : Nat} {z : Coord2} (hz : (sqEnv P A).In q r z) : P.Owns r ((sqEnv P A).g q r z) := by
  have pr := h.plainAt .Row hr
  have pc := h.plainAt .Col hr
  have o1 := pr.gl_own hz.1.1
  have o2 := pc.gl_own hz.2.1
  have a1 := pr.gl_nonneg hz.1.1
  have a2 := pc.gl_nonneg hz.2.1
  refine ⟨?_, ?_⟩
  · show (P.at' .Row r).dist.rank_global_tile (((P.at' .Row r).gl z.row).toNat : Int) = _
    rw [Int.toNat_of_nonneg a1]
    exact o1
  · show (P.at' .Col r).dist.rank_global_tile (((P.at' .Col r).gl z.col).toNat : Int) = _
    rw [Int.toNat_of_nonneg a2]
    exact o2

/-- The local tile of an owned tile. -/
theorem sq_local (h : SquareDist P) {r : Coord2} (hr : r ∈ P.ranks) {q : Nat} {t : Nat × Nat} (h1 : t.1 < P.nt) (h2 : t.2 < P.nt) (ho : P.Owns r t) :
    (sqEnv P A).In q r ⟨(P.at' .Row r).lc t.1, (P.at' .Col r).lc t.2⟩ ∧ (sqEnv P A).g q r ⟨(P.at' .Row r).lc t.1, (P.at' .Col r).lc t.2⟩ = t := by
  have pr := h.plainAt .Row hr
  have pc := h.plainAt .Col hr
  have nr : (P.at' .Row r).dist.nrTiles = P.nt := h.nrTiles .Row
  have nc : (P.at' .Col r).dist.nrTiles = P.nt := h.nrTiles .Col
  refine ⟨⟨pr.lc_bounds (by omega) (by omega) ho.1, pc.lc_bounds (by omega) (by omega) ho.2⟩, ?_⟩
  show (((P.at' .Row r).gl ((P.at' .Row r).lc t.1)).toNat, ((P.at' .Col r).gl ((P.at' .Col r).lc t.2)).toNat) = _
  rw [pr.gl_lc (by omega) ho.1, pc.gl_lc (by omega) ho.2]
  rfl

/-- A loop over global tiles, in which a process works on its own ones. -/
theorem sq_gtasks (h : SquareDist P) {r : Coord2} (hr : r ∈ P.ranks) (q : Nat) {x y : Tiles K} (ts : List (Nat × Nat)) (ops : Nat × Nat → List (DSt K → Option (DSt K)))
    {S S' : Nat × Nat → Prop} [DecidablePred S] [DecidablePred S'] (hnd : ts.Nodup) (hS : ∀ t ∈ ts, ¬ S t) (hS' : ∀ t, S' t ↔ S t ∨ t ∈ ts)
    (hno : ∀ t ∈ ts, ¬ P.Owns r t → ops t = [])
    (hop : ∀ t ∈ ts, P.Owns r t → ∀ c : Tiles K, c t = x t →
      VL (sqEnv P A) r w (ops t) (GV.ofL (set1 m q c) rest L) ((GV.ofL (set1 m q c) rest L).setT q t (y t))) :
    VL (sqEnv P A) r w (ts.flatMap ops) (GV.ofL (set1 m q (mixT S x y)) rest L) (GV.ofL (set1 m q (mixT S' x y)) rest L) := by
  classical
  refine ((VL.list ts ops (fun pre => GV.ofL (set1 m q (mixT (fun t => S t ∨ t ∈ pre) x y)) rest L) ?_).frm ?_).to ?_
  · intro pre t post e
    have hmem : t ∈ ts := by rw [e]; simp
    have hnp : t ∉ pre := by
      rw [e] at hnd
      have := List.nodup_append.1 hnd
      intro hc
      exact this.2.2 t hc t (by simp) rfl
    by_cases ho : P.Owns r t
    · refine (hop t hmem ho _ (if_neg ?_)).to ⟨fun n z hz => ?_, fun n => rfl⟩
      · rintro (hc | hc)
        · exact hS t hmem hc
        · exact hnp hc
      show set1 (set1 m q _) q (set1 (set1 m q _ q) t (y t)) n _ = set1 m q _ n _
      rw [set1_set1]
      by_cases hn : n = q
      · subst hn
        rw [set1_same, set1_same, set1_same]
        unfold set1 mixT
        by_cases ht : (sqEnv P A).g n r z = t
        · rw [if_pos ht, if_pos (by rw [ht]; simp), ht]
        · rw [if_neg ht]
          refine if_congr ?_ rfl rfl
          simp [ht]
      · rw [set1_ne _ _ hn, set1_ne _ _ hn]
    · rw [hno t hmem ho]
      refine (VL.nil _).to (GV.ofL_mat fun n z hz => ?_)
      by_cases hn : n = q
      · subst hn
        rw [set1_same, set1_same]
        unfold mixT
        have ht : (sqEnv P A).g n r z ≠ t := fun hc => ho (hc ▸ sq_owns h hr hz)
        refine if_congr ?_ rfl rfl
        simp [ht]
      · rw [set1_ne _ _ hn, set1_ne _ _ hn]
  · refine GV.ofL_mat fun n z hz => ?_
    by_cases hn : n = q
    · subst hn
      rw [set1_same, set1_same]
      unfold mixT
      refine if_congr ?_ rfl rfl
      simp
    · rw [set1_ne _ _ hn, set1_ne _ _ hn]
  · refine GV.ofL_mat fun n z hz => ?_
    by_cases hn : n = q
    · subst hn
      rw [set1_same, set1_same]
      unfold mixT
      exact if_congr (hS' _).symm rfl rfl
    · rw [set1_ne _ _ hn, set1_ne _ _ hn]
end
end DLAF
