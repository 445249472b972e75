import Verif.Model.DistSolver
import Verif.Lemmas.DistView
/- Panels whose tiles are accumulators, and their reduction. -/
namespace DLAF
variable {K : Type*}

section
variable {p : Params} {tall : Bool} {tile ax s e : Int} {f : Int → Option (Blk K)} {v : VPanel K} {dbg : Bool}

/-- `readwrite` of an internal tile. -/
theorem PanelIs.rw (h : PanelIs p tall tile ax s e f v) (hx : NoExt v) (hp : Tiled p) (hax : 0 ≤ ax) (hs : 0 ≤ s) {i : Int}
    (hi : InRange p s e i) : v.p.readwrite dbg i = some ({ v.p with used := true, internal := i.toNat :: v.p.internal }, .tile i.toNat ax (tsz p i)) := by
  obtain ⟨b1, b2⟩ := hi.bounds hp hs h.rng.2 h.rng.1
  unfold Panel.readwrite
  rw [h.linear hp hs hi, Option.bind_some, if_neg (by rw [hx]; simp)]
  dsimp only
  rw [internalTile_eq (q := { v.p with used := true, internal := i.toNat :: v.p.internal }) hp hax h.dist h.axis h.data
      h.dim h.off b1 b2, Option.map_some]

theorem PanelIs.put (h : PanelIs p tall tile ax s e f v) (hx : NoExt v) (hp : Tiled p) (hs : 0 ≤ s) {i : Int}
    (hi : InRange p s e i) {b : Blk K} (hb : VPanel.fits tall b ax (tsz p i) = true) :
    PanelIs p tall tile ax s e (set1 f i (some b))
      { v with p := { v.p with used := true, internal := i.toNat :: v.p.internal }, mem := set1 v.mem i.toNat (some b) } := by
  obtain ⟨b1, b2⟩ := hi.bounds hp hs h.rng.2 h.rng.1
  refine ⟨h.dist, h.axis, h.tallEq, h.data, h.bias, h.len, h.dim, h.off, h.start, h.stop, h.startLocal,
    h.stopLocal, h.rng, fun _ => ⟨i, by simp⟩, ?_, ?_, ?_⟩
  · intro j hj
    by_cases hji : j = i
    · subst hji; exact ⟨b1, b2⟩
    · rw [set1_ne _ _ hji] at hj; exact h.supp j hj
  · intro j h1 h2 hj
    have hji : j ≠ i := by rintro rfl; simp at hj
    rw [set1_ne _ _ hji] at hj
    have hne : j.toNat ≠ i.toNat := by omega
    have := h.empty j h1 h2 hj
    exact ⟨this.1, by simp [hne, this.2.1], by dsimp only; rw [set1_ne _ _ hne]; exact this.2.2⟩
  · intro j c h1 h2 hj
    by_cases hji : j = i
    · subst hji
      rw [set1_same, Option.some.injEq] at hj
      subst hj
      exact ⟨hb, Or.inr ⟨hx _, by simp⟩⟩
    · rw [set1_ne _ _ hji] at hj
      have hne : j.toNat ≠ i.toNat := by omega
      dsimp only
      rw [set1_ne _ _ hne]
      exact h.full j c h1 h2 hj

/-- A task on an internal tile. -/
theorem PanelIs.modify (h : PanelIs p tall tile ax s e f v) (hx : NoExt v) (hp : Tiled p) (hax : 0 ≤ ax) (hs : 0 ≤ s) {i : Int}
    (hi : InRange p s e i) {b c : Blk K} (hf : f i = some b) {g : Blk K → Option (Blk K)} (hg : g b = some c)
    (hc : VPanel.fits tall c ax (tsz p i) = true) :
    ∃ v', v.modify dbg i g = some v' ∧ PanelIs p tall tile ax s e (set1 f i (some c)) v' ∧ NoExt v' := by
  obtain ⟨b1, b2⟩ := hi.bounds hp hs h.rng.2 h.rng.1
  obtain ⟨hb, hm⟩ := h.full i b b1 b2 hf
  have hm : v.mem i.toNat = some b := by
    rcases hm with hm | hm
    · rw [hx] at hm; cases hm
    · exact hm.2
  refine ⟨_, by
    unfold VPanel.modify
    rw [h.rw hx hp hax hs hi, Option.bind_some]
    dsimp only
    rw [hm, Option.bind_some, h.tallEq, if_pos hb, hg, Option.bind_some, if_pos hc], ?_, ?_⟩
  · have := h.put hx hp hs hi hc
    rw [h.tallEq] at this
    exact this
  · exact hx

end

theorem zeroTile_fits [Field K] {tall : Bool} {ax co : Int} (h1 : 0 ≤ ax) (h2 : 0 ≤ co) : VPanel.fits tall (zeroTile (K := K) tall ax co) ax co = true := by
  unfold zeroTile VPanel.fits
  cases tall <;> simp <;> omega

section
variable [Field K] {p : Params} {tall : Bool} {tile ax s e : Int} {f : Int → Option (Blk K)} {v : VPanel K} {dbg : Bool}

theorem PanelIs.set0 (h : PanelIs p tall tile ax s e f v) (hx : NoExt v) (hp : Tiled p) (hax : 0 ≤ ax) (hs : 0 ≤ s) {i : Int}
    (hi : InRange p s e i) (hz : 0 ≤ tsz p i) :
    ∃ v', v.set0 dbg i = some v' ∧ PanelIs p tall tile ax s e (set1 f i (some (zeroTile tall ax (tsz p i)))) v' ∧ NoExt v' := by
  refine ⟨_, by
    unfold VPanel.set0
    rw [h.rw hx hp hax hs hi, Option.bind_some], ?_, ?_⟩
  · have := h.put hx hp hs hi (zeroTile_fits (K := K) (tall := tall) hax hz)
    rw [h.tallEq]
    rw [h.tallEq] at this
    exact this
  · exact hx

end

section
variable {E : DEnv} {r : Coord2} {a : Abs K}

theorem LStep.own {it : Int} {n : Nat} {d : PanD K} {f : VPanel K → Option (VPanel K)} (ho : E.own n = true)
    (hf : ∀ v, PanelIs (E.crd n r) (E.tall n) (E.tile n) (a.cur n).ax (a.cur n).s (a.cur n).e (a.cur n).f v → NoExt v → ∃ v', f v = some v' ∧
      PanelIs (E.crd n r) (E.tall n) (E.tile n) d.ax d.s d.e d.f v' ∧ NoExt v') :
    LStep E r (rrIdx it) [(DSt.panel n it).upd f] a (a.setPan n d) := by
  refine .one fun x hx => ?_
  obtain ⟨v', e, hv', hn⟩ := hf _ (hx.cur n) (hx.own n ho)
  exact ⟨_, upd_some e, hx.setPanel hv' fun _ => hn⟩

theorem LStep.start {w : Bool} {b c : Abs K} {fs : List (DSt K → Option (DSt K))} (h : LStep E r w fs a b) (e : c = a) : LStep E r w fs c b := e ▸ h

/-- `set0` of tiles of a panel. -/
theorem LStep.set0s [Field K] (hE : E.OK) (hr : r ∈ E.G) {it : Int} {n : Nat} {dbg : Bool} (ho : E.own n = true) (xs : List Int)
    (hs : 0 ≤ (a.cur n).s) (hax : 0 ≤ (a.cur n).ax) (hi : ∀ i ∈ xs, InRange (E.crd n r) (a.cur n).s (a.cur n).e i ∧ 0 ≤ tsz (E.crd n r) i) :
    LStep E r (rrIdx it) (xs.map fun j => (DSt.panel n it).upd fun v => v.set0 dbg j) a
      (a.setPan n ⟨(a.cur n).ax, (a.cur n).s, (a.cur n).e,
        fun i => if i ∈ xs then some (zeroTile (E.tall n) (a.cur n).ax (tsz (E.crd n r) i)) else (a.cur n).f i⟩) := by
  rw [List.map_eq_flatMap]
  refine LStep.start (LStep.list xs (fun j => [(DSt.panel n it).upd fun v => v.set0 dbg j]) (fun pre : List Int => a.setPan n ⟨(a.cur n).ax, (a.cur n).s, (a.cur n).e,
        fun i => if i ∈ pre then some (zeroTile (E.tall n) (a.cur n).ax (tsz (E.crd n r) i)) else (a.cur n).f i⟩) ?_) ?_
  · intro pre i post hx
    have himem : i ∈ xs := by rw [hx]; simp
    obtain ⟨k1, k2⟩ := hi i himem
    refine LStep.to (LStep.own (n := n) (d := ⟨(a.cur n).ax, (a.cur n).s, (a.cur n).e,
        set1 (fun i => if i ∈ pre then some (zeroTile (E.tall n) (a.cur n).ax (tsz (E.crd n r) i)) else (a.cur n).f i) i
          (some (zeroTile (E.tall n) (a.cur n).ax (tsz (E.crd n r) i)))⟩) ho ?_) ?_
    · intro v hv hn
      rw [Abs.setPan_same] at hv
      exact hv.set0 hn (hE.crd n hr) hax hs k1 k2
    · unfold Abs.setPan
      dsimp only
      rw [set1_set1]
      congr 2
      congr 1
      funext j
      simp only [set1, List.mem_append, List.mem_singleton]
      by_cases hji : j = i
      · subst hji; simp
      · simp [hji]
  · simp only [List.not_mem_nil, if_false]
    exact (Abs.setPan_self a n).symm

/-- Contributions to the tiles of a panel: `pj x` is the tile to which `x` contributes. -/
theorem LStep.accum {w : Bool} {n : Nat} {X : Type*} (xs : List X) (op : X → DSt K → Option (DSt K)) (pj : X → Int) (F : X → Blk K → Option (Blk K))
    (hop : ∀ x ∈ xs, ∀ g v v', g (pj x) = some v → F x v = some v' →
      LStep E r w [op x] (a.setPan n ⟨(a.cur n).ax, (a.cur n).s, (a.cur n).e, g⟩)
        (a.setPan n ⟨(a.cur n).ax, (a.cur n).s, (a.cur n).e, set1 g (pj x) (some v')⟩))
    (hfin : ∀ x ∈ xs, ∃ v u, (a.cur n).f (pj x) = some v ∧ (xs.filter fun y => pj y = pj x).foldlM (fun v y => F y v) v = some u) :
    LStep E r w (xs.map op) a (a.setPan n ⟨(a.cur n).ax, (a.cur n).s, (a.cur n).e,
      fun j => ((a.cur n).f j).bind fun v => (xs.filter fun y => pj y = j).foldlM (fun v y => F y v) v⟩) := by
  rw [List.map_eq_flatMap]
  refine LStep.start (LStep.list xs (fun x => [op x]) (fun pre : List X => a.setPan n ⟨(a.cur n).ax, (a.cur n).s, (a.cur n).e,
      fun j => ((a.cur n).f j).bind fun v => (pre.filter fun y => pj y = j).foldlM (fun v y => F y v) v⟩) ?_) ?_
  · intro pre x post hx
    have hm : x ∈ xs := by rw [hx]; simp
    obtain ⟨v, u, h1, h2⟩ := hfin x hm
    rw [hx, List.filter_append, List.filter_cons_of_pos (by simp), List.foldlM_append, Option.bind_eq_bind, Option.bind_eq_some_iff] at h2
    obtain ⟨v1, h3, h4⟩ := h2
    rw [List.foldlM_cons, Option.bind_eq_bind, Option.bind_eq_some_iff] at h4
    obtain ⟨v2, h5, _⟩ := h4
    refine LStep.to (hop x hm _ v1 v2 ?_ h5) ?_
    · rw [h1, Option.bind_some]
      exact h3
    · congr 2
      funext j
      unfold set1
      by_cases hj : j = pj x
      · subst hj
        rw [if_pos rfl, h1, Option.bind_some, List.filter_append, List.foldlM_append, h3]
        simp [h5]
      · rw [if_neg hj, List.filter_append, List.filter_cons_of_neg (by simpa using fun h => hj h.symm)]
        simp
  · simp only [List.filter_nil, List.foldlM_nil]
    rw [show (fun j => ((a.cur n).f j).bind fun v => (pure v : Option (Blk K))) = (a.cur n).f from by funext j; cases (a.cur n).f j <;> rfl]
    exact (Abs.setPan_self a n).symm

end

/-- Replacing one tile of the contents. -/
theorem content_set (hp : p.Valid) {s e t : Int} (hs : 0 ≤ s) (hst : s ≤ t) (hte : t < e) (W W' : Int → Blk K)
    (ho : p.dist.rank_global_tile t = p.rank) (hW : ∀ x, x ≠ t → W' x = W x) :
    set1 (content p s e W) (p.dist.local_tile_from_global_tile t) (some (W' t)) = content p s e W' := by
  have h1 := content_some hp hs hst hte W' ho
  have h2 := content_some hp hs hst hte W ho
  funext i
  unfold set1
  by_cases hi : i = p.dist.local_tile_from_global_tile t
  · rw [if_pos hi, hi]
    exact h1.1.symm
  · rw [if_neg hi]
    unfold content
    by_cases hr : p.dist.next_local_tile_from_global_tile s ≤ i ∧ i < p.dist.next_local_tile_from_global_tile e
    · rw [if_pos hr, if_pos hr, hW]
      intro hg
      apply hi
      have h0 : 0 ≤ p.dist.next_local_tile_from_global_tile s := (hp.wf.cyc.next_local_nonneg hs)
      rw [← hg]
      exact (hp.wf.cyc.global_local (by omega)).2.2.symm
    · rw [if_neg hr, if_neg hr]

section
variable {S : Type*} [Field K]

/-- The reduction of a panel: the tiles `W q t` of the processes at `q` along the axis are added at `root`. -/
theorem reducePanel_runs {P : Params2} {axis : Coord} (hP : Tiled (P.get axis.orth)) {root : Int}
    (hroot : 0 ≤ root ∧ root < (P.get axis).grid) {R : PRef S K} (hR : R.Lawful) {dbg tall : Bool} {tile ax s e : Int}
    (hax : 0 ≤ ax) (hs : 0 ≤ s) (hse : s ≤ e) (W : Int → Int → Blk K) (Z : Int → Blk K)
    (hZ : ∀ t, s ≤ t → t < e → sumBlk ((irange 0 (P.get axis).grid).map fun q => W q t) = some (Z t))
    (hf : ∀ t, s ≤ t → t < e → VPanel.fits tall (Z t) ax ((P.get axis.orth).dist.global_tile_size_of t) = true)
    {g : Glob S (Blk K)} (hc : Clean P.ranks g)
    (h0 : ∀ r ∈ P.ranks, PanelIs (P.at' axis.orth r) tall tile ax s e (content (P.at' axis.orth r) s e (W (r.get axis))) (R.get (g.st r)) ∧
      NoExt (R.get (g.st r))) :
    ∃ g', Runs (fun r => if r ∈ P.ranks then reducePanel dbg axis (P.on r) root R s e else []) g g' ∧ Clean P.ranks g' ∧
      (∀ r, OnlyPanel R (g.st r) (g'.st r) ∧ (r ∉ P.ranks → g'.st r = g.st r)) ∧
      ∀ r ∈ P.ranks, PanelIs (P.at' axis.orth r) tall tile ax s e
        (content (P.at' axis.orth r) s e (if r.get axis = root then Z else W (r.get axis))) (R.get (g'.st r)) ∧ NoExt (R.get (g'.st r)) := by
  have hG := P.ranks_nodup
  -- the range check
  have hA : Runs (fun r => if r ∈ P.ranks then [Instr.loc (R.hasRange s e)] else []) g g := by
    have h := Runs.loc (V := Blk K) (g := g) (L := P.ranks) hG
      (fun _ => R.hasRange s e) g.st (fun r => rfl) (by
        intro r hr
        have h1 := (h0 r hr).1
        unfold PRef.hasRange
        rw [if_pos ⟨h1.start, h1.stop⟩])
    simp only [ite_self] at h
    exact h
  by_cases hg1 : (P.get axis).grid ≤ 1
  · refine ⟨g, hA.congr ?_, hc, fun r => ⟨.refl hR _, fun _ => rfl⟩, ?_⟩
    · intro r
      by_cases hr : r ∈ P.ranks
      · rw [if_pos hr, if_pos hr]
        unfold reducePanel
        dsimp only
        rw [if_pos (by rw [P.on_get]; exact hg1), List.append_nil]
      · rw [if_neg hr, if_neg hr]
    · intro r hr
      refine ⟨?_, (h0 r hr).2⟩
      have h1 := (h0 r hr).1
      have hb := (Params2.mem_ranks.1 hr axis)
      have hg : (P.get axis).grid = 1 := by omega
      rw [if_pos (by omega)]
      have : content (P.at' axis.orth r) s e Z = content (P.at' axis.orth r) s e (W (r.get axis)) := by
        have hpl := (Params2.tiled hP hr)
        funext i
        unfold content
        split
        · rename_i hi
          have hi0 : 0 ≤ i := by have := hpl.nx_nonneg hs; have q : (P.at' axis.orth r).nx s = (P.at' axis.orth r).dist.next_local_tile_from_global_tile s := rfl; omega
          have hgl0 := hpl.gl_nonneg hi0
          have hlt := (hpl.lt_nx hi0 (s := e) (by omega)).1 hi.2
          have hge : s ≤ (P.at' axis.orth r).gl i := by
            by_contra hc'
            have h2 := (hpl.lt_nx hi0 (s := s) hs).2 (by omega)
            have q : (P.at' axis.orth r).nx s = (P.at' axis.orth r).dist.next_local_tile_from_global_tile s := rfl
            omega
          have hz := hZ _ hge hlt
          rw [hg, show irange 0 1 = [0] from rfl] at hz
          simp only [List.map_cons, List.map_nil, sumBlk, List.foldlM_nil] at hz
          rw [show r.get axis = 0 by omega]
          have hz' : W 0 ((P.at' axis.orth r).gl i) = Z ((P.at' axis.orth r).gl i) := by
            injection hz
          exact congrArg some hz'.symm
        · rfl
      rw [this]
      exact h1
  · -- tile by tile
    let V : Int → Int → Int → Blk K := fun t q x => if q = root ∧ x < t then Z x else W q x
    let I : Int → Glob S (Blk K) → Prop := fun t g' =>
      Clean P.ranks g' ∧ (∀ r, OnlyPanel R (g.st r) (g'.st r) ∧ (r ∉ P.ranks → g'.st r = g.st r)) ∧
      ∀ r ∈ P.ranks, PanelIs (P.at' axis.orth r) tall tile ax s e (content (P.at' axis.orth r) s e (V t (r.get axis))) (R.get (g'.st r)) ∧
        NoExt (R.get (g'.st r))
    let take : Coord2 → Int → S → List (Blk K) → Option S := fun r t st vs =>
      (sumBlk vs).bind fun b => R.upd (fun v => v.modify dbg ((P.at' axis.orth r).dist.local_tile_from_global_tile t) fun _ => some b) st
    let F : Int → Coord2 → List (Instr S (Blk K)) := fun t r =>
      if r ∈ P.ranks then
        if (P.get axis.orth).dist.rank_global_tile t = r.get axis.orth then
          [.post (panelChan axis r) (R.read dbg ((P.at' axis.orth r).dist.local_tile_from_global_tile t))] ++
          if r.get axis = root then
            [.take (panelChan axis r) (.reduce root) ((irange 0 (P.get axis).grid).map (panelChan axis r).rankOf) (take r t)]
          else [.take (panelChan axis r) (.reduce root) [] fun s _ => some s]
        else []
      else []
    obtain ⟨g', hrun, hc', h1, h2⟩ := Runs.range (p := F) hse I (g := g) (by
        refine ⟨hc, fun r => ⟨.refl hR _, fun _ => rfl⟩, ?_⟩
        intro r hr
        refine ⟨?_, (h0 r hr).2⟩
        have : content (P.at' axis.orth r) s e (V s (r.get axis)) = content (P.at' axis.orth r) s e (W (r.get axis)) := by
          have hpl := (Params2.tiled hP hr)
          funext i
          unfold content
          split
          · rename_i hi
            have hi0 : 0 ≤ i := by have := hpl.nx_nonneg hs; have q : (P.at' axis.orth r).nx s = (P.at' axis.orth r).dist.next_local_tile_from_global_tile s := rfl; omega
            have hge : s ≤ (P.at' axis.orth r).gl i := by
              by_contra hc'
              have h2 := (hpl.lt_nx hi0 (s := s) hs).2 (by omega)
              have q : (P.at' axis.orth r).nx s = (P.at' axis.orth r).dist.next_local_tile_from_global_tile s := rfl
              omega
            simp only [V]
            rw [if_neg]
            rintro ⟨_, hx⟩
            have q : (P.at' axis.orth r).gl i = (P.at' axis.orth r).dist.global_tile_from_local_tile i := rfl
            omega
          · rfl
        rw [this]
        exact (h0 r hr).1) (by
        rintro t h1 h2 g1 ⟨c1, o1, p1⟩
        let on : Coord2 → Prop := fun r => (P.get axis.orth).dist.rank_global_tile t = r.get axis.orth
        have hdec : ∀ r, Decidable (on r) := fun r => inferInstanceAs (Decidable (_ = _))
        have plain : ∀ r ∈ P.ranks, Tiled (P.at' axis.orth r) := fun r hr => Params2.tiled hP hr
        have own : ∀ r, on r → (P.at' axis.orth r).dist.rank_global_tile t = (P.at' axis.orth r).rank := fun r h => h
        have hread : ∀ r ∈ P.ranks, on r → ∃ v, R.read dbg
            ((P.at' axis.orth r).dist.local_tile_from_global_tile t) (g1.st r) = some (R.set (g1.st r) v, W (r.get axis) t) ∧
            PanelIs (P.at' axis.orth r) tall tile ax s e (content (P.at' axis.orth r) s e (V t (r.get axis))) v ∧ NoExt v := by
          intro r hr hon
          obtain ⟨hp, hn⟩ := p1 r hr
          obtain ⟨k1, k2⟩ := content_some (plain r hr).valid hs h1 h2 (V t (r.get axis)) (own r hon)
          obtain ⟨v, e1, e2⟩ := hp.read (dbg := dbg) (plain r hr) hax hs k2 k1
          have hv : V t (r.get axis) t = W (r.get axis) t := by
            simp only [V]
            rw [if_neg (by omega)]
          rw [hv] at e1
          exact ⟨v, by unfold PRef.read; rw [e1]; rfl, e2, hn.read e1⟩
        classical
        let s1 : Coord2 → S := fun r => if h : r ∈ P.ranks ∧ on r then R.set (g1.st r) (hread r h.1 h.2).choose else g1.st r
        have hs1 : ∀ r (hr : r ∈ P.ranks) (ho : on r), s1 r = R.set (g1.st r) (hread r hr ho).choose := by
          intro r hr ho
          simp only [s1]
          rw [dif_pos ⟨hr, ho⟩]
        have hmod : ∀ r ∈ P.ranks, on r → r.get axis = root → ∃ v,
            take r t (s1 r) (((irange 0 (P.get axis).grid).map (panelChan axis r).rankOf).map fun q => W (q.get axis) t) = some (R.set (g1.st r) v) ∧
            PanelIs (P.at' axis.orth r) tall tile ax s e (content (P.at' axis.orth r) s e (V (t + 1) (r.get axis))) v ∧ NoExt v := by
          intro r hr hon hx
          obtain ⟨_, hp, hn⟩ := (hread r hr hon).choose_spec
          obtain ⟨k1, k2⟩ := content_some (plain r hr).valid hs h1 h2 (V t (r.get axis)) (own r hon)
          obtain ⟨v, e1, e2, e3⟩ := hp.modify (dbg := dbg) hn (plain r hr) hax hs k2 k1 (g := fun _ => some (Z t)) (c := Z t) rfl (by
            rw [tsz_owned (plain r hr).valid (by omega) (own r hon), tileSize_onRank]
            exact hf t h1 h2)
          refine ⟨v, ?_, ?_, e3⟩
          · have hsum : (((irange 0 (P.get axis).grid).map (panelChan axis r).rankOf).map fun q => W (q.get axis) t) =
                (irange 0 (P.get axis).grid).map fun q => W q t := by
              rw [List.map_map]
              refine List.map_congr_left fun q _ => ?_
              show W (((panelChan axis r).rankOf q).get axis) t = _
              rw [(chan_rankOf axis r q).1]
            simp only [take]
            rw [hsum, hZ t h1 h2, Option.bind_some, hs1 r hr hon]
            unfold PRef.upd
            beta_reduce
            rw [hR.get_set, e1, Option.map_some, hR.set_set]
          · have := content_set (plain r hr).valid hs h1 h2 (V t (r.get axis)) (V (t + 1) (r.get axis)) (own r hon) (by
              intro x hxt
              simp only [V]
              exact if_congr ⟨fun h => ⟨h.1, by omega⟩, fun h => ⟨h.1, by omega⟩⟩ rfl rfl)
            have hv : V (t + 1) (r.get axis) t = Z t := by
              simp only [V]
              rw [if_pos ⟨hx, by omega⟩]
            rw [hv] at this
            rwa [← this]
        let s' : Coord2 → S := fun r => if h : r ∈ P.ranks ∧ on r then
          if hx : r.get axis = root then R.set (g1.st r) (hmod r h.1 h.2 hx).choose else s1 r else g1.st r
        have hs'1 : ∀ r (hr : r ∈ P.ranks) (ho : on r) (hx : r.get axis = root), s' r = R.set (g1.st r) (hmod r hr ho hx).choose := by
          intro r hr ho hx
          simp only [s']
          rw [dif_pos ⟨hr, ho⟩, dif_pos hx]
        have hs'2 : ∀ r (hr : r ∈ P.ranks) (ho : on r) (hx : r.get axis ≠ root), s' r = s1 r := by
          intro r hr ho hx
          simp only [s']
          rw [dif_pos ⟨hr, ho⟩, dif_neg hx]
        obtain ⟨g2, hr2, hc2, hst2⟩ := collective_phase hG c1 (p := F t)
          (fun r => if on r then some (panelChan axis r) else none) (fun _ => true)
          (fun r => R.read dbg ((P.at' axis.orth r).dist.local_tile_from_global_tile t)) (fun _ => .reduce root)
          (fun r => if r.get axis = root then (irange 0 (P.get axis).grid).map (panelChan axis r).rankOf else [])
          (fun r => if r.get axis = root then take r t else fun st _ => some st)
          s1 s' (fun r => W (r.get axis) t)
          (by
            intro r hr
            simp only [F]
            rw [if_pos hr]
            by_cases hw : (P.get axis.orth).dist.rank_global_tile t = r.get axis.orth
            · rw [if_pos hw, if_pos (show on r from hw)]
              by_cases hx : r.get axis = root
              · simp only [hx, if_true]
              · simp only [hx, if_true, if_false]
            · rw [if_neg hw, if_neg (show ¬ on r from hw)])
          (by
            intro r hr
            simp only [F]
            rw [if_neg hr])
          (by
            intro r hr c hcr
            split at hcr
            · rename_i hon
              simp only [Option.some.injEq] at hcr
              subst hcr
              refine ⟨(chan_has axis r r).2 rfl, ?_⟩
              intro q hq hh
              have hqr := (chan_has axis r q).1 hh
              have : on q := by show _ = q.get axis.orth; rw [hqr]; exact hon
              rw [if_pos this, chan_eq axis hqr]
            · simp at hcr)
          (by
            intro r hr c hcr
            split at hcr
            · rename_i hon
              rw [if_pos rfl, hs1 r hr hon]
              exact (hread r hr hon).choose_spec.1
            · simp at hcr)
          (by
            intro r hr c hcr q hq
            split at hcr
            · rename_i hon
              simp only [Option.some.injEq] at hcr
              subst hcr
              split at hq
              · rw [List.mem_map] at hq
                obtain ⟨x, hx, rfl⟩ := hq
                rw [mem_irange] at hx
                obtain ⟨a1, a2⟩ := chan_rankOf axis r x
                exact ⟨Params2.mem_ranks' axis (by rw [a1]; exact hx) (by rw [a2]; exact Params2.mem_ranks.1 hr _),
                  (chan_has axis r _).2 a2, rfl⟩
              · simp at hq
            · simp at hcr)
          (by
            intro r hr c hcr
            split at hcr
            · rename_i hon
              by_cases hx : r.get axis = root
              · rw [if_pos hx, if_pos hx, hs'1 r hr hon hx]
                exact (hmod r hr hon hx).choose_spec.1
              · rw [if_neg hx, hs'2 r hr hon hx]
            · simp at hcr)
        refine ⟨g2, hr2, hc2, ?_, ?_⟩
        · intro r
          have hst := hst2 r
          by_cases h : r ∈ P.ranks ∧ on r
          · rw [if_pos (by simp [h.1, h.2])] at hst
            have : OnlyPanel R (g1.st r) (g2.st r) := by
              rw [hst]
              by_cases hx : r.get axis = root
              · exact ⟨_, hs'1 r h.1 h.2 hx⟩
              · exact ⟨_, by rw [hs'2 r h.1 h.2 hx, hs1 r h.1 h.2]⟩
            exact ⟨(o1 r).1.trans hR this, fun hn => absurd h.1 hn⟩
          · have : g2.st r = g1.st r := by
              rw [hst, if_neg]
              rintro ⟨a, b⟩
              split at b
              · exact h ⟨a, by assumption⟩
              · simp at b
            rw [this]
            exact o1 r
        · intro r hr
          have hst := hst2 r
          by_cases h : on r
          · rw [if_pos (by simp [hr, h])] at hst
            rw [hst]
            by_cases hx : r.get axis = root
            · rw [hs'1 r hr h hx, hR.get_set]
              exact (hmod r hr h hx).choose_spec.2
            · rw [hs'2 r hr h hx, hs1 r hr h, hR.get_set]
              have := (hread r hr h).choose_spec.2
              have hv : V (t + 1) (r.get axis) = V t (r.get axis) := by
                funext x
                simp only [V]
                rw [if_neg (fun hc' => hx hc'.1), if_neg (fun hc' => hx hc'.1)]
              rwa [hv]
          · rw [if_neg (by simp [h])] at hst
            rw [hst]
            have := p1 r hr
            have hv : content (P.at' axis.orth r) s e (V (t + 1) (r.get axis)) = content (P.at' axis.orth r) s e (V t (r.get axis)) := by
              funext i
              unfold content
              split
              · rename_i hi
                have hi0 : 0 ≤ i := by have := (plain r hr).nx_nonneg hs; have q : (P.at' axis.orth r).nx s = (P.at' axis.orth r).dist.next_local_tile_from_global_tile s := rfl; omega
                have hne : (P.at' axis.orth r).dist.global_tile_from_local_tile i ≠ t := by
                  intro hc'
                  have := (plain r hr).gl_own hi0
                  rw [show (P.at' axis.orth r).gl i = t from hc'] at this
                  exact h this
                simp only [V]
                congr 1
                exact if_congr ⟨fun hh => ⟨hh.1, by omega⟩, fun hh => ⟨hh.1, by omega⟩⟩ rfl rfl
              · rfl
            rwa [hv])
    refine ⟨g', (hA.append hrun).congr ?_, hc', h1, ?_⟩
    · intro r
      by_cases hr : r ∈ P.ranks
      · rw [if_pos hr, if_pos hr]
        have hpl := (Params2.tiled hP hr).valid
        unfold reducePanel
        dsimp only
        rw [if_neg (by rw [P.on_get]; exact hg1), P.on_get, P.on_get, local_flatMap hpl hs hse]
        congr 1
        simp only [F, hr, if_true]
        rfl
      · rw [if_neg hr, if_neg hr]
        simp [F, hr]
    · intro r hr
      have := h2 r hr
      have hv : content (P.at' axis.orth r) s e (V e (r.get axis)) = content (P.at' axis.orth r) s e (if r.get axis = root then Z else W (r.get axis)) := by
        have hpl := (Params2.tiled hP hr)
        funext i
        unfold content
        split
        · rename_i hi
          have hi0 : 0 ≤ i := by have := hpl.nx_nonneg hs; have q : (P.at' axis.orth r).nx s = (P.at' axis.orth r).dist.next_local_tile_from_global_tile s := rfl; omega
          have hlt := (hpl.lt_nx hi0 (s := e) (by omega)).1 hi.2
          have q : (P.at' axis.orth r).gl i = (P.at' axis.orth r).dist.global_tile_from_local_tile i := rfl
          simp only [V]
          by_cases hx : r.get axis = root
          · rw [if_pos ⟨hx, by omega⟩, if_pos hx]
          · rw [if_neg (fun hc' => hx hc'.1), if_neg hx]
        · rfl
      rwa [hv] at this

end

/-- The reduction of an accumulator panel, on all processes. -/
theorem GStep.reduce [Field K] {E : DEnv} {A : Coord2 → Abs K} (hE : E.OK) {it : Int} (n : Nat) (ho : E.own n = true) {root : Int}
    (hroot : 0 ≤ root ∧ root < ((E.pd n).get (E.axis n)).grid) {dbg : Bool} {ax s e : Int} (hax : 0 ≤ ax) (hs : 0 ≤ s) (hse : s ≤ e)
    (W : Int → Int → Blk K) (Z : Int → Blk K)
    (hZ : ∀ t, s ≤ t → t < e → sumBlk ((irange 0 ((E.pd n).get (E.axis n)).grid).map fun q => W q t) = some (Z t))
    (hf : ∀ t, s ≤ t → t < e → VPanel.fits (E.tall n) (Z t) ax (((E.pd n).get (E.axis n).orth).dist.global_tile_size_of t) = true)
    (hA : ∀ r ∈ E.G, (A r).cur n = ⟨ax, s, e, content (E.crd n r) s e (W (r.get (E.axis n)))⟩) :
    GStep E (rrIdx it) (fun r => reducePanel dbg (E.axis n) ((E.pd n).on r) root (DSt.panel n it) s e) A
      (fun r => (A r).setPan n ⟨ax, s, e, content (E.crd n r) s e (if r.get (E.axis n) = root then Z else W (r.get (E.axis n)))⟩) := by
  intro g hg
  obtain ⟨g', h1, h2, h3, h4⟩ := reducePanel_runs (P := E.pd n) (axis := E.axis n) (hE.plain n _) hroot (DSt.panel_lawful n it) (dbg := dbg)
    (tall := E.tall n) (tile := E.tile n) hax hs hse W Z hZ hf (g := g) (by rw [hE.ranks n]; exact hg.clean) (by
      intro r hr
      rw [hE.ranks n] at hr
      have := (hg.all r hr).cur n
      rw [hA r hr] at this
      exact ⟨this, (hg.all r hr).own n ho⟩)
  rw [hE.ranks n] at h1 h2 h3 h4
  refine ⟨g', h1, h2, fun r hr => ?_⟩
  obtain ⟨⟨v, hv⟩, _⟩ := h3 r
  have h5 := h4 r hr
  rw [hv] at h5 ⊢
  rw [(DSt.panel_lawful n it).get_set] at h5
  exact (hg.all r hr).setPanel h5.1 fun _ => h5.2

end DLAF
