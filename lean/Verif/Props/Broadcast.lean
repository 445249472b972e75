import Verif.Lemmas.BroadcastPanel
/-
C19: the panel broadcasts (include/dlaf/communication/broadcast_panel.h), on every grid and with every schedule.

The machine: every process of the grid runs its program; collectives are matched in order per communicator
(Model/Spmd.lean).  A process holds a panel and the panel of the other axis; it creates both, sets their ranges, the
processes at `root` fill the tiles of the first panel, and all call `broadcast`.
-/
namespace DLAF
variable {K : Type*}

/-- The two panels of a process. -/
def panelRef : PRef (VPanel K × VPanel K) K := ⟨fun s => s.1, fun s v => (v, s.2)⟩
def panelTRef : PRef (VPanel K × VPanel K) K := ⟨fun s => s.2, fun s v => (s.1, v)⟩

/-- The program of process `r`: set the ranges; at `root` give the panel the tiles `W`; broadcast. -/
def bcastDriver (dbg : Bool) (axis : Coord) (P : Params2) (root s e sT eT : Int) (W : Int → Blk K) (r : Coord2) :
    List (Instr (VPanel K × VPanel K) (Blk K)) :=
  let d := (P.at' axis.orth r).dist
  [.loc (panelRef.upd fun v => v.setRange dbg s e), .loc (panelTRef.upd fun v => v.setRange dbg sT eT)] ++
  (if r.get axis = root then
    (irange (d.next_local_tile_from_global_tile s) (d.next_local_tile_from_global_tile e)).map fun i =>
      .loc (panelRef.upd fun v => v.setTile dbg i (W (d.global_tile_from_local_tile i)))
  else []) ++
  bcastPanels dbg axis (P.on r) root panelRef panelTRef s e sT eT

/-- Reading tile `t` (global index) of a panel of the distribution `p`. -/
def readsTile (dbg : Bool) (p : Params) (v : VPanel K) (t : Int) (b : Blk K) : Prop :=
  ∃ v', v.read dbg (p.dist.local_tile_from_global_tile t) = some (v', b)

theorem panelRef_lawful : (panelRef (K := K)).Lawful := ⟨fun _ _ => rfl, fun _ => rfl, fun _ _ _ => rfl⟩
theorem panelTRef_lawful : (panelTRef (K := K)).Lawful := ⟨fun _ _ => rfl, fun _ => rfl, fun _ _ _ => rfl⟩
theorem panelRefs_apart : (panelRef (K := K)).Apart panelTRef := ⟨fun _ _ => rfl, fun _ _ => rfl, fun _ _ _ => rfl⟩

/-- Filling the root's panel. -/
theorem fill_root {p : Params} (hp : Plain p) {dbg tall : Bool} {tile ax s e : Int} (hs : 0 ≤ s) (hse : s ≤ e)
    (W : Int → Blk K) (hW : ∀ t, s ≤ t → t < e → VPanel.fits tall (W t) ax (p.dist.global_tile_size_of t) = true)
    {x : VPanel K × VPanel K} (h : PanelIs p tall tile ax s e (fun _ => none) x.1) :
    ∃ v, ((irange (p.dist.next_local_tile_from_global_tile s) (p.dist.next_local_tile_from_global_tile e)).map fun i =>
      panelRef.upd fun v => v.setTile dbg i (W (p.dist.global_tile_from_local_tile i))).foldlM (fun s f => f s) x = some (v, x.2) ∧
      PanelIs p tall tile ax s e (content p s e W) v := by
  have w := hp.valid.wf
  have mono : p.dist.next_local_tile_from_global_tile s ≤ p.dist.next_local_tile_from_global_tile e :=
    w.cyc.next_local_mono hs hse
  have hn0 : 0 ≤ p.dist.next_local_tile_from_global_tile s := w.cyc.next_local_nonneg hs
  refine int_range_ind mono (fun i => ∃ v, ((irange (p.dist.next_local_tile_from_global_tile s) i).map fun i =>
      panelRef.upd fun v => v.setTile dbg i (W (p.dist.global_tile_from_local_tile i))).foldlM (fun s f => f s) x = some (v, x.2) ∧
      PanelIs p tall tile ax s e (fun j => if p.dist.next_local_tile_from_global_tile s ≤ j ∧ j < i then
        some (W (p.dist.global_tile_from_local_tile j)) else none) v) ?_ ?_
  · refine ⟨x.1, by simp [irange_self], ?_⟩
    have : (fun j => if p.dist.next_local_tile_from_global_tile s ≤ j ∧ j < p.dist.next_local_tile_from_global_tile s then
        some (W (p.dist.global_tile_from_local_tile j)) else none) = fun _ => none := by
      funext j; rw [if_neg (by omega)]
    rw [this]
    exact h
  · rintro i h1 h2 ⟨v, e1, e2⟩
    have hir : InRange p s e i := ⟨h1, h2⟩
    obtain ⟨b1, b2⟩ := hir.bounds hp hs h.rng.2 hse
    -- the global tile is in the range
    have hr := C05_local_range_visits hp.valid hs hse (p.dist.global_tile_from_local_tile i)
    have hin : s ≤ p.dist.global_tile_from_local_tile i ∧ p.dist.global_tile_from_local_tile i < e := by
      have := (hr.2 ⟨i, h1, h2, rfl⟩)
      exact ⟨this.1, this.2.1⟩
    obtain ⟨v', f1, f2⟩ := e2.setTile (dbg := dbg) hp hs hir (by rw [if_neg (by omega)])
      (b := W (p.dist.global_tile_from_local_tile i)) (hW _ hin.1 hin.2)
    refine ⟨v', ?_, ?_⟩
    · rw [irange_succ h1, List.map_append, List.foldlM_append, e1]
      show (panelRef.upd _ (v, x.2)).bind _ = _
      unfold PRef.upd
      show (Option.map _ (v.setTile dbg i _)).bind _ = _
      rw [f1]
      rfl
    · have : (fun j => if p.dist.next_local_tile_from_global_tile s ≤ j ∧ j < i + 1 then
          some (W (p.dist.global_tile_from_local_tile j)) else none) =
          set1 (fun j => if p.dist.next_local_tile_from_global_tile s ≤ j ∧ j < i then
          some (W (p.dist.global_tile_from_local_tile j)) else none) i (some (W (p.dist.global_tile_from_local_tile i))) := by
        funext j
        by_cases hj : j = i
        · subst hj; rw [set1_same, if_pos (by omega)]
        · rw [set1_ne _ _ hj]
          by_cases hc : p.dist.next_local_tile_from_global_tile s ≤ j ∧ j < i
          · rw [if_pos hc, if_pos (by omega)]
          · rw [if_neg hc, if_neg (by omega)]
      rw [this]
      exact f2

/-- C19.  For every grid, every square distribution with square tiles (no offset, one tile per block), source ranks,
ranges `[s, e)` of the panel and `[sT, eT)` ⊆ `[s, e)` of the panel of the other axis, root and contents: under every
schedule of the processes the broadcast ends without abort or deadlock, always in the same state, and then on every
process every tile `t` of the panel's range that the process can access (owner of `t` along the panel) is the root's
tile `W t`, and every accessible tile `t` of the transposed panel's range is `W t` too. -/
theorem C19_panel_broadcast {P : Params2} {axis : Coord} (hr : Plain P.row) (hcl : Plain P.col)
    (hsz : P.row.size = P.col.size) (htile : P.row.tile = P.col.tile) {root : Int}
    (hroot : 0 ≤ root ∧ root < (P.get axis).grid) {dbg tall tallT : Bool} {ax axT s e sT eT : Int}
    (hax : 0 ≤ ax) (haxT : 0 ≤ axT) (hs : 0 ≤ s) (hsT : s ≤ sT) (hseT : sT ≤ eT) (heT : eT ≤ e)
    (he : e ≤ P.row.dist.nrTiles) (W : Int → Blk K)
    (hW : ∀ t, s ≤ t → t < e → VPanel.fits tall (W t) ax (P.row.dist.global_tile_size_of t) = true)
    (hWT : ∀ t, sT ≤ t → t < eT → VPanel.fits tallT (W t) axT (P.row.dist.global_tile_size_of t) = true)
    {st : Coord2 → VPanel K × VPanel K}
    (hnew : ∀ r ∈ P.ranks, VPanel.create tall (P.at' axis.orth r).dist ax = some (st r).1 ∧
      VPanel.create tallT (P.at' axis r).dist axT = some (st r).2) :
    AlwaysEnds (Conf.init (fun r => if r ∈ P.ranks then bcastDriver dbg axis P root s e sT eT W r else []) st) fun fin =>
      ∀ r ∈ P.ranks,
        (∀ t, s ≤ t → t < e → (P.get axis.orth).dist.rank_global_tile t = r.get axis.orth →
          readsTile dbg (P.at' axis.orth r) (fin r).1 t (W t)) ∧
        (∀ t, sT ≤ t → t < eT → (P.get axis).dist.rank_global_tile t = r.get axis →
          readsTile dbg (P.at' axis r) (fin r).2 t (W t)) := by
  have hG := P.ranks_nodup
  have plain : ∀ c, Plain (P.get c) := fun c => by cases c <;> assumption
  have hsize : ∀ c t, (P.get c).dist.global_tile_size_of t = P.row.dist.global_tile_size_of t := by
    intro c t
    cases c
    · rfl
    · exact hcl.tile_size_eq hr hsz.symm htile.symm t
  have hnr : ∀ c, (P.get c).dist.nrTiles = P.row.dist.nrTiles := by
    intro c
    cases c
    · rfl
    · exact hcl.nrTiles_eq hr hsz.symm htile.symm
  -- the local part
  have hA : ∀ r ∈ P.ranks, ∃ x : VPanel K × VPanel K,
      (runLocs ([panelRef.upd fun v => v.setRange dbg s e, panelTRef.upd fun v => v.setRange dbg sT eT] ++
      (if r.get axis = root then
        (irange ((P.at' axis.orth r).dist.next_local_tile_from_global_tile s)
          ((P.at' axis.orth r).dist.next_local_tile_from_global_tile e)).map fun i =>
          panelRef.upd fun v => v.setTile dbg i (W ((P.at' axis.orth r).dist.global_tile_from_local_tile i))
      else [])) (st r) = some x) ∧
      PanelIs (P.at' axis.orth r) tall ax ax s e
        (if r.get axis = root then content (P.at' axis.orth r) s e W else fun _ => none) x.1 ∧
      PanelIs (P.at' axis r) tallT axT axT sT eT (fun _ => none) x.2 := by
    intro r hrk
    have pl := Params2.plain (plain axis.orth) hrk
    have plT := Params2.plain (plain axis) hrk
    obtain ⟨n1, n2⟩ := hnew r hrk
    obtain ⟨v, c1, c2⟩ := panel_create (K := K) pl tall ax
    obtain ⟨vT, d1, d2⟩ := panel_create (K := K) plT tallT axT
    rw [n1, Option.some.injEq] at c1
    rw [n2, Option.some.injEq] at d1
    obtain ⟨v1, c3, c4⟩ := c2.setRange (dbg := dbg) pl hs (by omega : s ≤ e) (by rw [nrTiles_onRank, hnr]; exact he)
    obtain ⟨vT1, d3, d4⟩ := d2.setRange (dbg := dbg) plT (by omega : 0 ≤ sT) hseT (by rw [nrTiles_onRank, hnr]; omega)
    have pre : runLocs
        [panelRef.upd fun v => v.setRange dbg s e, panelTRef.upd fun v => v.setRange dbg sT eT] (st r) = some (v1, vT1) := by
      have i1 : panelRef.upd (fun v => v.setRange dbg s e) (st r) = some (v1, (st r).2) := by
        show Option.map _ ((st r).1.setRange dbg s e) = _
        rw [c1, c3]; rfl
      have i2 : panelTRef.upd (fun v => v.setRange dbg sT eT) (v1, (st r).2) = some (v1, vT1) := by
        show Option.map _ ((st r).2.setRange dbg sT eT) = _
        rw [d1, d3]; rfl
      simp only [List.foldlM_cons, List.foldlM_nil, bind, i1, Option.bind_some, i2]
      rfl
    by_cases hx : r.get axis = root
    · obtain ⟨v2, f1, f2⟩ := fill_root (dbg := dbg) pl hs (by omega : s ≤ e) W
        (by intro t t1 t2; rw [tileSize_onRank, hsize]; exact hW t t1 t2) (x := (v1, vT1)) c4
      refine ⟨(v2, vT1), ?_, by rw [if_pos hx]; exact f2, d4⟩
      rw [if_pos hx, runLocs_append, pre]
      exact f1
    · refine ⟨(v1, vT1), ?_, by rw [if_neg hx]; exact c4, d4⟩
      rw [if_neg hx, List.append_nil]
      exact pre
  classical
  let x : Coord2 → VPanel K × VPanel K := fun r => if h : r ∈ P.ranks then (hA r h).choose else st r
  have hx : ∀ r (h : r ∈ P.ranks), x r = (hA r h).choose := fun r h => dif_pos h
  have run1 := Runs.locals (V := Blk K) (g := ⟨st, fun _ _ => 0, fun _ _ _ => none⟩) hG _ x (fun r => rfl)
    (fun r h => by rw [hx r h]; exact (hA r h).choose_spec.1)
  obtain ⟨g2, r2, c2, o2, p2⟩ := bcastPanels_runs (dbg := dbg) (plain axis.orth) (plain axis) hsz htile hroot
    panelRef_lawful panelTRef_lawful panelRefs_apart hax haxT hs hsT hseT heT (by rw [hnr]; exact he) W
    (by intro t t1 t2; rw [hsize]; exact hW t t1 t2) (by intro t t1 t2; rw [hsize]; exact hWT t t1 t2)
    ((Clean.init P.ranks st).withSt _) (g := { (⟨st, fun _ _ => 0, fun _ _ _ => none⟩ : Glob _ (Blk K)) with
      st := fun r => if r ∈ P.ranks then x r else st r }) (by
      intro r h
      show PanelIs _ _ _ _ _ _ _ (panelRef.get (if r ∈ P.ranks then x r else st r)) ∧
        PanelIs _ _ _ _ _ _ _ (panelTRef.get (if r ∈ P.ranks then x r else st r))
      rw [if_pos h, hx r h]
      exact (hA r h).choose_spec.2)
  refine ((run1.append r2).congr ?_).alwaysEnds ?_
  · intro r
    by_cases h : r ∈ P.ranks
    · simp only [h, if_true]
      unfold bcastDriver
      by_cases hx : r.get axis = root
      · simp [hx, Function.comp_def]
      · simp [hx]
    · simp [h]
  · intro r h
    obtain ⟨q1, q2⟩ := p2 r h
    have pl := Params2.plain (plain axis.orth) h
    have plT := Params2.plain (plain axis) h
    refine ⟨?_, ?_⟩
    · intro t t1 t2 ho
      obtain ⟨k1, k2⟩ := content_some pl.valid (e := e) hs t1 t2 W ho
      obtain ⟨v, e1, _⟩ := q1.read (dbg := dbg) pl hax hs k2 k1
      exact ⟨v, e1⟩
    · intro t t1 t2 ho
      obtain ⟨k1, k2⟩ := content_some plT.valid (e := eT) (by omega) t1 t2 W ho
      obtain ⟨v, e1, _⟩ := q2.read (dbg := dbg) plT haxT (by omega) k2 k1
      exact ⟨v, e1⟩

/-- C19.  In the broadcast all members of each row and column communicator perform the same sequence of collectives. -/
theorem C19_same_collectives {P : Params2} {axis : Coord} (hr : Plain P.row) (hcl : Plain P.col) (dbg : Bool) (root : Int)
    {s e sT eT : Int} (hs : 0 ≤ s) (hse : s ≤ e) (W : Int → Blk K) :
    SameCollectives P.ranks (bcastDriver dbg axis P root s e sT eT W) := by
  have plain : ∀ c, Plain (P.get c) := fun c => by cases c <;> assumption
  intro c r h q h' h1 h2
  have key : ∀ r, sigs c (bcastDriver dbg axis P root s e sT eT W r) =
      sigs c (bcastPanels dbg axis (P.on r) root (panelRef (K := K)) panelTRef s e sT eT) := by
    intro r
    unfold bcastDriver
    dsimp only
    rw [sigs_append, sigs_append]
    have : sigs c (if r.get axis = root then
      (irange ((P.at' axis.orth r).dist.next_local_tile_from_global_tile s)
        ((P.at' axis.orth r).dist.next_local_tile_from_global_tile e)).map fun i =>
      Instr.loc (V := Blk K) (panelRef.upd fun v => v.setTile dbg i (W ((P.at' axis.orth r).dist.global_tile_from_local_tile i)))
      else []) = [] := by
      split
      · rw [← sigs_locs (V := Blk K) c ((irange ((P.at' axis.orth r).dist.next_local_tile_from_global_tile s)
          ((P.at' axis.orth r).dist.next_local_tile_from_global_tile e)).map fun i =>
          panelRef.upd fun v => v.setTile dbg i (W ((P.at' axis.orth r).dist.global_tile_from_local_tile i))), List.map_map]
        rfl
      · rfl
    rw [this]
    rfl
  rw [key, key]
  exact bcastPanels_sigs (plain axis.orth) dbg root _ _ hs hse h h' h1 h2

/-- C19 is not vacuous: a 5×5 matrix with 2×2 tiles on a 2×3 grid, a column panel, root column 1. -/
def exB : Params2 := ⟨⟨5, 2, 2, 2, 0, 1, 0⟩, ⟨5, 2, 2, 3, 0, 2, 0⟩⟩

def exW (t : Int) : Blk Int := ⟨if t = 2 then 1 else 2, 2, fun i j => 100 * t + 10 * i + j⟩

example : Plain exB.row ∧ Plain exB.col ∧ exB.ranks.length = 6 ∧ exB.row.dist.nrTiles = 3 ∧
    (∀ t ∈ irange 1 3, VPanel.fits true (exW t) 2 (exB.row.dist.global_tile_size_of t) = true) ∧
    (∀ r ∈ exB.ranks, (VPanel.create (K := Int) true (exB.at' .Row r).dist 2).isSome = true ∧
      (VPanel.create (K := Int) true (exB.at' .Col r).dist 2).isSome = true) ∧
    (∀ r ∈ exB.ranks, r.col = 1 → (sigs (.row r.row) (bcastDriver true .Col exB 1 1 3 1 3 exW r)).length = 1 ∧
      (sigs (.col 1) (bcastDriver true .Col exB 1 1 3 1 3 exW r)) = [Sig.bcast 1]) := by
  decide

end DLAF
