import Verif.Lemmas.DistPanel
import Verif.Lemmas.Redistribute
/- The panel broadcasts. -/
namespace DLAF
variable {S V : Type*} {K : Type*}

theorem irange_self (a : Int) : irange a a = [] := by simp [irange]

theorem irange_succ {a b : Int} (h : a ≤ b) : irange a (b + 1) = irange a b ++ [b] := by
  unfold irange
  rw [show (b + 1 - a).toNat = (b - a).toNat + 1 by omega, List.range_succ, List.map_append]
  simp
  omega

theorem mem_irange {a b t : Int} : t ∈ irange a b ↔ a ≤ t ∧ t < b := by
  unfold irange
  simp only [List.mem_map, List.mem_range]
  constructor
  · rintro ⟨k, hk, rfl⟩; omega
  · rintro ⟨h0, h1⟩; exact ⟨(t - a).toNat, by omega, by omega⟩

/-- Induction over an integer range. -/
theorem int_range_ind {s e : Int} (hse : s ≤ e) (P : Int → Prop) (h0 : P s) (hs : ∀ t, s ≤ t → t < e → P t → P (t + 1)) :
    P e := by
  have key : ∀ n : Nat, s + n ≤ e → P (s + n) := by
    intro n
    induction n with
    | zero => intro _; simpa using h0
    | succ n ih =>
      intro h
      have := hs (s + n) (by omega) (by omega) (ih (by omega))
      rwa [show s + ((n + 1 : Nat) : Int) = s + n + 1 by omega]
  have := key (e - s).toNat (by omega)
  rwa [show s + ((e - s).toNat : Int) = e by omega] at this

/-- Phases for each index of a range. -/
theorem Runs.range {p : Int → Coord2 → List (Instr S V)} {s e : Int} (hse : s ≤ e) (I : Int → Glob S V → Prop) {g : Glob S V}
    (h0 : I s g) (hstep : ∀ t, s ≤ t → t < e → ∀ g, I t g → ∃ g', Runs (p t) g g' ∧ I (t + 1) g') :
    ∃ g', Runs (fun r => (irange s e).flatMap fun t => p t r) g g' ∧ I e g' := by
  refine int_range_ind hse (fun x => ∃ g', Runs (fun r => (irange s x).flatMap fun t => p t r) g g' ∧ I x g') ?_ ?_
  · exact ⟨g, .nil (fun r => by simp [irange_self]) g, h0⟩
  · rintro t h1 h2 ⟨g', hr, hi⟩
    obtain ⟨g'', hr', hi'⟩ := hstep t h1 h2 g' hi
    refine ⟨g'', (hr.append hr').congr ?_, hi'⟩
    intro r
    rw [irange_succ h1, List.flatMap_append]
    simp

/-- Phases for each element of a list, simulating a sequential loop. -/
theorem Runs.loop {M X : Type*} {p : X → Coord2 → List (Instr S V)} {step : M → X → Option M} (R : M → Glob S V → Prop) :
    ∀ (xs : List X), (∀ x ∈ xs, ∀ m m' g, R m g → step m x = some m' → ∃ g', Runs (p x) g g' ∧ R m' g') →
    ∀ {m m' : M} {g : Glob S V}, R m g → xs.foldlM step m = some m' →
    ∃ g', Runs (fun r => xs.flatMap fun x => p x r) g g' ∧ R m' g'
  | [], _, m, m', g, h, hm => by
    simp only [List.foldlM_nil, pure, Option.some.injEq] at hm
    exact ⟨g, .nil (fun r => by simp) g, hm ▸ h⟩
  | x :: xs, hs, m, m', g, h, hm => by
    rw [List.foldlM_cons] at hm
    simp only [bind, Option.bind_eq_some_iff] at hm
    obtain ⟨m1, h1, h2⟩ := hm
    obtain ⟨g1, r1, i1⟩ := hs x List.mem_cons_self m m1 g h h1
    obtain ⟨g2, r2, i2⟩ := Runs.loop R xs (fun y hy => hs y (List.mem_cons_of_mem _ hy)) i1 h2
    exact ⟨g2, (r1.append r2).congr (fun r => by simp), i2⟩

section
variable {p : Params}

/-- The local tiles of a range, as the owned global tiles of the range. -/
theorem local_flatMap {α : Type*} (hp : p.Valid) {s e : Int} (hs : 0 ≤ s) (hse : s ≤ e) (F : Int → List α) :
    (irange (p.dist.next_local_tile_from_global_tile s) (p.dist.next_local_tile_from_global_tile e)).flatMap F =
      (irange s e).flatMap fun t => if p.dist.rank_global_tile t = p.rank then F (p.dist.local_tile_from_global_tile t) else [] := by
  have w := hp.wf
  refine int_range_ind hse (fun x => (irange (p.dist.next_local_tile_from_global_tile s)
    (p.dist.next_local_tile_from_global_tile x)).flatMap F = (irange s x).flatMap _) ?_ ?_
  · simp [irange_self]
  · intro t h1 h2 ih
    have hn : p.dist.next_local_tile_from_global_tile (t + 1) = p.dist.next_local_tile_from_global_tile t +
        (if p.rank = p.dist.rank_global_tile t then 1 else 0) := w.cyc.next_local_succ (by omega)
    rw [irange_succ h1, List.flatMap_append, ← ih, hn]
    have hm : p.dist.next_local_tile_from_global_tile s ≤ p.dist.next_local_tile_from_global_tile t :=
      w.cyc.next_local_mono hs h1
    by_cases ho : p.rank = p.dist.rank_global_tile t
    · rw [if_pos ho, irange_succ hm, List.flatMap_append]
      have : p.dist.local_tile_from_global_tile t = p.dist.next_local_tile_from_global_tile t :=
        w.cyc.local_eq_next (by omega) ho
      simp [ho.symm, this]
    · rw [if_neg ho, Int.add_zero]
      simp [Ne.symm ho]

/-- Contents of a panel that holds the tiles `V t`, `t` in `[s, e)`. -/
def content (p : Params) (s e : Int) (W : Int → Blk K) : Int → Option (Blk K) := fun i =>
  if p.dist.next_local_tile_from_global_tile s ≤ i ∧ i < p.dist.next_local_tile_from_global_tile e then
    some (W (p.dist.global_tile_from_local_tile i)) else none

theorem content_self (s : Int) (W : Int → Blk K) : content p s s W = fun _ => none := by
  funext i
  unfold content
  rw [if_neg (by omega)]

theorem content_owned (hp : p.Valid) {s t : Int} (hs : 0 ≤ s) (hst : s ≤ t) (W : Int → Blk K)
    (ho : p.dist.rank_global_tile t = p.rank) :
    set1 (content p s t W) (p.dist.local_tile_from_global_tile t) (some (W t)) = content p s (t + 1) W ∧
    content p s t W (p.dist.local_tile_from_global_tile t) = none := by
  have w := hp.wf
  have hn : p.dist.next_local_tile_from_global_tile (t + 1) = p.dist.next_local_tile_from_global_tile t +
      (if p.rank = p.dist.rank_global_tile t then 1 else 0) := w.cyc.next_local_succ (by omega)
  rw [if_pos ho.symm] at hn
  have hl : p.dist.local_tile_from_global_tile t = p.dist.next_local_tile_from_global_tile t :=
    w.cyc.local_eq_next (by omega) ho.symm
  have hg : p.dist.global_tile_from_local_tile (p.dist.local_tile_from_global_tile t) = t :=
    w.cyc.local_global (by omega) ho.symm
  have hm : p.dist.next_local_tile_from_global_tile s ≤ p.dist.next_local_tile_from_global_tile t :=
    w.cyc.next_local_mono hs hst
  refine ⟨?_, ?_⟩
  · funext i
    by_cases hi : i = p.dist.local_tile_from_global_tile t
    · subst hi
      rw [set1_same]
      unfold content
      rw [if_pos (by omega), hg]
    · rw [set1_ne _ _ hi]
      unfold content
      by_cases hc : p.dist.next_local_tile_from_global_tile s ≤ i ∧ i < p.dist.next_local_tile_from_global_tile t
      · rw [if_pos hc, if_pos (by omega)]
      · rw [if_neg hc, if_neg (by omega)]
  · unfold content
    rw [if_neg (by omega)]

theorem content_not_owned (hp : p.Valid) {s t : Int} (hs : 0 ≤ s) (hst : s ≤ t) (W : Int → Blk K)
    (ho : p.dist.rank_global_tile t ≠ p.rank) : content p s (t + 1) W = content p s t W := by
  have w := hp.wf
  have hn : p.dist.next_local_tile_from_global_tile (t + 1) = p.dist.next_local_tile_from_global_tile t +
      (if p.rank = p.dist.rank_global_tile t then 1 else 0) := w.cyc.next_local_succ (by omega)
  rw [if_neg (Ne.symm ho), Int.add_zero] at hn
  funext i
  unfold content
  rw [hn]

theorem content_some (hp : p.Valid) {s e t : Int} (hs : 0 ≤ s) (hst : s ≤ t) (hte : t < e) (W : Int → Blk K)
    (ho : p.dist.rank_global_tile t = p.rank) :
    content p s e W (p.dist.local_tile_from_global_tile t) = some (W t) ∧
      InRange p s e (p.dist.local_tile_from_global_tile t) := by
  have w := hp.wf
  have hn : p.dist.next_local_tile_from_global_tile (t + 1) = p.dist.next_local_tile_from_global_tile t +
      (if p.rank = p.dist.rank_global_tile t then 1 else 0) := w.cyc.next_local_succ (by omega)
  rw [if_pos ho.symm] at hn
  have hl : p.dist.local_tile_from_global_tile t = p.dist.next_local_tile_from_global_tile t :=
    w.cyc.local_eq_next (by omega) ho.symm
  have hg : p.dist.global_tile_from_local_tile (p.dist.local_tile_from_global_tile t) = t :=
    w.cyc.local_global (by omega) ho.symm
  have hm : p.dist.next_local_tile_from_global_tile s ≤ p.dist.next_local_tile_from_global_tile t :=
    w.cyc.next_local_mono hs hst
  have hm2 : p.dist.next_local_tile_from_global_tile (t + 1) ≤ p.dist.next_local_tile_from_global_tile e :=
    w.cyc.next_local_mono (by omega) (by omega)
  refine ⟨?_, by omega, by omega⟩
  unfold content
  rw [if_pos (by omega), hg]

/-- Size of an owned tile, by its local index. -/
theorem tsz_owned (hp : p.Valid) {t : Int} (ht : 0 ≤ t) (ho : p.dist.rank_global_tile t = p.rank) :
    tsz p (p.dist.local_tile_from_global_tile t) = p.dist.global_tile_size_of t := by
  unfold tsz
  rw [show p.dist.global_tile_from_local_tile (p.dist.local_tile_from_global_tile t) = t from
    hp.wf.cyc.local_global ht ho.symm]

end

/-- Laws of a reference. -/
structure PRef.Lawful (R : PRef S K) : Prop where
  get_set : ∀ s v, R.get (R.set s v) = v
  set_get : ∀ s, R.set s (R.get s) = s
  set_set : ∀ s v w, R.set (R.set s v) w = R.set s w

/-- References to different parts of the state. -/
structure PRef.Apart (R Q : PRef S K) : Prop where
  get_left : ∀ s v, R.get (Q.set s v) = R.get s
  get_right : ∀ s v, Q.get (R.set s v) = Q.get s
  comm : ∀ s v w, R.set (Q.set s w) v = Q.set (R.set s v) w

theorem Params2.ranks_eq (P : Params2) : P.ranks = pairs (ints P.row.grid) (ints P.col.grid) := by
  simp [Params2.ranks, pairs, ints, List.flatMap_map, Function.comp_def]

theorem Params2.ranks_nodup (P : Params2) : P.ranks.Nodup := by
  rw [P.ranks_eq]; exact pairs_nodup (ints_nodup _) (ints_nodup _)

theorem Params2.mem_ranks {P : Params2} {r : Coord2} :
    r ∈ P.ranks ↔ ∀ c, 0 ≤ r.get c ∧ r.get c < (P.get c).grid := by
  rw [Params2.ranks_eq, mem_pairs, mem_ints, mem_ints]
  constructor
  · rintro ⟨h1, h2⟩ (_ | _)
    · exact h1
    · exact h2
  · intro h
    exact ⟨h .Row, h .Col⟩

theorem Params2.on_get (P : Params2) (r : Coord2) (c : Coord) : (P.on r).get c = ((P.get c).onRank (r.get c)).dist := by
  cases c <;> rfl

theorem chan_has (axis : Coord) (r s : Coord2) : (panelChan axis r).has s = true ↔ s.get axis.orth = r.get axis.orth := by
  cases axis <;> simp [panelChan, Chan.has, Coord.orth, Coord2.get]

theorem chan_rankOf (axis : Coord) (r : Coord2) (k : Int) : ((panelChan axis r).rankOf k).get axis = k ∧
    ((panelChan axis r).rankOf k).get axis.orth = r.get axis.orth := by
  cases axis <;> simp [panelChan, Chan.rankOf, Coord.orth, Coord2.get]

theorem chan_eq (axis : Coord) {r s : Coord2} (h : s.get axis.orth = r.get axis.orth) : panelChan axis s = panelChan axis r := by
  cases axis <;> simp_all [panelChan, Coord.orth, Coord2.get]

theorem coord_ext (axis : Coord) {r s : Coord2} (h1 : r.get axis = s.get axis) (h2 : r.get axis.orth = s.get axis.orth) : r = s := by
  obtain ⟨a, b⟩ := r
  obtain ⟨c, d⟩ := s
  cases axis <;> simp_all [Coord.orth, Coord2.get]

theorem coord_cases (axis c : Coord) : c = axis ∨ c = axis.orth := by
  cases axis <;> cases c <;> simp [Coord.orth]

theorem Params2.mem_ranks' {P : Params2} (axis : Coord) {r : Coord2} (h1 : 0 ≤ r.get axis ∧ r.get axis < (P.get axis).grid)
    (h2 : 0 ≤ r.get axis.orth ∧ r.get axis.orth < (P.get axis.orth).grid) : r ∈ P.ranks := by
  rw [Params2.mem_ranks]
  intro c
  rcases coord_cases axis c with rfl | rfl
  · exact h1
  · exact h2

theorem Params2.plain {P : Params2} {c : Coord} (h : Plain (P.get c)) {r : Coord2} (hr : r ∈ P.ranks) : Plain (P.at' c r) :=
  h.onRank (Params2.mem_ranks.1 hr c).1 (Params2.mem_ranks.1 hr c).2

/-- Ownership does not depend on who asks. -/
theorem Params2.tiled {P : Params2} {c : Coord} (h : Tiled (P.get c)) {r : Coord2} (hr : r ∈ P.ranks) : Tiled (P.at' c r) :=
  h.onRank (Params2.mem_ranks.1 hr c).1 (Params2.mem_ranks.1 hr c).2

theorem rank_global_tile_onRank (p : Params) (r t : Int) : (p.onRank r).dist.rank_global_tile t = p.dist.rank_global_tile t := rfl

theorem nrTiles_onRank (p : Params) (r : Int) : (p.onRank r).dist.nrTiles = p.dist.nrTiles := rfl

theorem tileSize_onRank (p : Params) (r t : Int) : (p.onRank r).dist.global_tile_size_of t = p.dist.global_tile_size_of t := rfl

/-- Row of the state of a process: only the panel `R` differs. -/
def OnlyPanel (R : PRef S K) (a b : S) : Prop := ∃ v, b = R.set a v

theorem OnlyPanel.refl {R : PRef S K} (hR : R.Lawful) (a : S) : OnlyPanel R a a := ⟨R.get a, (hR.set_get a).symm⟩

theorem OnlyPanel.trans {R : PRef S K} (hR : R.Lawful) {a b c : S} (h : OnlyPanel R a b) (h' : OnlyPanel R b c) :
    OnlyPanel R a c := by
  obtain ⟨v, rfl⟩ := h
  obtain ⟨w, rfl⟩ := h'
  exact ⟨w, hR.set_set a v w⟩

/-- The one-panel broadcast: the processes `r` with `act (r.get coord)` take part; those at `root` along `axis` hold
the tiles of the range, and at the end all of them do. -/
theorem bcastPanel_runs {P : Params2} {axis : Coord} (hP : Tiled (P.get axis.orth)) {root : Int}
    (hroot : 0 ≤ root ∧ root < (P.get axis).grid) {R : PRef S K} (hR : R.Lawful) {dbg tall : Bool} {tile ax s e : Int}
    (hax : 0 ≤ ax) (hs : 0 ≤ s) (hse : s ≤ e) (he : e ≤ (P.get axis.orth).dist.nrTiles) (act : Int → Bool)
    (W : Int → Blk K)
    (hW : ∀ t, s ≤ t → t < e → VPanel.fits tall (W t) ax ((P.get axis.orth).dist.global_tile_size_of t) = true)
    {g : Glob S (Blk K)} (hc : Clean P.ranks g)
    (h0 : ∀ r ∈ P.ranks, act (r.get axis.orth) = true →
      PanelIs (P.at' axis.orth r) tall tile ax s e
        (if r.get axis = root then content (P.at' axis.orth r) s e W else fun _ => none) (R.get (g.st r))) :
    ∃ g', Runs (fun r => if r ∈ P.ranks ∧ act (r.get axis.orth) = true then
        bcastPanel dbg axis (P.on r) root R s e else []) g g' ∧ Clean P.ranks g' ∧
      (∀ r, OnlyPanel R (g.st r) (g'.st r) ∧ (¬ (r ∈ P.ranks ∧ act (r.get axis.orth) = true) → g'.st r = g.st r)) ∧
      ∀ r ∈ P.ranks, act (r.get axis.orth) = true →
        PanelIs (P.at' axis.orth r) tall tile ax s e (content (P.at' axis.orth r) s e W) (R.get (g'.st r)) := by
  have hG := P.ranks_nodup
  -- the range check
  have hA : Runs (fun r => if r ∈ P.ranks ∧ act (r.get axis.orth) = true then
      [Instr.loc (R.hasRange s e)] else []) g g := by
    have h := Runs.loc (V := Blk K) (g := g) (L := P.ranks.filter fun r => act (r.get axis.orth)) (hG.filter _)
      (fun _ => R.hasRange s e) g.st (fun r => rfl) (by
        intro r hr
        rw [List.mem_filter] at hr
        have h1 := h0 r hr.1 hr.2
        unfold PRef.hasRange
        rw [if_pos ⟨h1.start, h1.stop⟩])
    simp only [ite_self] at h
    exact h.congr (fun r => by simp only [List.mem_filter])
  by_cases hg1 : (P.get axis).grid ≤ 1
  · refine ⟨g, hA.congr ?_, hc, fun r => ⟨.refl hR _, fun _ => rfl⟩, ?_⟩
    · intro r
      by_cases hr : r ∈ P.ranks ∧ act (r.get axis.orth) = true
      · rw [if_pos hr, if_pos hr]
        unfold bcastPanel
        dsimp only
        rw [if_pos (by rw [P.on_get]; exact hg1), List.append_nil]
      · rw [if_neg hr, if_neg hr]
    · intro r hr ha
      have h1 := h0 r hr ha
      have := (Params2.mem_ranks.1 hr axis)
      rwa [if_pos (by omega)] at h1
  · -- tile by tile
    let I : Int → Glob S (Blk K) → Prop := fun t g' =>
      Clean P.ranks g' ∧
      (∀ r, OnlyPanel R (g.st r) (g'.st r) ∧ (¬ (r ∈ P.ranks ∧ act (r.get axis.orth) = true) → g'.st r = g.st r)) ∧
      ∀ r ∈ P.ranks, act (r.get axis.orth) = true → PanelIs (P.at' axis.orth r) tall tile ax s e
        (if r.get axis = root then content (P.at' axis.orth r) s e W else content (P.at' axis.orth r) s t W) (R.get (g'.st r))
    let F : Int → Coord2 → List (Instr S (Blk K)) := fun t r =>
      if r ∈ P.ranks ∧ act (r.get axis.orth) = true then
        if (P.get axis.orth).dist.rank_global_tile t = r.get axis.orth then
          if r.get axis = root then
            bcastSend (panelChan axis r) root (R.read dbg ((P.at' axis.orth r).dist.local_tile_from_global_tile t))
          else bcastRecv (panelChan axis r) root fun st b =>
            R.upd (fun v => v.write dbg ((P.at' axis.orth r).dist.local_tile_from_global_tile t) b) st
        else []
      else []
    obtain ⟨g', hrun, hc', h1, h2⟩ := Runs.range (p := F) hse I (g := g) (by
        refine ⟨hc, fun r => ⟨.refl hR _, fun _ => rfl⟩, ?_⟩
        intro r hr ha
        have := h0 r hr ha
        rwa [content_self]) (by
        rintro t h1 h2 g1 ⟨c1, o1, p1⟩
        -- who takes part
        let on : Coord2 → Prop := fun r => act (r.get axis.orth) = true ∧ (P.get axis.orth).dist.rank_global_tile t = r.get axis.orth
        have hdec : ∀ r, Decidable (on r) := fun r => inferInstanceAs (Decidable (_ ∧ _))
        have plain : ∀ r ∈ P.ranks, Tiled (P.at' axis.orth r) := fun r hr => Params2.tiled hP hr
        have own : ∀ r, on r → (P.at' axis.orth r).dist.rank_global_tile t = (P.at' axis.orth r).rank := fun r h => h.2
        -- reading at the root
        have hread : ∀ r ∈ P.ranks, on r → r.get axis = root → ∃ v, R.read dbg
            ((P.at' axis.orth r).dist.local_tile_from_global_tile t) (g1.st r) = some (R.set (g1.st r) v, W t) ∧
            PanelIs (P.at' axis.orth r) tall tile ax s e (content (P.at' axis.orth r) s e W) v := by
          intro r hr hon hx
          have hp := p1 r hr hon.1
          rw [if_pos hx] at hp
          obtain ⟨k1, k2⟩ := content_some (plain r hr).valid hs h1 h2 W (own r hon)
          obtain ⟨v, e1, e2⟩ := hp.read (dbg := dbg) (plain r hr) hax hs k2 k1
          exact ⟨v, by unfold PRef.read; rw [e1]; rfl, e2⟩
        have hrecv : ∀ r ∈ P.ranks, on r → r.get axis ≠ root → ∃ v, R.upd (fun v => v.write dbg
            ((P.at' axis.orth r).dist.local_tile_from_global_tile t) (W t)) (g1.st r) = some (R.set (g1.st r) v) ∧
            PanelIs (P.at' axis.orth r) tall tile ax s e (content (P.at' axis.orth r) s (t + 1) W) v := by
          intro r hr hon hx
          have hp := p1 r hr hon.1
          rw [if_neg hx] at hp
          obtain ⟨k1, k2⟩ := content_owned (plain r hr).valid hs h1 W (own r hon)
          have k3 := (content_some (plain r hr).valid hs h1 h2 W (own r hon)).2
          obtain ⟨v, e1, e2⟩ := hp.write (dbg := dbg) (plain r hr) hax hs k3 k2 (b := W t) (by
            rw [tsz_owned (plain r hr).valid (by omega) (own r hon), tileSize_onRank]
            exact hW t h1 h2)
          refine ⟨v, by unfold PRef.upd; beta_reduce; rw [e1]; rfl, ?_⟩
          rwa [k1] at e2
        classical
        let s' : Coord2 → S := fun r => if h : r ∈ P.ranks ∧ on r then
          if hx : r.get axis = root then R.set (g1.st r) (hread r h.1 h.2 hx).choose
          else R.set (g1.st r) (hrecv r h.1 h.2 hx).choose else g1.st r
        have hs'1 : ∀ r (hr : r ∈ P.ranks) (ho : on r) (hx : r.get axis = root),
            s' r = R.set (g1.st r) (hread r hr ho hx).choose := by
          intro r hr ho hx
          simp only [s']
          rw [dif_pos ⟨hr, ho⟩, dif_pos hx]
        have hs'2 : ∀ r (hr : r ∈ P.ranks) (ho : on r) (hx : r.get axis ≠ root),
            s' r = R.set (g1.st r) (hrecv r hr ho hx).choose := by
          intro r hr ho hx
          simp only [s']
          rw [dif_pos ⟨hr, ho⟩, dif_neg hx]
        obtain ⟨g2, hr2, hc2, hst2⟩ := collective_phase hG c1 (p := F t)
          (fun r => if on r then some (panelChan axis r) else none) (fun r => decide (r.get axis = root))
          (fun r => R.read dbg ((P.at' axis.orth r).dist.local_tile_from_global_tile t)) (fun _ => .bcast root)
          (fun r => if r.get axis = root then [] else [(panelChan axis r).rankOf root])
          (fun r => if r.get axis = root then fun st _ => some st else
            recvOne fun st b => R.upd (fun v => v.write dbg ((P.at' axis.orth r).dist.local_tile_from_global_tile t) b) st)
          (fun r => if r.get axis = root then s' r else g1.st r) s' (fun _ => W t)
          (by
            intro r hr
            simp only [F]
            by_cases ha : act (r.get axis.orth) = true
            · rw [if_pos ⟨hr, ha⟩]
              by_cases hw : (P.get axis.orth).dist.rank_global_tile t = r.get axis.orth
              · rw [if_pos hw, if_pos (show on r from ⟨ha, hw⟩)]
                by_cases hx : r.get axis = root
                · simp only [hx, if_true, decide_true]
                  rfl
                · simp only [hx, if_false, decide_false]
                  rfl
              · rw [if_neg hw, if_neg (fun h : on r => hw h.2)]
            · rw [if_neg (fun h => ha h.2), if_neg (fun h : on r => ha h.1)])
          (by
            intro r hr
            simp only [F]
            rw [if_neg (fun h => hr h.1)])
          (by
            intro r hr c hcr
            split at hcr
            · rename_i hon
              simp only [Option.some.injEq] at hcr
              subst hcr
              refine ⟨(chan_has axis r r).2 rfl, ?_⟩
              intro q hq hh
              have hqr := (chan_has axis r q).1 hh
              have : on q := ⟨by rw [hqr]; exact hon.1, by rw [hqr]; exact hon.2⟩
              rw [if_pos this, chan_eq axis hqr]
            · simp at hcr)
          (by
            intro r hr c hcr
            split at hcr
            · rename_i hon
              by_cases hx : r.get axis = root
              · simp only [hx, decide_true, if_true]
                rw [hs'1 r hr hon hx]
                exact (hread r hr hon hx).choose_spec.1
              · simp [hx]
            · simp at hcr)
          (by
            intro r hr c hcr q hq
            split at hcr
            · rename_i hon
              simp only [Option.some.injEq] at hcr
              subst hcr
              split at hq
              · simp at hq
              · rw [List.mem_singleton] at hq
                subst hq
                obtain ⟨a1, a2⟩ := chan_rankOf axis r root
                refine ⟨Params2.mem_ranks' axis (by rw [a1]; exact hroot) (by rw [a2]; exact Params2.mem_ranks.1 hr _),
                  (chan_has axis r _).2 a2, by simp [a1]⟩
            · simp at hcr)
          (by
            intro r hr c hcr
            split at hcr
            · rename_i hon
              by_cases hx : r.get axis = root
              · simp [hx]
              · simp only [hx, if_false, List.map_cons, List.map_nil]
                rw [hs'2 r hr hon hx]
                exact (hrecv r hr hon hx).choose_spec.1
            · simp at hcr)
        refine ⟨g2, hr2, hc2, ?_, ?_⟩
        · intro r
          have hst := hst2 r
          by_cases h : r ∈ P.ranks ∧ on r
          · rw [if_pos (by simp [h.1, h.2])] at hst
            have : OnlyPanel R (g1.st r) (g2.st r) := by
              rw [hst]
              by_cases hx : r.get axis = root
              · exact ⟨_, hs'1 r h.1 h.2 hx⟩
              · exact ⟨_, hs'2 r h.1 h.2 hx⟩
            exact ⟨(o1 r).1.trans hR this, fun hn => absurd ⟨h.1, h.2.1⟩ hn⟩
          · have : g2.st r = g1.st r := by
              rw [hst, if_neg]
              rintro ⟨a, b⟩
              split at b
              · exact h ⟨a, by assumption⟩
              · simp at b
            rw [this]
            exact o1 r
        · intro r hr ha
          have hst := hst2 r
          by_cases h : on r
          · rw [if_pos (by simp [hr, h])] at hst
            rw [hst]
            by_cases hx : r.get axis = root
            · rw [if_pos hx, hs'1 r hr h hx, hR.get_set]
              exact (hread r hr h hx).choose_spec.2
            · rw [if_neg hx, hs'2 r hr h hx, hR.get_set]
              exact (hrecv r hr h hx).choose_spec.2
          · rw [if_neg (by simp [h])] at hst
            rw [hst]
            have := p1 r hr ha
            rwa [content_not_owned (plain r hr).valid hs h1 W (fun hh => h ⟨ha, hh⟩)])
    refine ⟨g', (hA.append hrun).congr ?_, hc', h1, ?_⟩
    · intro r
      by_cases hr : r ∈ P.ranks ∧ act (r.get axis.orth) = true
      · rw [if_pos hr, if_pos hr]
        have hpl := (Params2.tiled hP hr.1).valid
        unfold bcastPanel
        dsimp only
        rw [if_neg (by rw [P.on_get]; exact hg1), P.on_get, P.on_get, local_flatMap hpl hs hse]
        congr 1
        simp only [F, hr, and_self, if_true]
        rfl
      · rw [if_neg hr, if_neg hr]
        simp [F, hr]
    · intro r hr ha
      have := h2 r hr ha
      rwa [ite_self] at this


theorem orth_orth (c : Coord) : c.orth.orth = c := by cases c <;> rfl

/-- Only the panels `R` and `RT` differ. -/
def OnlyPanels (R RT : PRef S K) (a b : S) : Prop := ∃ v w, b = RT.set (R.set a v) w

theorem OnlyPanels.refl {R RT : PRef S K} (hR : R.Lawful) (hT : RT.Lawful) (a : S) : OnlyPanels R RT a a :=
  ⟨R.get a, RT.get a, by rw [hR.set_get, hT.set_get]⟩

theorem OnlyPanels.trans {R RT : PRef S K} (hR : R.Lawful) (hT : RT.Lawful) (ha : R.Apart RT) {a b c : S}
    (h : OnlyPanels R RT a b) (h' : OnlyPanels R RT b c) : OnlyPanels R RT a c := by
  obtain ⟨v, w, rfl⟩ := h
  obtain ⟨v', w', rfl⟩ := h'
  exact ⟨v', w', by rw [ha.comm, hT.set_set, hR.set_set]⟩

theorem OnlyPanels.left {R RT : PRef S K} (hT : RT.Lawful) (ha : R.Apart RT) {a b : S}
    (h : OnlyPanel R a b) : OnlyPanels R RT a b := by
  obtain ⟨v, rfl⟩ := h
  exact ⟨v, RT.get a, by rw [← ha.get_right a v, hT.set_get]⟩

theorem OnlyPanels.right {R RT : PRef S K} (hR : R.Lawful) {a b : S}
    (h : OnlyPanel RT a b) : OnlyPanels R RT a b := by
  obtain ⟨v, rfl⟩ := h
  exact ⟨R.get a, v, by rw [hR.set_get]⟩

/-- STEP 2 of the two-panel broadcast. -/
theorem bcastTransposed_runs {P : Params2} {axis : Coord} (hP : Plain (P.get axis.orth)) (hPT : Plain (P.get axis))
    {R RT : PRef S K} (hR : R.Lawful) (hRT : RT.Lawful) (hap : R.Apart RT) {dbg tall tallT : Bool} {tile tileT ax axT s e sT eT : Int}
    (hax : 0 ≤ ax) (haxT : 0 ≤ axT) (hs : 0 ≤ s) (hsT : s ≤ sT) (hseT : sT ≤ eT) (heT : eT ≤ e)
    (W : Int → Blk K)
    (hWT : ∀ t, sT ≤ t → t < eT → VPanel.fits tallT (W t) axT ((P.get axis).dist.global_tile_size_of t) = true)
    {g : Glob S (Blk K)} (hc : Clean P.ranks g)
    (h0 : ∀ r ∈ P.ranks, PanelIs (P.at' axis.orth r) tall tile ax s e (content (P.at' axis.orth r) s e W) (R.get (g.st r)) ∧
      PanelIs (P.at' axis r) tallT tileT axT sT eT (fun _ => none) (RT.get (g.st r))) :
    ∃ g', Runs (fun r => if r ∈ P.ranks then
        (irange sT eT).flatMap (bcastTransposed dbg axis (P.on r) R RT) else []) g g' ∧ Clean P.ranks g' ∧
      (∀ r, OnlyPanels R RT (g.st r) (g'.st r) ∧ (r ∉ P.ranks → g'.st r = g.st r)) ∧
      ∀ r ∈ P.ranks, PanelIs (P.at' axis.orth r) tall tile ax s e (content (P.at' axis.orth r) s e W) (R.get (g'.st r)) ∧
        PanelIs (P.at' axis r) tallT tileT axT sT eT (content (P.at' axis r) sT eT W) (RT.get (g'.st r)) := by
  have hG := P.ranks_nodup
  let I : Int → Glob S (Blk K) → Prop := fun t g' =>
    Clean P.ranks g' ∧ (∀ r, OnlyPanels R RT (g.st r) (g'.st r) ∧ (r ∉ P.ranks → g'.st r = g.st r)) ∧
    ∀ r ∈ P.ranks, PanelIs (P.at' axis.orth r) tall tile ax s e (content (P.at' axis.orth r) s e W) (R.get (g'.st r)) ∧
      PanelIs (P.at' axis r) tallT tileT axT sT eT (content (P.at' axis r) sT t W) (RT.get (g'.st r))
  obtain ⟨g', hrun, h1, h2, h3⟩ := Runs.range (p := fun t r => if r ∈ P.ranks then
      bcastTransposed dbg axis (P.on r) R RT t else []) hseT I (g := g)
    ⟨hc, fun r => ⟨.refl hR hRT _, fun _ => rfl⟩, fun r hr => ⟨(h0 r hr).1, by rw [content_self]; exact (h0 r hr).2⟩⟩ (by
      rintro k k1 k2 g1 ⟨c1, o1, p1⟩
      have plain : ∀ r ∈ P.ranks, Plain (P.at' axis.orth r) := fun r hr => Params2.plain hP hr
      have plainT : ∀ r ∈ P.ranks, Plain (P.at' axis r) := fun r hr => Params2.plain hPT hr
      -- the owners
      let onT : Coord2 → Prop := fun r => (P.get axis).dist.rank_global_tile k = r.get axis
      let onC : Coord2 → Prop := fun r => (P.get axis.orth).dist.rank_global_tile k = r.get axis.orth
      have dT : ∀ r, Decidable (onT r) := fun r => inferInstanceAs (Decidable (_ = _))
      have dC : ∀ r, Decidable (onC r) := fun r => inferInstanceAs (Decidable (_ = _))
      let loc : Coord2 → S → Option S := fun r st =>
        (R.read dbg ((P.at' axis.orth r).dist.local_tile_from_global_tile k) st).bind fun sb =>
          RT.upd (fun v => v.setTile dbg ((P.at' axis r).dist.local_tile_from_global_tile k) sb.2) sb.1
      have hloc : ∀ r ∈ P.ranks, onT r → onC r → ∃ v w, loc r (g1.st r) = some (RT.set (R.set (g1.st r) v) w) ∧
          PanelIs (P.at' axis.orth r) tall tile ax s e (content (P.at' axis.orth r) s e W) v ∧
          PanelIs (P.at' axis r) tallT tileT axT sT eT (content (P.at' axis r) sT (k + 1) W) w := by
        intro r hr hT hC
        obtain ⟨q1, q2⟩ := p1 r hr
        obtain ⟨j1, j2⟩ := content_some (plain r hr).valid (e := e) hs (by omega) (by omega) W hC
        obtain ⟨v, e1, e2⟩ := q1.read (dbg := dbg) (plain r hr) hax hs j2 j1
        obtain ⟨i1, i2⟩ := content_owned (plainT r hr).valid (s := sT) (by omega) k1 W hT
        have i3 := (content_some (plainT r hr).valid (s := sT) (e := eT) (by omega) k1 k2 W hT).2
        obtain ⟨w, f1, f2⟩ := q2.setTile (dbg := dbg) (plainT r hr) (by omega) i3 i2 (b := W k) (by
          rw [tsz_owned (plainT r hr).valid (by omega) hT, tileSize_onRank]
          exact hWT k k1 k2)
        refine ⟨v, w, ?_, e2, by rwa [i1] at f2⟩
        simp only [loc]
        unfold PRef.read PRef.upd
        rw [e1, Option.map_some, Option.bind_some]
        dsimp only
        rw [hap.get_right, f1]
        rfl
      classical
      let s1 : Coord2 → S := fun r => if h : r ∈ P.ranks ∧ onT r ∧ onC r then
        RT.set (R.set (g1.st r) (hloc r h.1 h.2.1 h.2.2).choose) (hloc r h.1 h.2.1 h.2.2).choose_spec.choose else g1.st r
      have hs1 : ∀ r ∈ P.ranks, onT r → onC r → loc r (g1.st r) = some (s1 r) ∧ OnlyPanels R RT (g1.st r) (s1 r) ∧
          PanelIs (P.at' axis.orth r) tall tile ax s e (content (P.at' axis.orth r) s e W) (R.get (s1 r)) ∧
          PanelIs (P.at' axis r) tallT tileT axT sT eT (content (P.at' axis r) sT (k + 1) W) (RT.get (s1 r)) := by
        intro r hr hT hC
        have := (hloc r hr hT hC).choose_spec.choose_spec
        simp only [s1]
        rw [dif_pos ⟨hr, hT, hC⟩]
        refine ⟨this.1, ⟨_, _, rfl⟩, ?_, ?_⟩
        · rw [hap.get_left, hR.get_set]; exact this.2.1
        · rw [hRT.get_set]; exact this.2.2
      let L := P.ranks.filter fun r => decide (onT r ∧ onC r)
      have mL : ∀ r, r ∈ L ↔ r ∈ P.ranks ∧ onT r ∧ onC r := by intro r; simp [L]
      have hA := Runs.loc (V := Blk K) (p := fun r => if r ∈ L then [.loc (loc r)] else []) (g := g1) (L := L) (hG.filter _)
        loc s1 (fun r => rfl) (fun r hr => (hs1 r ((mL r).1 hr).1 ((mL r).1 hr).2.1 ((mL r).1 hr).2.2).1)
      have cA := c1.withSt (fun r => if r ∈ L then s1 r else g1.st r)
      revert hA cA
      generalize hgA : ({ g1 with st := fun r => if r ∈ L then s1 r else g1.st r } : Glob S (Blk K)) = gA
      intro hA cA
      have stA : ∀ r, gA.st r = if r ∈ L then s1 r else g1.st r := by intro r; rw [← hgA]
      have oA : ∀ r, OnlyPanels R RT (g.st r) (gA.st r) ∧ (r ∉ P.ranks → gA.st r = g.st r) := by
        intro r
        rw [stA]
        by_cases h : r ∈ L
        · obtain ⟨a1, a2, a3⟩ := (mL r).1 h
          rw [if_pos h]
          exact ⟨(o1 r).1.trans hR hRT hap (hs1 r a1 a2 a3).2.1, fun hn => absurd a1 hn⟩
        · rw [if_neg h]
          exact o1 r
      have pA : ∀ r ∈ P.ranks, PanelIs (P.at' axis.orth r) tall tile ax s e (content (P.at' axis.orth r) s e W) (R.get (gA.st r)) ∧
          PanelIs (P.at' axis r) tallT tileT axT sT eT (content (P.at' axis r) sT (if onT r ∧ onC r then k + 1 else k) W)
            (RT.get (gA.st r)) := by
        intro r hr
        rw [stA]
        by_cases h : onT r ∧ onC r
        · rw [if_pos ((mL r).2 ⟨hr, h⟩), if_pos h]
          exact (hs1 r hr h.1 h.2).2.2
        · rw [if_neg (fun hh => h ((mL r).1 hh).2), if_neg h]
          exact p1 r hr
      -- without the collective
      have hprog : ∀ r ∈ P.ranks, bcastTransposed dbg axis (P.on r) R RT k =
          (if onT r ∧ onC r then [.loc (loc r)] else []) ++
          (if (P.get axis.orth).grid > 1 then if onT r then if onC r then
            bcastSend (panelChan axis.orth r) ((P.get axis.orth).dist.rank_global_tile k)
              (RT.read dbg ((P.at' axis r).dist.local_tile_from_global_tile k))
            else bcastRecv (panelChan axis.orth r) ((P.get axis.orth).dist.rank_global_tile k) fun st b =>
              RT.upd (fun v => v.write dbg ((P.at' axis r).dist.local_tile_from_global_tile k) b) st
            else [] else []) := by
        intro r hr
        unfold bcastTransposed
        simp only [P.on_get]
        by_cases hT : onT r
        · have hT' : ((P.get axis).onRank (r.get axis)).dist.rank_global_tile k = ((P.get axis).onRank (r.get axis)).dist.rank := hT
          rw [if_pos hT']
          by_cases hC : onC r
          · have hC' : ((P.get axis.orth).onRank (r.get axis.orth)).dist.rank_global_tile k =
              ((P.get axis.orth).onRank (r.get axis.orth)).dist.rank := hC
            rw [if_pos hC', ← hC']
            simp only [hT, hC, and_self, if_true]
            rfl
          · have hC' : ¬ ((P.get axis.orth).onRank (r.get axis.orth)).dist.rank_global_tile k =
              ((P.get axis.orth).onRank (r.get axis.orth)).dist.rank := hC
            rw [if_neg hC']
            simp only [hT, hC, and_false, if_true, if_false, List.nil_append]
            rfl
        · have hT' : ¬ ((P.get axis).onRank (r.get axis)).dist.rank_global_tile k = ((P.get axis).onRank (r.get axis)).dist.rank := hT
          rw [if_neg hT', if_neg (fun h => hT h.1)]
          simp [hT]
      by_cases hgr : (P.get axis.orth).grid > 1
      · have hrr : 0 ≤ (P.get axis.orth).dist.rank_global_tile k ∧
            (P.get axis.orth).dist.rank_global_tile k < (P.get axis.orth).grid := hP.valid.wf.cyc.rank_range (by omega)
        have rootEq : ∀ r, onT r → (r = (panelChan axis.orth r).rankOf ((P.get axis.orth).dist.rank_global_tile k) ↔ onC r) := by
          intro r _
          obtain ⟨a1, a2⟩ := chan_rankOf axis.orth r ((P.get axis.orth).dist.rank_global_tile k)
          constructor
          · intro h
            rw [← h] at a1
            exact a1.symm
          · intro h
            exact coord_ext axis.orth (by rw [a1]; exact h.symm) a2.symm
        have hread : ∀ r ∈ P.ranks, onT r → onC r → ∃ w, RT.read dbg
            ((P.at' axis r).dist.local_tile_from_global_tile k) (gA.st r) = some (RT.set (gA.st r) w, W k) ∧
            PanelIs (P.at' axis r) tallT tileT axT sT eT (content (P.at' axis r) sT (k + 1) W) w := by
          intro r hr hT hC
          have q := (pA r hr).2
          rw [if_pos ⟨hT, hC⟩] at q
          have j2 := (content_some (plainT r hr).valid (s := sT) (e := eT) (by omega) k1 k2 W hT).2
          obtain ⟨j1, _⟩ := content_some (plainT r hr).valid (s := sT) (e := k + 1) (by omega) k1 (by omega) W hT
          obtain ⟨v, e1, e2⟩ := q.read (dbg := dbg) (plainT r hr) haxT (by omega) j2 j1
          exact ⟨v, by unfold PRef.read; rw [e1]; rfl, e2⟩
        have hrecv : ∀ r ∈ P.ranks, onT r → ¬ onC r → ∃ w, RT.upd (fun v => v.write dbg
            ((P.at' axis r).dist.local_tile_from_global_tile k) (W k)) (gA.st r) = some (RT.set (gA.st r) w) ∧
            PanelIs (P.at' axis r) tallT tileT axT sT eT (content (P.at' axis r) sT (k + 1) W) w := by
          intro r hr hT hC
          have q := (pA r hr).2
          rw [if_neg (fun h => hC h.2)] at q
          obtain ⟨i1, i2⟩ := content_owned (plainT r hr).valid (s := sT) (by omega) k1 W hT
          have i3 := (content_some (plainT r hr).valid (s := sT) (e := eT) (by omega) k1 k2 W hT).2
          obtain ⟨w, f1, f2⟩ := q.write (dbg := dbg) (plainT r hr) haxT (by omega) i3 i2 (b := W k) (by
            rw [tsz_owned (plainT r hr).valid (by omega) hT, tileSize_onRank]
            exact hWT k k1 k2)
          refine ⟨w, by unfold PRef.upd; beta_reduce; rw [f1]; rfl, by rwa [i1] at f2⟩
        let s' : Coord2 → S := fun r => if h : r ∈ P.ranks ∧ onT r then
          if hC : onC r then RT.set (gA.st r) (hread r h.1 h.2 hC).choose
          else RT.set (gA.st r) (hrecv r h.1 h.2 hC).choose else gA.st r
        have hs'1 : ∀ r (hr : r ∈ P.ranks) (hT : onT r) (hC : onC r), s' r = RT.set (gA.st r) (hread r hr hT hC).choose := by
          intro r hr hT hC
          simp only [s']
          rw [dif_pos ⟨hr, hT⟩, dif_pos hC]
        have hs'2 : ∀ r (hr : r ∈ P.ranks) (hT : onT r) (hC : ¬ onC r), s' r = RT.set (gA.st r) (hrecv r hr hT hC).choose := by
          intro r hr hT hC
          simp only [s']
          rw [dif_pos ⟨hr, hT⟩, dif_neg hC]
        obtain ⟨g2, hr2, hc2, hst2⟩ := bcast_phase hG cA (p := fun r => if r ∈ P.ranks then
            if onT r then if onC r then
            bcastSend (panelChan axis.orth r) ((P.get axis.orth).dist.rank_global_tile k)
              (RT.read dbg ((P.at' axis r).dist.local_tile_from_global_tile k))
            else bcastRecv (panelChan axis.orth r) ((P.get axis.orth).dist.rank_global_tile k) fun st b =>
              RT.upd (fun v => v.write dbg ((P.at' axis r).dist.local_tile_from_global_tile k) b) st
            else [] else [])
          (fun r => if onT r then some (panelChan axis.orth r) else none) ((P.get axis.orth).dist.rank_global_tile k)
          (fun r => RT.read dbg ((P.at' axis r).dist.local_tile_from_global_tile k))
          (fun r st b => RT.upd (fun v => v.write dbg ((P.at' axis r).dist.local_tile_from_global_tile k) b) st)
          s' (fun _ => W k)
          (by
            intro r hr
            rw [if_pos hr]
            by_cases hT : onT r
            · rw [if_pos hT, if_pos hT]
              dsimp only
              by_cases hC : onC r
              · rw [if_pos hC, if_pos ((rootEq r hT).2 hC)]
              · rw [if_neg hC, if_neg (fun h => hC ((rootEq r hT).1 h))]
            · rw [if_neg hT, if_neg hT])
          (by intro r hr; rw [if_neg hr])
          (by
            intro r hr c hcr
            split at hcr
            · rename_i hT
              simp only [Option.some.injEq] at hcr
              subst hcr
              refine ⟨(chan_has axis.orth r r).2 rfl, ?_⟩
              intro q hq hh
              have hqr := (chan_has axis.orth r q).1 hh
              have : onT q := by
                rw [orth_orth] at hqr
                show _ = _
                rw [hqr]; exact hT
              rw [if_pos this, chan_eq axis.orth hqr]
            · simp at hcr)
          (by
            intro r hr c hcr
            split at hcr
            · rename_i hT
              simp only [Option.some.injEq] at hcr
              subst hcr
              obtain ⟨a1, a2⟩ := chan_rankOf axis.orth r ((P.get axis.orth).dist.rank_global_tile k)
              exact Params2.mem_ranks' axis.orth (by rw [a1]; exact hrr) (by rw [a2]; exact Params2.mem_ranks.1 hr _)
            · simp at hcr)
          (by
            intro r hr c hcr hx
            split at hcr
            · rename_i hT
              simp only [Option.some.injEq] at hcr
              subst hcr
              have hC := (rootEq r hT).1 hx
              rw [hs'1 r hr hT hC]
              exact (hread r hr hT hC).choose_spec.1
            · simp at hcr)
          (by
            intro r hr c hcr hx
            split at hcr
            · rename_i hT
              simp only [Option.some.injEq] at hcr
              subst hcr
              have hC : ¬ onC r := fun h => hx ((rootEq r hT).2 h)
              rw [hs'2 r hr hT hC]
              exact (hrecv r hr hT hC).choose_spec.1
            · simp at hcr)
        have key : ∀ r, r ∈ P.ranks → onT r → ∃ w, g2.st r = RT.set (gA.st r) w ∧
            PanelIs (P.at' axis r) tallT tileT axT sT eT (content (P.at' axis r) sT (k + 1) W) w := by
          intro r hr hT
          have hst := hst2 r
          rw [if_pos (by simp [hr, hT])] at hst
          by_cases hC : onC r
          · exact ⟨_, hst.trans (hs'1 r hr hT hC), (hread r hr hT hC).choose_spec.2⟩
          · exact ⟨_, hst.trans (hs'2 r hr hT hC), (hrecv r hr hT hC).choose_spec.2⟩
        have keyN : ∀ r, ¬ (r ∈ P.ranks ∧ onT r) → g2.st r = gA.st r := by
          intro r h
          rw [hst2 r, if_neg]
          rintro ⟨a, b⟩
          split at b
          · exact h ⟨a, by assumption⟩
          · simp at b
        refine ⟨g2, (hA.append hr2).congr ?_, hc2, ?_, ?_⟩
        · intro r
          by_cases hr : r ∈ P.ranks
          · rw [if_pos hr, hprog r hr, if_pos hgr]
            simp only [mL, hr, true_and, if_true]
          · simp [hr, mL]
        · intro r
          by_cases h : r ∈ P.ranks ∧ onT r
          · obtain ⟨w, e1, e2⟩ := key r h.1 h.2
            refine ⟨(oA r).1.trans hR hRT hap ?_, fun hn => absurd h.1 hn⟩
            rw [e1]
            exact OnlyPanels.right hR ⟨w, rfl⟩
          · rw [keyN r h]
            exact oA r
        · intro r hr
          by_cases hT : onT r
          · obtain ⟨w, e1, e2⟩ := key r hr hT
            rw [e1, hap.get_left, hRT.get_set]
            exact ⟨(pA r hr).1, e2⟩
          · rw [keyN r (fun h => hT h.2)]
            have := pA r hr
            rw [if_neg (fun h => hT h.1)] at this
            rwa [content_not_owned (plainT r hr).valid (by omega) k1 W hT]
      · refine ⟨gA, hA.congr ?_, cA, oA, ?_⟩
        · intro r
          by_cases hr : r ∈ P.ranks
          · rw [if_pos hr, hprog r hr, if_neg hgr, List.append_nil]
            simp only [mL, hr, true_and]
          · simp [hr, mL]
        · intro r hr
          have := pA r hr
          by_cases hT : onT r
          · have hC : onC r := by
              have h1 := Params2.mem_ranks.1 hr axis.orth
              have h2 : 0 ≤ (P.get axis.orth).dist.rank_global_tile k ∧
                (P.get axis.orth).dist.rank_global_tile k < (P.get axis.orth).grid := hP.valid.wf.cyc.rank_range (by omega)
              show _ = _
              omega
            rwa [if_pos ⟨hT, hC⟩] at this
          · rw [if_neg (fun h => hT h.1)] at this
            rwa [content_not_owned (plainT r hr).valid (by omega) k1 W hT])
  refine ⟨g', hrun.congr ?_, h1, h2, h3⟩
  intro r
  by_cases hr : r ∈ P.ranks <;> simp [hr]


/-- Tiles have the same size along both coordinates of a square matrix with square tiles. -/
theorem Plain.tile_size_eq {p q : Params} (hp : Plain p) (hq : Plain q) (hs : p.size = q.size) (ht : p.tile = q.tile) (t : Int) :
    p.dist.global_tile_size_of t = q.dist.global_tile_size_of t := by
  have e1 : p.dist.global_tile_element_offset = 0 := by rw [hp.valid.gteo_eq, hp.offset, Int.zero_emod]
  have e2 : q.dist.global_tile_element_offset = 0 := by rw [hq.valid.gteo_eq, hq.offset, Int.zero_emod]
  unfold Dist1.global_tile_size_of
  have h3 : p.dist.size = p.size := rfl
  have h4 : q.dist.size = q.size := rfl
  have h5 : p.dist.tileSize = p.tile := rfl
  have h6 : q.dist.tileSize = q.tile := rfl
  rw [e1, e2, h3, h4, h5, h6, hs, ht]

theorem Tiled.nrTiles_def {p : Params} :
    p.dist.nrTiles = if p.size > 0 then ceilDiv (p.size + p.dist.global_tile_element_offset) p.tile else 0 := rfl

theorem Tiled.tile_size_eq {p q : Params} (hp : Tiled p) (hq : Tiled q) (hs : p.size = q.size) (ht : p.tile = q.tile)
    (ho : p.offset % p.tile = q.offset % q.tile) (t : Int) : p.dist.global_tile_size_of t = q.dist.global_tile_size_of t := by
  have e : p.dist.global_tile_element_offset = q.dist.global_tile_element_offset := by rw [hp.valid.gteo_eq, hq.valid.gteo_eq, ho]
  have e3 : p.dist.tileSize = q.dist.tileSize := ht
  have e4 : p.dist.size = q.dist.size := hs
  unfold Dist1.global_tile_size_of
  rw [e, e3, e4]

theorem Tiled.nrTiles_eq {p q : Params} (hp : Tiled p) (hq : Tiled q) (hs : p.size = q.size) (ht : p.tile = q.tile)
    (ho : p.offset % p.tile = q.offset % q.tile) : p.dist.nrTiles = q.dist.nrTiles := by
  have e : p.dist.global_tile_element_offset = q.dist.global_tile_element_offset := by rw [hp.valid.gteo_eq, hq.valid.gteo_eq, ho]
  rw [Tiled.nrTiles_def, Tiled.nrTiles_def, e, hs, ht]

theorem Plain.nrTiles_def {p : Params} (hp : Plain p) :
    p.dist.nrTiles = if p.size > 0 then ceilDiv p.size p.tile else 0 := by
  have e1 : p.dist.global_tile_element_offset = 0 := by rw [hp.valid.gteo_eq, hp.offset, Int.zero_emod]
  have : p.dist.nrTiles = if p.dist.size > 0 then ceilDiv (p.dist.size + p.dist.global_tile_element_offset) p.dist.tileSize
    else 0 := rfl
  rw [this, e1, Int.add_zero]
  rfl

theorem Plain.nrTiles_eq {p q : Params} (hp : Plain p) (hq : Plain q) (hs : p.size = q.size) (ht : p.tile = q.tile) :
    p.dist.nrTiles = q.dist.nrTiles := by
  rw [hp.nrTiles_def, hq.nrTiles_def, hs, ht]

/-- The two-panel broadcast. -/
theorem bcastPanels_runs {P : Params2} {axis : Coord} (hP : Plain (P.get axis.orth)) (hPT : Plain (P.get axis))
    (hsz : P.row.size = P.col.size) (htile : P.row.tile = P.col.tile) {root : Int}
    (hroot : 0 ≤ root ∧ root < (P.get axis).grid)
    {R RT : PRef S K} (hR : R.Lawful) (hRT : RT.Lawful) (hap : R.Apart RT) {dbg tall tallT : Bool} {tile tileT ax axT s e sT eT : Int}
    (hax : 0 ≤ ax) (haxT : 0 ≤ axT) (hs : 0 ≤ s) (hsT : s ≤ sT) (hseT : sT ≤ eT) (heT : eT ≤ e)
    (he : e ≤ (P.get axis.orth).dist.nrTiles)
    (W : Int → Blk K)
    (hW : ∀ t, s ≤ t → t < e → VPanel.fits tall (W t) ax ((P.get axis.orth).dist.global_tile_size_of t) = true)
    (hWT : ∀ t, sT ≤ t → t < eT → VPanel.fits tallT (W t) axT ((P.get axis).dist.global_tile_size_of t) = true)
    {g : Glob S (Blk K)} (hc : Clean P.ranks g)
    (h0 : ∀ r ∈ P.ranks, PanelIs (P.at' axis.orth r) tall tile ax s e
        (if r.get axis = root then content (P.at' axis.orth r) s e W else fun _ => none) (R.get (g.st r)) ∧
      PanelIs (P.at' axis r) tallT tileT axT sT eT (fun _ => none) (RT.get (g.st r))) :
    ∃ g', Runs (fun r => if r ∈ P.ranks then bcastPanels dbg axis (P.on r) root R RT s e sT eT else []) g g' ∧
      Clean P.ranks g' ∧
      (∀ r, OnlyPanels R RT (g.st r) (g'.st r) ∧ (r ∉ P.ranks → g'.st r = g.st r)) ∧
      ∀ r ∈ P.ranks, PanelIs (P.at' axis.orth r) tall tile ax s e (content (P.at' axis.orth r) s e W) (R.get (g'.st r)) ∧
        PanelIs (P.at' axis r) tallT tileT axT sT eT (content (P.at' axis r) sT eT W) (RT.get (g'.st r)) := by
  have hG := P.ranks_nodup
  have hpre : Runs (fun r => if r ∈ P.ranks then [Instr.loc (R.hasRange s e), .loc (RT.hasRange sT eT),
      .loc fun st => if (P.on r).row.size = (P.on r).col.size ∧ (P.on r).row.tileSize = (P.on r).col.tileSize ∧
        s ≤ sT ∧ eT ≤ e then some st else none] else []) g g := by
    have h := Runs.locals (V := Blk K) (g := g) hG
      (fun r => [R.hasRange s e, RT.hasRange sT eT, fun st => if (P.on r).row.size = (P.on r).col.size ∧
        (P.on r).row.tileSize = (P.on r).col.tileSize ∧ s ≤ sT ∧ eT ≤ e then some st else none]) g.st
      (fun r => rfl) (by
        intro r hr
        obtain ⟨h1, h2⟩ := h0 r hr
        have hcond : (P.on r).row.size = (P.on r).col.size ∧ (P.on r).row.tileSize = (P.on r).col.tileSize ∧
          s ≤ sT ∧ eT ≤ e := ⟨hsz, htile, hsT, heT⟩
        have i1 : R.hasRange s e (g.st r) = some (g.st r) := by
          unfold PRef.hasRange; rw [if_pos ⟨h1.start, h1.stop⟩]
        have i2 : RT.hasRange sT eT (g.st r) = some (g.st r) := by
          unfold PRef.hasRange; rw [if_pos ⟨h2.start, h2.stop⟩]
        simp only [List.foldlM_cons, List.foldlM_nil, bind, i1, Option.bind_some, i2, if_pos hcond]
        rfl)
    simp only [ite_self] at h
    exact h.congr (fun r => by simp)
  by_cases hse : s = e
  · have hsT' : sT = eT := by omega
    refine ⟨g, hpre.congr ?_, hc, fun r => ⟨.refl hR hRT _, fun _ => rfl⟩, ?_⟩
    · intro r
      unfold bcastPanels
      simp [hse]
    · intro r hr
      obtain ⟨h1, h2⟩ := h0 r hr
      subst hse hsT'
      rw [content_self] at h1 ⊢
      rw [ite_self] at h1
      rw [content_self]
      exact ⟨h1, h2⟩
  · obtain ⟨g1, r1, c1, o1, p1⟩ := bcastPanel_runs (dbg := dbg) hP hroot hR hax hs (by omega) he (fun _ => true) W hW hc
      (fun r hr _ => (h0 r hr).1)
    have pT : ∀ r ∈ P.ranks, PanelIs (P.at' axis r) tallT tileT axT sT eT (fun _ => none) (RT.get (g1.st r)) := by
      intro r hr
      obtain ⟨v, hv⟩ := (o1 r).1
      rw [hv, hap.get_right]
      exact (h0 r hr).2
    obtain ⟨g2, r2, c2, o2, p2⟩ := bcastTransposed_runs (dbg := dbg) hP hPT hR hRT hap hax haxT hs hsT hseT heT W hWT c1
      (fun r hr => ⟨p1 r hr rfl, pT r hr⟩)
    refine ⟨g2, ((hpre.append r1).append r2).congr ?_, c2, ?_, p2⟩
    · intro r
      by_cases hr : r ∈ P.ranks
      · simp only [hr, if_true, and_self]
        unfold bcastPanels
        rw [if_neg hse, List.append_assoc]
      · simp [hr]
    · intro r
      refine ⟨(OnlyPanels.left hRT hap (o1 r).1).trans hR hRT hap (o2 r).1, ?_⟩
      intro hr
      rw [(o2 r).2 hr, (o1 r).2 (fun h => hr h.1)]

/-- The collectives of the one-panel broadcast. -/
theorem bcastPanel_sigs {P : Params2} {axis : Coord} (hP : Tiled (P.get axis.orth)) {r : Coord2} (hr : r ∈ P.ranks)
    (dbg : Bool) (root : Int) (R : PRef S K) {s e : Int} (hs : 0 ≤ s) (hse : s ≤ e) (c : Chan) :
    sigs c (bcastPanel dbg axis (P.on r) root R s e) = if (P.get axis).grid ≤ 1 then [] else
      (irange s e).flatMap fun t => if (P.get axis.orth).dist.rank_global_tile t = r.get axis.orth then
        if panelChan axis r = c then [.bcast root] else [] else [] := by
  have hpl := (Params2.tiled hP hr).valid
  have key : ∀ (xs : List Int), xs.flatMap (fun i => sigs c (if ((P.on r).get axis).rank = root then
      bcastSend (panelChan axis ⟨(P.on r).row.rank, (P.on r).col.rank⟩) root (R.read dbg i)
      else bcastRecv (panelChan axis ⟨(P.on r).row.rank, (P.on r).col.rank⟩) root fun s b =>
        R.upd (fun v => v.write dbg i b) s)) = xs.flatMap fun i => if panelChan axis r = c then [.bcast root] else [] := by
    intro xs
    congr 1
    funext i
    split
    · exact sigs_bcastSend _ _ _ _
    · exact sigs_bcastRecv _ _ _ _
  unfold bcastPanel
  dsimp only
  rw [sigs_append]
  show [] ++ _ = _
  rw [List.nil_append, P.on_get r axis]
  by_cases hg : (P.get axis).grid ≤ 1
  · rw [if_pos (show ((P.get axis).onRank (r.get axis)).dist.grid ≤ 1 from hg), if_pos hg]
    rfl
  · rw [if_neg (show ¬ ((P.get axis).onRank (r.get axis)).dist.grid ≤ 1 from hg), if_neg hg, sigs_flatMap, ← P.on_get r axis, key,
      P.on_get r axis.orth, local_flatMap hpl hs hse]
    rfl

/-- The collectives of one iteration of STEP 2. -/
theorem bcastTransposed_sigs {P : Params2} {axis : Coord} {r : Coord2}
    (dbg : Bool) (R RT : PRef S K) (k : Int) (c : Chan) :
    sigs c (bcastTransposed dbg axis (P.on r) R RT k) = if (P.get axis.orth).grid > 1 then
      if (P.get axis).dist.rank_global_tile k = r.get axis then
        if panelChan axis.orth r = c then [.bcast ((P.get axis.orth).dist.rank_global_tile k)] else [] else [] else [] := by
  unfold bcastTransposed
  simp only [P.on_get]
  by_cases hT : (P.get axis).dist.rank_global_tile k = r.get axis
  · rw [if_pos (show ((P.get axis).onRank (r.get axis)).dist.rank_global_tile k =
      ((P.get axis).onRank (r.get axis)).dist.rank from hT)]
    simp only [hT, if_true]
    by_cases hC : ((P.get axis.orth).onRank (r.get axis.orth)).dist.rank_global_tile k =
      ((P.get axis.orth).onRank (r.get axis.orth)).dist.rank
    · rw [if_pos hC, sigs_append]
      show [] ++ _ = _
      rw [List.nil_append, ← hC]
      by_cases hg : (P.get axis.orth).grid > 1
      · rw [if_pos hg, if_pos (show ((P.get axis.orth).onRank (r.get axis.orth)).dist.grid > 1 from hg)]
        exact sigs_bcastSend _ _ _ _
      · rw [if_neg hg, if_neg (show ¬ ((P.get axis.orth).onRank (r.get axis.orth)).dist.grid > 1 from hg)]
        rfl
    · rw [if_neg hC]
      by_cases hg : (P.get axis.orth).grid > 1
      · rw [if_pos hg, if_pos (show ((P.get axis.orth).onRank (r.get axis.orth)).dist.grid > 1 from hg)]
        exact sigs_bcastRecv _ _ _ _
      · rw [if_neg hg, if_neg (show ¬ ((P.get axis.orth).onRank (r.get axis.orth)).dist.grid > 1 from hg)]
        rfl
  · rw [if_neg (show ¬ ((P.get axis).onRank (r.get axis)).dist.rank_global_tile k =
      ((P.get axis).onRank (r.get axis)).dist.rank from hT)]
    simp [hT, sigs]

theorem chan_mem {axis : Coord} {r : Coord2} {c : Chan} (h : c.has r = true) :
    (panelChan axis r = c ∨ panelChan axis.orth r = c) ∨ ∀ ax s, panelChan ax s ≠ c := by
  cases c with
  | row i => cases axis <;> simp_all [Chan.has, panelChan, Coord.orth]
  | col j => cases axis <;> simp_all [Chan.has, panelChan, Coord.orth]
  | pair i a b => exact Or.inr fun ax s => by cases ax <;> simp [panelChan]
  | duo q j a b z => exact Or.inr fun ax s => by cases ax <;> simp [panelChan]
  | full q => exact Or.inr fun ax s => by cases ax <;> simp [panelChan]

theorem chan_ne (axis : Coord) (r s : Coord2) : panelChan axis r ≠ panelChan axis.orth s := by
  cases axis <;> simp [panelChan, Coord.orth]

/-- The members of a communicator perform the same collectives in a two-panel broadcast. -/
theorem bcastPanels_sigs {P : Params2} {axis : Coord} (hP : Plain (P.get axis.orth)) (dbg : Bool) (root : Int)
    (R RT : PRef S K) {s e sT eT : Int} (hs : 0 ≤ s) (hse : s ≤ e) {c : Chan} {r q : Coord2} (hr : r ∈ P.ranks) (hq : q ∈ P.ranks)
    (h1 : c.has r = true) (h2 : c.has q = true) :
    sigs c (bcastPanels dbg axis (P.on r) root R RT s e sT eT) = sigs c (bcastPanels dbg axis (P.on q) root R RT s e sT eT) := by
  have key : ∀ r ∈ P.ranks, sigs c (bcastPanels dbg axis (P.on r) root R RT s e sT eT) = if s = e then [] else
      sigs c (bcastPanel dbg axis (P.on r) root R s e) ++
        (irange sT eT).flatMap fun k => sigs c (bcastTransposed dbg axis (P.on r) R RT k) := by
    intro r _
    unfold bcastPanels
    rw [sigs_append]
    show [] ++ _ = _
    rw [List.nil_append]
    split
    · rfl
    · rw [sigs_append, sigs_flatMap]
  rw [key r hr, key q hq, bcastPanel_sigs hP hr dbg root R hs hse, bcastPanel_sigs hP hq dbg root R hs hse]
  simp only [bcastTransposed_sigs]
  rcases chan_mem (axis := axis) h1 with (rfl | rfl) | n1
  · have hqr := (chan_has axis r q).1 h2
    have e1 : panelChan axis q = panelChan axis r := chan_eq axis hqr
    have n1 : ∀ r', ¬ panelChan axis.orth r' = panelChan axis r := fun r' h => chan_ne axis r r' h.symm
    simp only [e1, hqr, n1, if_false, ite_self, if_true]
  · have hqr := (chan_has axis.orth r q).1 h2
    have e1 : panelChan axis.orth q = panelChan axis.orth r := chan_eq axis.orth hqr
    have n1 : ∀ r', ¬ panelChan axis r' = panelChan axis.orth r := fun r' h => chan_ne axis r' r h
    rw [orth_orth] at hqr
    simp only [e1, hqr, n1, if_false, ite_self, if_true]
  · simp only [n1, if_false, ite_self]

end DLAF
