import Verif.Lemmas.DistRedPanel2
/- Distributed reduction to band: the update of the columns right of a reflector, on one process; the loop over the reflectors. -/
namespace DLAF
open scoped Classical
namespace DistRed
variable {K : Type*} [RCLike K] {P : Params2} {n nb band j : Nat} {dt : Coord2 → Dist1}

omit [RCLike K] in
theorem set1_at (p : EPanel K) (i : Int) (b : Option (Blk K)) : set1 p i b i = b := if_pos rfl

section
variable (h : Geo P n nb band j)
include h

/-- The local part of `w`. -/
theorem Geo.wPhase_ps {r : Coord2} (hr : r ∈ onCol P nb band j) {E : RedEnv K} (hE : 0 < E.availP) {A : Elems K} {T : Nat → K} {s : RbSt K}
    (hs : PS P n nb band dt r A T s) {q : Nat} (hq : q < nr n band j) :
    ∃ s' f, wPhase nb band E (P.on r) j q s = some s' ∧
      PS P n nb band dt r (fun x c => if x = (j + 1) * band + q ∧ c = j * band + q then 1 else A x c) T s' ∧
      s'.wv 0 = some ⟨band - (q + 1), 1, f⟩ ∧ (head band (P.on r) j = true → s'.y = A ((j + 1) * band + q) (j * band + q)) ∧
      ∀ c < band - (q + 1), f c 0 = ∑ i ∈ (View.tiles (P.row.onRank r.row).dist (((j + 1) * band : Nat) : Int)).toFinset,
        ∑ x ∈ Finset.range (pc nb n band j ((P.row.onRank r.row).gn i)).2,
          if (j + 1) * band + q ≤ (pc nb n band j ((P.row.onRank r.row).gn i)).1 + x then
            (fun x => star ((fun x c => if x = (j + 1) * band + q ∧ c = j * band + q then 1 else A x c) x (j * band + (q + 1 + c))) *
              (fun x c => if x = (j + 1) * band + q ∧ c = j * band + q then 1 else A x c) x (j * band + q))
              ((pc nb n band j ((P.row.onRank r.row).gn i)).1 + x) else 0 := by
  have hr' := mem_onCol.1 hr
  have hnr : nr n band j = min band (n - band - 1 - j * band) := rfl
  have e0 := h.e0
  obtain ⟨a1, a2, a3⟩ := h.setHead_win hr hs.win (q := q) hq (v := 1) (v0 := 1) (fun _ => rfl)
  generalize hA1 : (fun x c => if x = (j + 1) * band + q ∧ c = j * band + q then (1 : K) else A x c) = A1 at a3 ⊢
  have hwr : ∀ (s : RbSt K) (a b : Nat) (f : Nat → Nat → K), RbSt.rWv.write (a, b) 0 ⟨a, b, f⟩ s = some { s with wv := set1 s.wv 0 (some ⟨a, b, f⟩) } := by
    intro s a b f
    unfold ERef.write
    rw [if_pos ⟨rfl, rfl⟩]
    rfl
  have hset : ∀ (p : EPanel K) (b : Blk K), set1 p 0 (some b) 0 = some b := fun p b => if_pos rfl
  unfold wPhase
  dsimp only
  rw [hwr]
  refine ⟨_, (fun c (_ : Nat) => (upto 1 (nworkers band E (P.on r) j)).foldl (fun x v => x + (workerTiles band E (P.on r) j v).foldl (fun acc i => acc +
      (∑ x ∈ Finset.range (hgt band (P.on r) j i - first band (P.on r) j q i),
      star (el nb band (P.on r) j { setHead nb band (P.on r) j q 1 s with y := el nb band (P.on r) j s (View.begin' (P.on r).row (r0 band j)) q q } i
        (first band (P.on r) j q i + x) (q + 1 + c)) *
      el nb band (P.on r) j { setHead nb band (P.on r) j q 1 s with y := el nb band (P.on r) j s (View.begin' (P.on r).row (r0 band j)) q q } i
        (first band (P.on r) j q i + x) q)) 0)
      ((workerTiles band E (P.on r) j 0).foldl (fun acc i => acc + (∑ x ∈ Finset.range (hgt band (P.on r) j i - first band (P.on r) j q i),
      star (el nb band (P.on r) j { setHead nb band (P.on r) j q 1 s with y := el nb band (P.on r) j s (View.begin' (P.on r).row (r0 band j)) q q } i
        (first band (P.on r) j q i + x) (q + 1 + c)) *
      el nb band (P.on r) j { setHead nb band (P.on r) j q 1 s with y := el nb band (P.on r) j s (View.begin' (P.on r).row (r0 band j)) q q } i
        (first band (P.on r) j q i + x) q)) 0)), rfl, ?_, ?_, ?_, ?_⟩
  · rw [a2]
    exact ⟨a3, hs.tau⟩
  · show set1 (setHead nb band (P.on r) j q 1 s).wv 0 _ 0 = _
    exact hset _ _
  · intro hh
    rw [a2]
    show el nb band (P.on r) j s _ q q = _
    obtain ⟨t1, t2⟩ := h.head_tile hr'.1 hh
    obtain ⟨p1, p2⟩ := h.head_piece hr'.1 t1 t2
    rw [h.el_eq hr hs.win t1 (by rw [h.hgt_eq hr'.1 t1]; omega) (by omega), p1]
  · intro c hc
    have hsum := h.sum_workers (r := r) (E := E) hE (fun i => ∑ x ∈ Finset.range (hgt band (P.on r) j i - first band (P.on r) j q i),
      star (el nb band (P.on r) j { setHead nb band (P.on r) j q 1 s with y := el nb band (P.on r) j s (View.begin' (P.on r).row (r0 band j)) q q } i
        (first band (P.on r) j q i + x) (q + 1 + c)) *
      el nb band (P.on r) j { setHead nb band (P.on r) j q 1 s with y := el nb band (P.on r) j s (View.begin' (P.on r).row (r0 band j)) q q } i
        (first band (P.on r) j q i + x) q)
    refine hsum.trans ?_
    rw [rows_eq]
    refine Finset.sum_congr rfl fun i hi => ?_
    rw [List.mem_toFinset, ← rows_eq] at hi
    rw [← h.tail_sum hr'.1 hi (by omega) (fun x => star (A1 x (j * band + (q + 1 + c))) * A1 x (j * band + q))]
    refine Finset.sum_congr rfl fun x hx => ?_
    rw [Finset.mem_range] at hx
    rw [a2]
    rw [h.el_eq hr (s := { s with a := a1, y := el nb band (P.on r) j s (View.begin' (P.on r).row (r0 band j)) q q }) a3 hi (by omega) (by omega),
      h.el_eq hr (s := { s with a := a1, y := el nb band (P.on r) j s (View.begin' (P.on r).row (r0 band j)) q q }) a3 hi (by omega) (by omega)]

/-- The update of the columns of the panel. -/
theorem Geo.updPhase_ps {r : Coord2} (hr : r ∈ onCol P nb band j) {E : RedEnv K} (hE : 0 < E.availP) {A : Elems K} {T : Nat → K} {s : RbSt K}
    (hs : PS P n nb band dt r A T s) {q : Nat} (hq : q < nr n band j) {f : Nat → Nat → K} (hw : s.wv 0 = some ⟨band - (q + 1), 1, f⟩)
    {w : Nat → K} (hf : ∀ c < band - (q + 1), f c 0 = w c) {y0 : K} (hy : head band (P.on r) j = true → s.y = y0) :
    ∃ s', updPhase nb band E (P.on r) (dt r) j q s = some s' ∧
      PS P n nb band dt r (fun x c => if x = (j + 1) * band + q ∧ c = j * band + q then y0 else
        if ((j + 1) * band + q ≤ x ∧ x < n) ∧ j * band + q + 1 ≤ c ∧ c < j * band + band then
          -(star (T (j * band + q))) * A x (j * band + q) * star (w (c - (j * band + q + 1))) + A x c else A x c) T s' := by
  have hr' := mem_onCol.1 hr
  have hnr : nr n band j = min band (n - band - 1 - j * band) := rfl
  have e0 := h.e0
  have hread : RbSt.rWv.read 0 s = some ⟨band - (q + 1), 1, f⟩ := hw
  unfold updPhase
  rw [hread, Option.map_some, workers_all hE]
  dsimp only
  have htau := h.getTau_eq hr hs.tau hq
  obtain ⟨a4, a5, a6⟩ := h.fold_win hr hs.win
    (u := updTile nb band (P.on r) (dt r) j q ⟨band - (q + 1), 1, f⟩)
    (f := fun i x c => if first band (P.on r) j q i ≤ x ∧ q + 1 ≤ c then
      -(star (T (j * band + q))) * el nb band (P.on r) j s i x q * star (f (c - (q + 1)) 0) + el nb band (P.on r) j s i x c
      else el nb band (P.on r) j s i x c)
    (A' := fun x c => if ((j + 1) * band + q ≤ x ∧ x < n) ∧ j * band + q + 1 ≤ c ∧ c < j * band + band then
          -(star (T (j * band + q))) * A x (j * band + q) * star (w (c - (j * band + q + 1))) + A x c else A x c)
    (fun i hi s' e1 e2 => by
      unfold updTile
      have hg : getTau nb band (dt r) j q s' = T (j * band + q) := by
        rw [← htau]
        unfold getTau
        rw [e2]
      rw [hg]
      congr 1
      funext x c
      unfold el
      rw [e1])
    (fun i hi x hx c hc => by
      have hpr := (h.piece_range hr'.1 hi).2
      have hh := h.hgt_eq hr'.1 hi
      have hf' := h.first_le hr'.1 hi (q := q) (x := x) (by omega)
      have hel := h.el_eq hr hs.win hi hx hc
      have hel2 := h.el_eq hr hs.win hi hx (show q < band by omega)
      rw [hel, hel2]
      by_cases e : first band (P.on r) j q i ≤ x ∧ q + 1 ≤ c
      · rw [if_pos e, if_pos ⟨⟨hf'.1 e.1, by omega⟩, by omega, by omega⟩, hf _ (by omega)]
        rw [show j * band + c - (j * band + q + 1) = c - (q + 1) by omega]
      · rw [if_neg e, if_neg (fun e' => e ⟨hf'.2 e'.1.1, by omega⟩)])
    (fun x hx y' hy' => by rw [if_neg (by omega)])
  rw [a5]
  obtain ⟨a7, a8, a9⟩ := h.setHead_win hr (s := { s with a := a4 }) a6 (q := q) hq (v := s.y) (v0 := y0) hy
  rw [a8]
  exact ⟨_, rfl, a9, hs.tau⟩

theorem Geo.rc_range : 0 ≤ rc P nb band j ∧ rc P nb band j < P.col.grid := by
  have a := h.a2
  exact a.plain.valid.wf.cyc.rank_range (Int.natCast_nonneg _)

theorem Geo.on_mk {t : Int} (h0 : 0 ≤ t) (h1 : t < P.row.grid) : (⟨t, rc P nb band j⟩ : Coord2) ∈ onCol P nb band j := by
  have := h.rc_range
  exact mem_onCol.2 ⟨Params2.mem_ranks' .Row ⟨h0, h1⟩ this, rfl⟩

theorem Geo.grid_pos : 0 < P.row.grid := h.a1.plain.valid.wf.grid_pos

omit h in
theorem Runs.if_append {S V : Type*} {L : List Coord2} {p p' : Coord2 → List (Instr S V)} {g g' g'' : Glob S V}
    (h1 : Runs (fun r => if r ∈ L then p r else []) g g') (h2 : Runs (fun r => if r ∈ L then p' r else []) g' g'') :
    Runs (fun r => if r ∈ L then p r ++ p' r else []) g g'' :=
  (h1.append h2).congr fun r => by by_cases hr : r ∈ L <;> simp [hr]

/-- One column: the reflector and its tau. -/
theorem Geo.refl_runs (hdt : TauInj P n nb band dt) {E : Coord2 → RedEnv K} {sb : K → Bool} (hsb : ∀ r, (E r).signbit = sb) {T0 : Nat → K}
    {S : PanelSt K} {q : Nat} (hq : q < nr n band j) {g : Glob (RbSt K) (Blk K)} (hc : Clean P.ranks g)
    (hs : ∀ r ∈ onCol P nb band j, PS P n nb band dt r S.a (tt j band T0 S) (g.st r)) :
    ∃ g', Runs (fun r => if r ∈ onCol P nb band j then [.loc (x0sq nb band (P.on r) j q)] ++
        allReduceTiles .Row (P.on r) RbSt.rSq (fun _ => (2, 1)) [0] ++ [.loc (reflTau nb band (E r) (P.on r) (dt r) j q)] else []) g g' ∧
      Clean P.ranks g' ∧ (∀ r ∈ onCol P nb band j, PS P n nb band dt r (DLAF.reflTau (cfg n nb band j sb) q S).a
        (tt j band T0 (DLAF.reflTau (cfg n nb band j sb) q S)) (g'.st r)) ∧
      ∀ r ∈ P.ranks, r ∉ onCol P nb band j → g'.st r = g.st r := by
  have hnr : nr n band j = min band (n - band - 1 - j * band) := rfl
  obtain ⟨g1, r1, c1, q1, o1⟩ := Runs.loc_on (onCol_nodup (P := P) (nb := nb) (band := band) (j := j)) hc (fun r => x0sq nb band (P.on r) j q)
    (fun r s' => PS P n nb band dt r S.a (tt j band T0 S) s' ∧ ∃ f, s'.sq 0 = some ⟨2, 1, f⟩ ∧
      f 0 0 = (if P.row.dist.rank_global_tile (((j + 1) * band / nb : Nat) : Int) = r.row then S.a ((j + 1) * band + q) (j * band + q) else 0) ∧
      f 1 0 = ∑ i ∈ (View.tiles (P.row.onRank r.row).dist (((j + 1) * band : Nat) : Int)).toFinset,
        ∑ x ∈ Finset.range (pc nb n band j ((P.row.onRank r.row).gn i)).2,
          if (j + 1) * band + q ≤ (pc nb n band j ((P.row.onRank r.row).gn i)).1 + x then
            (fun x => star (S.a x (j * band + q)) * S.a x (j * band + q)) ((pc nb n band j ((P.row.onRank r.row).gn i)).1 + x) else 0)
    (fun r hr => by
      obtain ⟨f, f1, f2, f3⟩ := h.x0sq_eq hr (hs r hr).win hq
      exact ⟨_, f1, ⟨(hs r hr).win, (hs r hr).tau⟩, f, set1_at (g.st r).sq 0 _, f2, f3⟩)
  have hex : ∀ r, ∃ f, r ∈ onCol P nb band j → (g1.st r).sq 0 = some ⟨2, 1, f⟩ ∧
      f 0 0 = (if P.row.dist.rank_global_tile (((j + 1) * band / nb : Nat) : Int) = r.row then S.a ((j + 1) * band + q) (j * band + q) else 0) ∧
      f 1 0 = ∑ i ∈ (View.tiles (P.row.onRank r.row).dist (((j + 1) * band : Nat) : Int)).toFinset,
        ∑ x ∈ Finset.range (pc nb n band j ((P.row.onRank r.row).gn i)).2,
          if (j + 1) * band + q ≤ (pc nb n band j ((P.row.onRank r.row).gn i)).1 + x then
            (fun x => star (S.a x (j * band + q)) * S.a x (j * band + q)) ((pc nb n band j ((P.row.onRank r.row).gn i)).1 + x) else 0 := by
    intro r
    by_cases hr : r ∈ onCol P nb band j
    · obtain ⟨f, hf⟩ := (q1 r hr).2
      exact ⟨f, fun _ => hf⟩
    · exact ⟨fun _ _ => 0, fun e => absurd e hr⟩
  choose u hu using hex
  obtain ⟨g2, r2, c2, q2, o2⟩ := allReduce_one (nb := nb) (band := band) (j := j) RbSt.rSq_ok h.grid_pos c1 2 1 u (fun r hr => (hu r hr).1)
  have e1 : ((irange 0 P.row.grid).map fun t => u ⟨t, rc P nb band j⟩ 0 0).sum = S.a ((j + 1) * band + q) (j * band + q) :=
    h.sum_head _ (U := fun t => u ⟨t, rc P nb band j⟩ 0 0) fun t t0 t1 => (hu _ (h.on_mk t0 t1)).2.1
  have e2 : ((irange 0 P.row.grid).map fun t => u ⟨t, rc P nb band j⟩ 1 0).sum =
      ∑ x ∈ Finset.Ico ((j + 1) * band + q) n, star (S.a x (j * band + q)) * S.a x (j * band + q) :=
    h.sum_ranks (by omega) (fun x => star (S.a x (j * band + q)) * S.a x (j * band + q))
      (U := fun t => u ⟨t, rc P nb band j⟩ 1 0) fun t t0 t1 => (hu _ (h.on_mk t0 t1)).2.2
  obtain ⟨g3, r3, c3, q3, o3⟩ := Runs.loc_on (onCol_nodup (P := P) (nb := nb) (band := band) (j := j)) c2
    (fun r => reflTau nb band (E r) (P.on r) (dt r) j q)
    (fun r s' => PS P n nb band dt r (DLAF.reflTau (cfg n nb band j sb) q S).a (tt j band T0 (DLAF.reflTau (cfg n nb band j sb) q S)) s')
    (fun r hr => h.reflTau_ps hdt hr (hsb r) (f := fun x y => ((irange 0 P.row.grid).map fun t => u ⟨t, rc P nb band j⟩ x y).sum) (S := S) (T0 := T0) (s := g2.st r) (by rw [q2 r hr]; exact ⟨(q1 r hr).1.win, (q1 r hr).1.tau⟩) hq
      (by rw [q2 r hr]; exact set1_at (g1.st r).sq 0 _) e1 e2)
  refine ⟨g3, Runs.if_append (Runs.if_append r1 r2) r3, c3, q3, fun r hr hr' => ?_⟩
  rw [o3 r hr', o2 r hr hr', o1 r hr']

/-- The update of the columns right of a reflector. -/
theorem Geo.trail_runs {E : Coord2 → RedEnv K} (hE : ∀ r, 0 < (E r).availP) {sb : K → Bool} {T0 : Nat → K}
    {S : PanelSt K} {q : Nat} (hq : q < nr n band j) {g : Glob (RbSt K) (Blk K)} (hc : Clean P.ranks g)
    (hs : ∀ r ∈ onCol P nb band j, PS P n nb band dt r S.a (tt j band T0 S) (g.st r)) :
    ∃ g', Runs (fun r => if r ∈ onCol P nb band j then [.loc (wPhase nb band (E r) (P.on r) j q)] ++
        allReduceTiles .Row (P.on r) RbSt.rWv (fun _ => (band - (q + 1), 1)) [0] ++ [.loc (updPhase nb band (E r) (P.on r) (dt r) j q)] else []) g g' ∧
      Clean P.ranks g' ∧ (∀ r ∈ onCol P nb band j, PS P n nb band dt r (panelTrail (cfg n nb band j sb) 1 q S).a
        (tt j band T0 (panelTrail (cfg n nb band j sb) 1 q S)) (g'.st r)) ∧
      ∀ r ∈ P.ranks, r ∉ onCol P nb band j → g'.st r = g.st r := by
  have hnr : nr n band j = min band (n - band - 1 - j * band) := rfl
  have e0 := h.e0
  obtain ⟨hgr, hok⟩ := h.cfg_ok sb
  obtain ⟨t1, t2⟩ := panelTrail_eq hok hq (nw := 1) (by omega) S
  have hc0 : (cfg n nb band j sb).c0 = j * band := rfl
  have hcl : (cfg n nb band j sb).cols = band := rfl
  have htt : tt j band T0 (panelTrail (cfg n nb band j sb) 1 q S) = tt j band T0 S := by unfold tt; rw [t1]
  rw [htt, t2, hgr, hc0, hcl]
  clear t1 t2
  obtain ⟨A1, hA1⟩ : ∃ A1 : Elems K, A1 = fun x c => if x = (j + 1) * band + q ∧ c = j * band + q then 1 else S.a x c := ⟨_, rfl⟩
  have hwh : withHead (cfg n nb band j sb) q S.a = A1 := by
    rw [hA1]
    funext x c
    unfold withHead
    rw [hgr, hc0]
  rw [hwh]
  obtain ⟨g1, r1, c1, q1, o1⟩ := Runs.loc_on (onCol_nodup (P := P) (nb := nb) (band := band) (j := j)) hc (fun r => wPhase nb band (E r) (P.on r) j q)
    (fun r s' => PS P n nb band dt r A1 (tt j band T0 S) s' ∧ (head band (P.on r) j = true → s'.y = S.a ((j + 1) * band + q) (j * band + q)) ∧
      ∃ f, s'.wv 0 = some ⟨band - (q + 1), 1, f⟩ ∧
      ∀ c < band - (q + 1), f c 0 = ∑ i ∈ (View.tiles (P.row.onRank r.row).dist (((j + 1) * band : Nat) : Int)).toFinset,
        ∑ x ∈ Finset.range (pc nb n band j ((P.row.onRank r.row).gn i)).2,
          if (j + 1) * band + q ≤ (pc nb n band j ((P.row.onRank r.row).gn i)).1 + x then
            (fun x => star (A1 x (j * band + (q + 1 + c))) * A1 x (j * band + q)) ((pc nb n band j ((P.row.onRank r.row).gn i)).1 + x) else 0)
    (fun r hr => by
      obtain ⟨s', f, f1, f2, f3, f4, f5⟩ := h.wPhase_ps (E := E r) hr (hE r) (hs r hr) hq
      rw [hA1]
      exact ⟨s', f1, f2, f4, f, f3, f5⟩)
  have hex : ∀ r, ∃ f, r ∈ onCol P nb band j → (g1.st r).wv 0 = some ⟨band - (q + 1), 1, f⟩ ∧
      ∀ c < band - (q + 1), f c 0 = ∑ i ∈ (View.tiles (P.row.onRank r.row).dist (((j + 1) * band : Nat) : Int)).toFinset,
        ∑ x ∈ Finset.range (pc nb n band j ((P.row.onRank r.row).gn i)).2,
          if (j + 1) * band + q ≤ (pc nb n band j ((P.row.onRank r.row).gn i)).1 + x then
            (fun x => star (A1 x (j * band + (q + 1 + c))) * A1 x (j * band + q)) ((pc nb n band j ((P.row.onRank r.row).gn i)).1 + x) else 0 := by
    intro r
    by_cases hr : r ∈ onCol P nb band j
    · obtain ⟨f, hf⟩ := (q1 r hr).2.2
      exact ⟨f, fun _ => hf⟩
    · exact ⟨fun _ _ => 0, fun e => absurd e hr⟩
  choose u hu using hex
  obtain ⟨g2, r2, c2, q2, o2⟩ := allReduce_one (nb := nb) (band := band) (j := j) RbSt.rWv_ok h.grid_pos c1 (band - (q + 1)) 1 u (fun r hr => (hu r hr).1)
  have e2 : ∀ c < band - (q + 1), ((irange 0 P.row.grid).map fun t => u ⟨t, rc P nb band j⟩ c 0).sum =
      ∑ x ∈ Finset.Ico ((j + 1) * band + q) n, star (A1 x (j * band + (q + 1 + c))) * A1 x (j * band + q) := fun c hc =>
    h.sum_ranks (by omega) (fun x => star (A1 x (j * band + (q + 1 + c))) * A1 x (j * band + q))
      (U := fun t => u ⟨t, rc P nb band j⟩ c 0) fun t t0 t1 => (hu _ (h.on_mk t0 t1)).2 c hc
  obtain ⟨g3, r3, c3, q3, o3⟩ := Runs.loc_on (onCol_nodup (P := P) (nb := nb) (band := band) (j := j)) c2
    (fun r => updPhase nb band (E r) (P.on r) (dt r) j q)
    (fun r s' => PS P n nb band dt r (fun x c => if x = (j + 1) * band + q ∧ c = j * band + q then S.a ((j + 1) * band + q) (j * band + q) else
        if ((j + 1) * band + q ≤ x ∧ x < n) ∧ j * band + q + 1 ≤ c ∧ c < j * band + band then
          -(star (tt j band T0 S (j * band + q))) * A1 x (j * band + q) *
            star ((fun c => ∑ x ∈ Finset.Ico ((j + 1) * band + q) n, star (A1 x (j * band + (q + 1 + c))) * A1 x (j * band + q)) (c - (j * band + q + 1))) + A1 x c
        else A1 x c) (tt j band T0 S) s')
    (fun r hr => h.updPhase_ps (f := fun x y => ((irange 0 P.row.grid).map fun t => u ⟨t, rc P nb band j⟩ x y).sum) (s := g2.st r) hr (hE r) (by rw [q2 r hr]; exact ⟨(q1 r hr).1.win, (q1 r hr).1.tau⟩) hq
      (by rw [q2 r hr]; exact set1_at (g1.st r).wv 0 _) e2 (fun hh => by rw [q2 r hr]; exact (q1 r hr).2.1 hh))
  refine ⟨g3, Runs.if_append (Runs.if_append r1 r2) r3, c3, fun r hr => ?_, fun r hr hr' => ?_⟩
  · have := q3 r hr
    refine (congrArg (fun A => PS P n nb band dt r A (tt j band T0 S) (g3.st r)) ?_).mp this
    funext x c
    have htau : tt j band T0 S (j * band + q) = S.taus q := by
      unfold tt
      rw [if_pos (by omega), Nat.add_sub_cancel_left]
    by_cases e : x = (j + 1) * band + q ∧ c = j * band + q
    · rw [if_pos e, if_neg (by omega), e.1, e.2]
    · rw [if_neg e]
      have hxc : A1 x c = S.a x c := by rw [hA1]; exact if_neg e
      by_cases e3 : ((j + 1) * band + q ≤ x ∧ x < n) ∧ j * band + q + 1 ≤ c ∧ c < j * band + band
      · rw [if_pos e3, if_pos e3, htau, hxc, star_sum]
        have hsum : ∑ z ∈ Finset.Ico ((j + 1) * band + q) n, star (star (A1 z (j * band + (q + 1 + (c - (j * band + q + 1))))) * A1 z (j * band + q)) =
            ∑ z ∈ Finset.Ico ((j + 1) * band + q) n, star (A1 z (j * band + q)) * S.a z c := by
          refine Finset.sum_congr rfl fun z _ => ?_
          rw [star_mul, star_star, show j * band + (q + 1 + (c - (j * band + q + 1))) = c by omega]
          have : A1 z c = S.a z c := by rw [hA1]; exact if_neg (by omega)
          rw [this]
        rw [hsum]
        ring
      · rw [if_neg e3, if_neg e3, hxc]
  · rw [o3 r hr', o2 r hr hr', o1 r hr']

/-- The reflectors of a panel: the processes of its column compute together what one process would. -/
theorem Geo.panel_runs (hdt : TauInj P n nb band dt) {E : Coord2 → RedEnv K} (hE : ∀ r, 0 < (E r).availP) {sb : K → Bool}
    (hsb : ∀ r, (E r).signbit = sb) {T0 : Nat → K} : ∀ fuel q, fuel = nr n band j - q → ∀ (S : PanelSt K) (g : Glob (RbSt K) (Blk K)),
    Clean P.ranks g → (∀ r ∈ onCol P nb band j, PS P n nb band dt r S.a (tt j band T0 S) (g.st r)) →
    ∃ g', Runs (fun r => if r ∈ onCol P nb band j then panelFrom nb band (E r) (P.on r) (dt r) j fuel q else []) g g' ∧
      Clean P.ranks g' ∧ (∀ r ∈ onCol P nb band j, PS P n nb band dt r (DLAF.panelFrom (cfg n nb band j sb) 1 fuel q S).a
        (tt j band T0 (DLAF.panelFrom (cfg n nb band j sb) 1 fuel q S)) (g'.st r)) ∧
      ∀ r ∈ P.ranks, r ∉ onCol P nb band j → g'.st r = g.st r
  | 0, q, _, S, g, hc, hs => ⟨g, .nil (fun r => by simp [panelFrom]) g, hc, hs, fun _ _ _ => rfl⟩
  | fuel + 1, q, hf, S, g, hc, hs => by
    have hq : q < nr n band j := by omega
    obtain ⟨g1, r1, c1, q1, o1⟩ := h.refl_runs hdt hsb hq hc hs
    have hgt : ∀ r ∈ onCol P nb band j, getTau nb band (dt r) j q (g1.st r) = (DLAF.reflTau (cfg n nb band j sb) q S).taus q := by
      intro r hr
      rw [h.getTau_eq hr (q1 r hr).tau hq]
      unfold tt
      rw [if_pos (by omega), Nat.add_sub_cancel_left]
    have hcl : (cfg n nb band j sb).cols = band := rfl
    have key : ∃ g', Runs (fun r => if r ∈ onCol P nb band j then
          (if getTau nb band (dt r) j q (g1.st r) = 0 then panelFrom nb band (E r) (P.on r) (dt r) j fuel (q + 1)
          else if band - (q + 1) = 0 then []
          else [.loc (wPhase nb band (E r) (P.on r) j q)] ++ allReduceTiles .Row (P.on r) RbSt.rWv (fun _ => (band - (q + 1), 1)) [0] ++
            [.loc (updPhase nb band (E r) (P.on r) (dt r) j q)] ++ panelFrom nb band (E r) (P.on r) (dt r) j fuel (q + 1)) else []) g1 g' ∧
        Clean P.ranks g' ∧ (∀ r ∈ onCol P nb band j, PS P n nb band dt r (DLAF.panelFrom (cfg n nb band j sb) 1 (fuel + 1) q S).a
          (tt j band T0 (DLAF.panelFrom (cfg n nb band j sb) 1 (fuel + 1) q S)) (g'.st r)) ∧
        ∀ r ∈ P.ranks, r ∉ onCol P nb band j → g'.st r = g1.st r := by
      unfold DLAF.panelFrom
      dsimp only
      rw [hcl]
      by_cases h0 : (DLAF.reflTau (cfg n nb band j sb) q S).taus q = 0
      · rw [if_pos h0]
        obtain ⟨g2, r2, c2, q2, o2⟩ := Geo.panel_runs hdt hE hsb fuel (q + 1) (by omega) _ g1 c1 q1
        refine ⟨g2, r2.congr fun r => ?_, c2, q2, o2⟩
        by_cases hr : r ∈ onCol P nb band j
        · rw [if_pos hr, if_pos hr, if_pos (by rw [hgt r hr]; exact h0)]
        · rw [if_neg hr, if_neg hr]
      · rw [if_neg h0]
        by_cases hb : band ≤ q + 1
        · rw [if_pos hb]
          refine ⟨g1, .nil (fun r => ?_) g1, c1, q1, fun _ _ _ => rfl⟩
          by_cases hr : r ∈ onCol P nb band j
          · rw [if_pos hr, if_neg (by rw [hgt r hr]; exact h0), if_pos (by omega)]
          · rw [if_neg hr]
        · rw [if_neg hb]
          obtain ⟨g2, r2, c2, q2, o2⟩ := h.trail_runs (E := E) hE (sb := sb) hq c1 q1
          obtain ⟨g3, r3, c3, q3, o3⟩ := Geo.panel_runs hdt hE hsb fuel (q + 1) (by omega) _ g2 c2 q2
          refine ⟨g3, (Runs.if_append r2 r3).congr fun r => ?_, c3, q3, fun r hr hr' => ?_⟩
          · by_cases hr : r ∈ onCol P nb band j
            · rw [if_pos hr, if_pos hr, if_neg (by rw [hgt r hr]; exact h0), if_neg (by omega)]
            · rw [if_neg hr, if_neg hr]
          · rw [o3 r hr hr', o2 r hr hr']
    obtain ⟨g', r2, c2, q2, o2⟩ := key
    have r3 := Runs.dyn (onCol_nodup (P := P) (nb := nb) (band := band) (j := j)) (g := g1) (g' := g')
      (fun r s => if getTau nb band (dt r) j q s = 0 then panelFrom nb band (E r) (P.on r) (dt r) j fuel (q + 1)
        else if band - (q + 1) = 0 then []
        else [.loc (wPhase nb band (E r) (P.on r) j q)] ++ allReduceTiles .Row (P.on r) RbSt.rWv (fun _ => (band - (q + 1), 1)) [0] ++
          [.loc (updPhase nb band (E r) (P.on r) (dt r) j q)] ++ panelFrom nb band (E r) (P.on r) (dt r) j fuel (q + 1)) r2
    refine ⟨g', (Runs.if_append r1 r3).congr fun r => ?_, c2, q2, fun r hr hr' => ?_⟩
    · by_cases hr : r ∈ onCol P nb band j
      · rw [if_pos hr, if_pos hr]
        rfl
      · rw [if_neg hr, if_neg hr]
    · rw [o2 r hr hr', o1 r hr hr']

end
end DistRed
end DLAF
