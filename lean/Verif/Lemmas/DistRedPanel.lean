import Verif.Lemmas.DistRedWin
import Verif.Lemmas.RedBandCol
/- Distributed reduction to band: the reflectors of a panel. -/
namespace DLAF
open scoped Classical
namespace DistRed
variable {K : Type*} [RCLike K] {P : Params2} {n nb band j : Nat} {dt : Coord2 → Dist1}

/-- Distinct tiles of taus are at distinct places. -/
def TauInj (P : Params2) (n nb band : Nat) (dt : Coord2 → Dist1) : Prop :=
  ∀ r ∈ P.ranks, ∀ k k' : Nat, k * nb < n - band - 1 → k' * nb < n - band - 1 → P.col.dist.rank_global_tile k = r.col →
    P.col.dist.rank_global_tile k' = r.col → (dt r).local_tile_from_global_tile k = (dt r).local_tile_from_global_tile k' → k = k'

/-- What a process holds of the matrix and of the taus. -/
structure PS (P : Params2) (n nb band : Nat) (dt : Coord2 → Dist1) (r : Coord2) (A : Elems K) (T : Nat → K) (s : RbSt K) : Prop where
  win : WinAt P n nb n nb r A s.a
  tau : TausAt P.col n nb band r.col T (dt r) s.tau

section
variable (h : Geo P n nb band j)
include h

theorem Geo.nrpos : 0 < nr n band j := by unfold nr; have := h.hj; have := h.hb; omega

theorem Geo.tau_tile : j * band / nb * nb < n - band - 1 := by have := h.c0_div; have := h.hj; omega

theorem Geo.getTau_eq {r : Coord2} (hr : r ∈ onCol P nb band j) {T : Nat → K} {s : RbSt K} (ht : TausAt P.col n nb band r.col T (dt r) s.tau)
    {q : Nat} (hq : q < nr n band j) : getTau nb band (dt r) j q s = T (j * band + q) := by
  obtain ⟨_, t2⟩ := ht (j * band / nb) h.tau_tile (mem_onCol.1 hr).2.symm
  have hm := h.modc
  have hd := h.c0_div
  unfold nr at hq
  have hcc : cc nb band j = j * band % nb := rfl
  unfold getTau tauIdx
  rw [hcc]
  have := t2 (j * band % nb + q) (by omega)
  refine this.trans ?_
  congr 1
  omega

theorem Geo.setTau_taus (hdt : TauInj P n nb band dt) {r : Coord2} (hr : r ∈ onCol P nb band j) {T : Nat → K} {s : RbSt K}
    (ht : TausAt P.col n nb band r.col T (dt r) s.tau) {q : Nat} (hq : q < nr n band j) (v : K) :
    TausAt P.col n nb band r.col (fun t => if t = j * band + q then v else T t) (dt r) (setTau nb band (dt r) j q v s).tau := by
  intro k hk ho
  obtain ⟨t1, t2⟩ := ht k hk ho
  have hr' := mem_onCol.1 hr
  have hm := h.modc
  have hd := h.c0_div
  have hnr : nr n band j = min band (n - band - 1 - j * band) := rfl
  have hcc : cc nb band j = j * band % nb := rfl
  have htile := h.tau_tile
  show ((set1 s.tau (tauIdx nb band (dt r) j) _ _).rows = _ ∧ (set1 s.tau (tauIdx nb band (dt r) j) _ _).cols = _) ∧ ∀ x < _, (set1 s.tau (tauIdx nb band (dt r) j) _ _).e x 0 = _
  unfold set1
  by_cases hk' : (dt r).local_tile_from_global_tile k = tauIdx nb band (dt r) j
  · have hkk : k = j * band / nb := hdt r hr'.1 k (j * band / nb) hk htile ho hr'.2.symm hk'
    rw [if_pos hk']
    refine ⟨by rw [← hk']; exact t1, fun x hx => ?_⟩
    dsimp only
    rw [hcc]
    subst hkk
    by_cases hx' : x = j * band % nb + q
    · rw [if_pos ⟨hx', rfl⟩, if_pos (by omega)]
    · rw [if_neg (fun e => hx' e.1), if_neg (by omega), ← hk']
      exact t2 x hx
  · rw [if_neg hk']
    refine ⟨t1, fun x hx => ?_⟩
    beta_reduce
    rw [if_neg ?_]
    · exact t2 x hx
    · intro e
      have hkk : k ≠ j * band / nb := fun e => hk' (by rw [e]; rfl)
      rcases Nat.lt_or_gt_of_ne hkk with hlt | hgt
      · have := Nat.mul_le_mul_right nb (Nat.succ_le_of_lt hlt)
        rw [Nat.succ_mul] at this
        omega
      · have := Nat.mul_le_mul_right nb (Nat.succ_le_of_lt hgt)
        rw [Nat.succ_mul] at this
        omega

/-- Rows of the tiles of the panel, from a row of the first block on. -/
theorem Geo.first_le {r : Coord2} (hr : r ∈ P.ranks) {i : Int} (hi : i ∈ rows band (P.on r) j) {q x : Nat} (hq : q ≤ band) :
    first band (P.on r) j q i ≤ x ↔ (j + 1) * band + q ≤ (pc nb n band j ((P.row.onRank r.row).gn i)).1 + x := by
  rw [h.first_eq hr hi]
  by_cases hg : (P.row.onRank r.row).gn i = (j + 1) * band / nb
  · have := (h.head_piece hr hi hg).1
    rw [if_pos hg]
    omega
  · have := h.tail_piece hr hi hg
    rw [if_neg hg]
    omega

theorem Geo.rows_nodup (r : Coord2) : (rows band (P.on r) j).Nodup := view_nodup _ _

/-- Changes of all tiles of the panel. -/
theorem Geo.fold_win {r : Coord2} (hr : r ∈ onCol P nb band j) {A A' : Elems K} {s : RbSt K} (hA : WinAt P n nb n nb r A s.a)
    {u : RbSt K → Int → RbSt K} {f : Int → Nat → Nat → K}
    (hu : ∀ i ∈ rows band (P.on r) j, ∀ s' : RbSt K, s'.a ⟨i, bc band (P.on r) j⟩ = s.a ⟨i, bc band (P.on r) j⟩ → s'.tau = s.tau →
      u s' i = updEl nb band (P.on r) j i (f i) s')
    (hf : ∀ i ∈ rows band (P.on r) j, ∀ x < hgt band (P.on r) j i, ∀ c < band,
      f i x c = A' ((pc nb n band j ((P.row.onRank r.row).gn i)).1 + x) (j * band + c))
    (hc : ∀ x < n, ∀ y, ¬ (((j + 1) * band ≤ x) ∧ j * band ≤ y ∧ y < j * band + band) → A' x y = A x y) :
    ∃ a', (rows band (P.on r) j).foldl u s = { s with a := a' } ∧ WinAt P n nb n nb r A' a' := by
  refine ⟨_, fold_set (bc band (P.on r) j) (h.rows_nodup r) (B := fun i => ⟨(s.a ⟨i, bc band (P.on r) j⟩).rows, (s.a ⟨i, bc band (P.on r) j⟩).cols,
      fun x c => if (cut band (P.on r) j i ≤ x ∧ x < cut band (P.on r) j i + hgt band (P.on r) j i) ∧ cc nb band j ≤ c ∧ c < cc nb band j + band then
        f i (x - cut band (P.on r) j i) (c - cc nb band j) else (s.a ⟨i, bc band (P.on r) j⟩).e x c⟩) ?_, ?_⟩
  · intro i hi s' e1 e2
    rw [hu i hi s' e1 e2]
    unfold updEl
    rw [e1]
  · refine h.win_of_tiles hr hA (fun i hi => hi) (fun i hi => h.upd_win hr hA hi (hf i hi) hc) ?_ ?_
    · intro x hx y hy
      exact hc x hx y fun e => hy e.2
    · intro i i0 i1 hi x x0 x1 xn y
      have := h.not_rows (mem_onCol.1 hr).1 i0 i1 hi
      exact hc x xn y fun e => by omega

/-- Writing an element of the first block. -/
theorem Geo.setHead_win {r : Coord2} (hr : r ∈ onCol P nb band j) {A : Elems K} {s : RbSt K} (hA : WinAt P n nb n nb r A s.a) {q : Nat}
    (hq : q < nr n band j) {v v0 : K} (hv : head band (P.on r) j = true → v = v0) :
    ∃ a', setHead nb band (P.on r) j q v s = { s with a := a' } ∧
      WinAt P n nb n nb r (fun x c => if x = (j + 1) * band + q ∧ c = j * band + q then v0 else A x c) a' := by
  have hr' := mem_onCol.1 hr
  have hnr : nr n band j = min band (n - band - 1 - j * band) := rfl
  have hd := h.r0_div
  have hm := h.modr
  unfold setHead
  by_cases hh : head band (P.on r) j = true
  · rw [if_pos hh]
    obtain ⟨t1, t2⟩ := h.head_tile hr'.1 hh
    obtain ⟨p1, p2⟩ := h.head_piece hr'.1 t1 t2
    generalize View.begin' (P.on r).row ((r0 band j : Nat) : Int) = i at *
    refine ⟨_, rfl, ?_⟩
    have key := h.win_of_tiles (l := [i]) hr hA (fun i' hi' => by rw [List.mem_singleton.1 hi']; exact t1)
      (A' := fun x c => if x = (j + 1) * band + q ∧ c = j * band + q then v0 else A x c)
      (B := fun i => ⟨(s.a ⟨i, bc band (P.on r) j⟩).rows, (s.a ⟨i, bc band (P.on r) j⟩).cols, fun x c =>
        if (cut band (P.on r) j i ≤ x ∧ x < cut band (P.on r) j i + hgt band (P.on r) j i) ∧ cc nb band j ≤ c ∧ c < cc nb band j + band then
          (fun x c => if x = q ∧ c = q then v else el nb band (P.on r) j s i x c) (x - cut band (P.on r) j i) (c - cc nb band j)
        else (s.a ⟨i, bc band (P.on r) j⟩).e x c⟩)
      (fun i' hi' => by
        rw [List.mem_singleton] at hi'
        subst hi'
        refine h.upd_win (f := fun x c => if x = q ∧ c = q then v else el nb band (P.on r) j s i' x c) hr hA t1 (fun x hx c hc => ?_) (fun x hx y hy => ?_)
        · rw [p1]
          by_cases e : x = q ∧ c = q
          · rw [if_pos e, if_pos (by omega), hv hh]
          · rw [if_neg e, if_neg (by omega), h.el_eq hr hA t1 hx hc, p1]
        · rw [if_neg (by omega)])
      (fun x hx y hy => by rw [if_neg (by omega)])
      (fun i' i0 i1 hi' x x0 x1 xn y => by
        rw [if_neg ?_]
        intro e
        rw [List.mem_singleton] at hi'
        by_cases hin : i' ∈ rows band (P.on r) j
        · have hne : (P.row.onRank r.row).gn i' ≠ (j + 1) * band / nb := by
            intro e2
            have a := h.row hr'.1
            have t1' := (h.mem_rows hr'.1).1 t1
            refine hi' (a.plain.gl_inj i0 t1'.1 ?_)
            rw [← a.gn_cast i0, ← a.gn_cast t1'.1, e2, t2]
          have h1 := (h.mem_rows hr'.1).1 hin
          have h2 := Nat.mul_le_mul_right nb (Nat.succ_le_of_lt (Nat.lt_of_le_of_ne h1.2.2 (Ne.symm hne)))
          rw [Nat.succ_mul] at h2
          omega
        · have := h.not_rows hr'.1 i0 i1 hin
          omega)
    refine (congrArg (WinAt P n nb n nb r _) ?_).mp key
    funext z
    unfold set1
    by_cases hz : z = ⟨i, bc band (P.on r) j⟩
    · rw [if_pos hz, if_pos (by rw [hz]; simp), hz]
    · rw [if_neg hz, if_neg]
      rintro ⟨e1, e2⟩
      rw [List.mem_singleton] at e2
      exact hz (by cases z; simp_all)
  · rw [if_neg hh]
    refine ⟨s.a, rfl, ?_⟩
    intro i c i0 i1 c0 c1
    refine (hA i c i0 i1 c0 c1).congr fun x x0 x1 y _ _ => ?_
    rw [if_neg ?_]
    intro e
    by_cases hin : i ∈ rows band (P.on r) j
    · have hne : (P.row.onRank r.row).gn i ≠ (j + 1) * band / nb := fun e2 => hh ((h.is_head hr'.1 hin).2 e2).1
      have h1 := (h.mem_rows hr'.1).1 hin
      have h2 := Nat.mul_le_mul_right nb (Nat.succ_le_of_lt (Nat.lt_of_le_of_ne h1.2.2 (Ne.symm hne)))
      rw [Nat.succ_mul] at h2
      omega
    · have := h.not_rows hr'.1 i0 i1 hin
      omega

/-- The panel as a local configuration. -/
noncomputable def cfg (n nb band j : Nat) (sb : K → Bool) : PanelCfg K := ⟨pieces nb n ((j + 1) * band), j * band, band, nr n band j, sb⟩

omit [RCLike K] in
theorem Geo.cfg_ok (sb : K → Bool) : (cfg n nb band j sb).r0 = (j + 1) * band ∧ (cfg n nb band j sb).OK n := by
  have hc := pieces_chain h.nbp h.r0n
  obtain ⟨p, ps, q1, q2, q3⟩ := pieces_head h.hb h.nbp h.hd h.r0n
  have e0 := h.e0
  have hgr : PanelCfg.r0 (cfg n nb band j sb) = (j + 1) * band := by
    unfold PanelCfg.r0 cfg
    dsimp only
    rw [q1]
    exact q2
  have hnr : nr n band j = min band (n - band - 1 - j * band) := rfl
  refine ⟨hgr, ⟨by rw [hgr]; exact hc, by show pieces nb n ((j + 1) * band) ≠ []; rw [q1]; simp, ?_, by show nr n band j ≤ band; omega⟩⟩
  show nr n band j ≤ ((pieces nb n ((j + 1) * band)).headD (0, 0)).2
  rw [q1]
  show nr n band j ≤ p.2
  omega

omit [RCLike K] h in
/-- The workers of a process have all of its tiles. -/
theorem workers_all {E : RedEnv K} (hE : 0 < E.availP) (r : Coord2) :
    (List.range (nworkers band E (P.on r) j)).flatMap (workerTiles band E (P.on r) j) = rows band (P.on r) j := by
  have hw : 0 < nworkers band E (P.on r) j := panelWorkers_pos hE
  have e1 : ∀ nw, (List.range nw).flatMap (workerTiles band E (P.on r) j) =
      ((List.range nw).flatMap (workerRange (rows band (P.on r) j).length (nworkers band E (P.on r) j))).map fun x => (rows band (P.on r) j).getD x 0 := by
    intro nw
    rw [List.map_flatMap]
    rfl
  rw [e1, workerRange_all hw]
  refine List.ext_getElem (by simp) fun i h1 h2 => ?_
  rw [List.getElem_map, List.getElem_range, List.getD_eq_getElem?_getD, List.getElem?_eq_getElem h2]
  rfl

end
end DistRed
end DLAF
