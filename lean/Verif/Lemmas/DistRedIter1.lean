import Verif.Lemmas.DistRedPanel3
import Verif.Lemmas.DistBtRedBand
import Verif.Lemmas.DistBtProps
/- Distributed reduction to band: the reflectors `V` and the T factor of an iteration. -/
namespace DLAF
open scoped Classical

/-- Tasks that write one tile each of a panel. -/
theorem write_each {S K : Type*} {R : ERef S K} (hR : R.OK) {s : S} {f : Int → S → Option S} (Q : Int → Blk K → Prop) {l : List Int} (hl : l.Nodup)
    (hs : ∀ i ∈ l, ∀ p : EPanel K, p i = R.get s i → ∃ d, f i (R.set s p) = some (R.set s (set1 p i (some d))) ∧ Q i d) :
    ∃ p, runLocs (l.map f) s = some (R.set s p) ∧ (∀ i ∈ l, ∃ d, p i = some d ∧ Q i d) ∧ ∀ i, i ∉ l → p i = R.get s i := by
  refine Exists.elim (runLocs_each (f := f) (s := s) hl
    (fun D s' => ∃ p, s' = R.set s p ∧ (∀ i, D i → ∃ d, p i = some d ∧ Q i d) ∧ ∀ i, ¬ D i → p i = R.get s i) ?_ ?_) ?_
  · exact ⟨R.get s, (hR.set_get s).symm, fun _ h => absurd h id, fun _ _ => rfl⟩
  · rintro D i s' hi hD _ ⟨p, rfl, p1, p2⟩
    obtain ⟨d, d1, d2⟩ := hs i hi p (p2 i hD)
    refine ⟨_, d1, _, rfl, fun y hy => ?_, fun y hy => ?_⟩
    · by_cases e : y = i
      · subst e
        exact ⟨d, by simp [set1], d2⟩
      · obtain ⟨v, v1, v2⟩ := p1 y (hy.resolve_right e)
        exact ⟨v, by simp [set1, e, v1], v2⟩
    · have e : y ≠ i := fun e => hy (.inr e)
      simp only [set1]
      rw [if_neg e]
      exact p2 y fun h => hy (.inl h)
  · rintro s' ⟨h1, p, rfl, p1, p2⟩
    exact ⟨p, h1, p1, p2⟩

theorem ERef.write_of {S K : Type*} {R : ERef S K} (hR : R.OK) {sz : Nat × Nat} {i : Int} {b : Blk K} {s : S} (h1 : b.rows = sz.1) (h2 : b.cols = sz.2)
    (p : EPanel K) : R.write sz i b (R.set s p) = some (R.set s (set1 p i (some b))) := by
  unfold ERef.write
  rw [if_pos ⟨h1, h2⟩, hR.get_set, hR.set_set]

namespace DistRed
variable {K : Type*} [RCLike K] {P : Params2} {n nb band j : Nat} {dt : Coord2 → Dist1}

/-- A panel holds the local rows of `M`. -/
def HR (P : Params2) (n nb band j : Nat) (r : Coord2) (M : Elems K) (pan : EPanel K) : Prop :=
  DistBt.HasRows (P.row.onRank r.row) n nb ((j + 1) * band) (nr n band j) M pan

section
variable (h : Geo P n nb band j)
include h

omit [RCLike K] in
theorem Geo.vSize_eq {r : Coord2} (hr : r ∈ P.ranks) {i : Int} (hi : i ∈ rows band (P.on r) j) :
    vSize n band (P.on r) j i = ((pc nb n band j ((P.row.onRank r.row).gn i)).2, nr n band j) := by
  unfold vSize
  rw [h.hgt_eq hr hi]

theorem Geo.checkPanel_eq {r : Coord2} (hr : r ∈ onCol P nb band j) {A : Elems K} {s : RbSt K} (hA : WinAt P n nb n nb r A s.a) :
    checkPanel n nb band (P.on r) j s = some s := by
  have hr' := mem_onCol.1 hr
  obtain ⟨b1, b2, b3, b4⟩ := h.bc_eq hr'.1 hr'.2
  have hd := h.c0_div
  have hm := h.modc
  have hj := h.hj
  have e0 := h.e0
  unfold checkPanel
  refine if_pos ⟨fun i hi => ?_, fun hh => ?_⟩
  · have hi' := (h.mem_rows hr'.1).1 hi
    have hw := hA i _ hi'.1 hi'.2.1 b2 b3
    obtain ⟨p1, p2⟩ := h.piece_at hr'.1 hi
    have hcc : cc nb band j = j * band % nb := rfl
    rw [hw.1, hw.2.1, h.hgt_eq hr'.1 hi, b4, hcc]
    omega
  · obtain ⟨t1, t2⟩ := h.head_tile hr'.1 hh
    rw [h.hgt_eq hr'.1 t1]
    have := (h.head_piece hr'.1 t1 t2).2
    unfold nr
    omega

theorem Geo.setV_win {r : Coord2} (hr : r ∈ onCol P nb band j) {A : Elems K} {s : RbSt K} (hA : WinAt P n nb n nb r A s.a) {i : Int}
    (hi : i ∈ rows band (P.on r) j) (p : EPanel K) :
    ∃ d, setV n nb band (P.on r) j i (RbSt.rV.set s p) = some (RbSt.rV.set s (set1 p i (some d))) ∧
      IsWin d (fun x c => storedRefl band A x (j * band + c)) (pc nb n band j ((P.row.onRank r.row).gn i)).1 0
        (pc nb n band j ((P.row.onRank r.row).gn i)).2 (nr n band j) := by
  have hr' := mem_onCol.1 hr
  obtain ⟨b1, b2, b3, b4⟩ := h.bc_eq hr'.1 hr'.2
  have hd := h.c0_div
  have hm := h.modc
  have hj := h.hj
  have e0 := h.e0
  have hi' := (h.mem_rows hr'.1).1 hi
  have hw := hA i _ hi'.1 hi'.2.1 b2 b3
  obtain ⟨p1, p2⟩ := h.piece_at hr'.1 hi
  have hrg := h.piece_range hr'.1 hi
  have hcc : cc nb band j = j * band % nb := rfl
  have hnr : nr n band j = min band (n - band - 1 - j * band) := rfl
  have ea : (RbSt.rV.set s p).a = s.a := rfl
  unfold setV
  rw [ea, h.vSize_eq hr'.1 hi, hcc, h.hgt_eq hr'.1 hi]
  rw [b4] at hw
  by_cases hg : (P.row.onRank r.row).gn i = (j + 1) * band / nb
  · rw [if_pos ((h.is_head hr'.1 hi).2 hg)]
    have hmin : min (nr n band j) band = nr n band j := by omega
    rw [hmin]
    obtain ⟨d, s1, s2⟩ := Blk.sub_win (r0 := cut band (P.on r) j i) (c0 := j * band % nb)
      (h := (pc nb n band j ((P.row.onRank r.row).gn i)).2) (w := nr n band j) hw (by omega) (by omega)
    rw [s1, Option.bind_some]
    rw [p1, hd] at s2
    have hp := (h.head_piece hr'.1 hi hg).1
    refine ⟨_, ERef.write_of RbSt.rV_ok s2.1 s2.2.1 p, s2.1, s2.2.1, fun x hx c hc => ?_⟩
    simp only [lasetHH, Nat.not_lt_zero, if_false, Nat.sub_zero, Nat.zero_add]
    rw [s2.2.2 x hx c hc]
    unfold storedRefl
    by_cases h4 : x < c
    · rw [if_pos h4, if_pos (by omega)]
    · rw [if_neg h4, if_neg (show ¬ _ < j * band + c + band by omega)]
      by_cases h5 : x = c
      · rw [if_pos h5, if_pos (by omega)]
      · rw [if_neg h5, if_neg (by omega)]
  · rw [if_neg fun hc => hg ((h.is_head hr'.1 hi).1 hc)]
    have htp := h.tail_piece hr'.1 hi hg
    have hlt := (h.row hr'.1).gn_lt hi'.1 hi'.2.1
    rw [h.cut_eq hr'.1 hi, if_neg hg] at p1 p2
    have hfull : nr n band j = band := by omega
    rw [hfull, h.cut_eq hr'.1 hi, if_neg hg]
    obtain ⟨d, s1, s2⟩ := Blk.sub_win (r0 := 0) (c0 := j * band % nb)
      (h := (pc nb n band j ((P.row.onRank r.row).gn i)).2) (w := band) hw (by omega) (by omega)
    rw [s1, Option.bind_some]
    rw [p1, hd] at s2
    refine ⟨d, ERef.write_of RbSt.rV_ok s2.1 s2.2.1 p, s2.1, s2.2.1, fun x hx c hc => ?_⟩
    rw [s2.2.2 x hx c hc, Nat.zero_add]
    unfold storedRefl
    beta_reduce
    rw [if_neg (by omega), if_neg (by omega)]

/-- The panel `V`. -/
theorem Geo.setV_all {r : Coord2} (hr : r ∈ onCol P nb band j) {A : Elems K} {s : RbSt K} (hA : WinAt P n nb n nb r A s.a) :
    ∃ p, runLocs ((rows band (P.on r) j).map (setV n nb band (P.on r) j)) s = some (RbSt.rV.set s p) ∧
      HR P n nb band j r (fun x c => storedRefl band A x (j * band + c)) p := by
  obtain ⟨p, p1, p2, _⟩ := write_each RbSt.rV_ok (s := s) (f := setV n nb band (P.on r) j)
    (fun i d => IsWin d (fun x c => storedRefl band A x (j * band + c)) (pc nb n band j ((P.row.onRank r.row).gn i)).1 0
        (pc nb n band j ((P.row.onRank r.row).gn i)).2 (nr n band j)) (h.rows_nodup r) fun i hi p _ => h.setV_win hr hA hi p
  exact ⟨p, p1, p2⟩

/-- The local part of the T factor. -/
theorem Geo.tLocal_ps {r : Coord2} (hr : r ∈ onCol P nb band j) {E : RedEnv K} (hE : 0 < E.availT) {A : Elems K} {T : Nat → K} {s : RbSt K}
    (hs : PS P n nb band dt r A T s) {V : Elems K} (hV : HR P n nb band j r V s.pV) :
    ∃ f : Nat → Nat → K, tLocal n nb band E (P.on r) (dt r) j s = some (RbSt.rT.set s (set1 s.pT 0 (some ⟨nr n band j, nr n band j, f⟩))) ∧
      (∀ c < nr n band j, ∀ i < c, f i c = -(T (j * band + c)) * DistBt.gramAt (P.row.onRank r.row) nb n ((j + 1) * band) V i c) ∧
      ∀ c < nr n band j, ∀ i, c < i → f i c = 0 := by
  have hr' := mem_onCol.1 hr
  have hb := h.hb
  have hnr : nr n band j = min band (n - band - 1 - j * band) := rfl
  obtain ⟨vb, hvb⟩ : ∃ vb : Int → Blk K, ∀ i ∈ rows band (P.on r) j, s.pV i = some (vb i) ∧
      IsWin (vb i) V (pc nb n band j ((P.row.onRank r.row).gn i)).1 0 (pc nb n band j ((P.row.onRank r.row).gn i)).2 (nr n band j) := by
    refine ⟨fun i => (s.pV i).getD (Blk.zero 0 0), fun i hi => ?_⟩
    obtain ⟨v, v1, v2⟩ := hV i hi
    beta_reduce
    rw [v1]
    exact ⟨rfl, v2⟩
  have hread : (rows band (P.on r) j).mapM (fun i => RbSt.rV.read i s) = some ((rows band (P.on r) j).map vb) :=
    mapM_some _ fun i hi => (hvb i hi).1
  have hgram : ∀ i < nr n band j, ∀ c < nr n band j,
      gram ((rows band (P.on r) j).map vb) i c = DistBt.gramAt (P.row.onRank r.row) nb n ((j + 1) * band) V i c := by
    intro i hi c hc
    unfold gram DistBt.gramAt
    rw [List.map_map, ← List.sum_toFinset _ (h.rows_nodup r)]
    refine Finset.sum_congr rfl fun t ht => ?_
    rw [List.mem_toFinset] at ht
    have hw := (hvb t ht).2
    simp only [Function.comp]
    rw [hw.1]
    refine Finset.sum_congr rfl fun x hx => ?_
    rw [Finset.mem_range] at hx
    rw [hw.2.2 x hx i hi, hw.2.2 x hx c hc, Nat.zero_add, Nat.zero_add]
    rfl
  have hwr : ∀ f : Nat → Nat → K, RbSt.rT.write (tSize n band j) 0 (⟨nr n band j, nr n band j, f⟩ : Blk K) s =
      some (RbSt.rT.set s (set1 s.pT 0 (some ⟨nr n band j, nr n band j, f⟩))) := by
    intro f
    unfold ERef.write
    rw [if_pos ⟨rfl, rfl⟩]
    rfl
  unfold tLocal
  rw [hread, Option.bind_some]
  by_cases hne : rows band (P.on r) j = []
  · refine ⟨fun _ _ => 0, ?_, ?_, fun _ _ _ _ => rfl⟩
    · rw [hne]
      unfold stepGemv
      rw [if_pos (by rfl), Option.bind_some]
      exact hwr _
    · intro c _ i _
      unfold DistBt.gramAt
      rw [rows_eq] at hne
      rw [hne]
      simp
  · obtain ⟨f, f1, f2, f3⟩ := stepGemv_spec (taus := tausTile n nb band (dt r) j s) (t := Blk.zero (nr n band j) (nr n band j))
      (ws := (List.range (E.availT - 1)).map fun w => getB (E.junk (4 * j + 1)) (w * band) 0 band (nr n band j)) hE
      (tiles := (rows band (P.on r) j).map vb) (by simpa using hne) rfl rfl (by
        intro v hv'
        obtain ⟨i, hi, rfl⟩ := List.mem_map.1 hv'
        exact (hvb i hi).2.2.1) (by simp) (by
        intro w hw
        obtain ⟨_, _, rfl⟩ := List.mem_map.1 hw
        simp only [Blk.zero, getB]
        omega)
    refine ⟨f, ?_, fun c hc' i hi => ?_, f3⟩
    · rw [f1, Option.bind_some]
      exact hwr f
    · have : (tausTile n nb band (dt r) j s).e c 0 = T (j * band + c) := h.getTau_eq hr hs.tau hc'
      rw [f2 c hc' i hi, this, hgram i (by omega) c hc']

/-- The end of the T factor. -/
theorem Geo.tFinish_ps {r : Coord2} (hr : r ∈ onCol P nb band j) {A : Elems K} {T : Nat → K} {s : RbSt K} (hs : PS P n nb band dt r A T s)
    {f F : Nat → Nat → K} (hp : s.pT 0 = some ⟨nr n band j, nr n band j, f⟩)
    (hF : copyDiagTrmv (⟨nr n band j, 1, fun x _ => T (j * band + x)⟩ : Blk K) ⟨nr n band j, nr n band j, f⟩ = ⟨nr n band j, nr n band j, F⟩) :
    tFinish n nb band (dt r) j s = some (RbSt.rT.set s (set1 s.pT 0 (some ⟨nr n band j, nr n band j, F⟩))) := by
  unfold tFinish
  have : RbSt.rT.read 0 s = some ⟨nr n band j, nr n band j, f⟩ := hp
  rw [this, Option.bind_some, DistBt.copyDiagTrmv_congr (v := ⟨nr n band j, 1, fun x _ => T (j * band + x)⟩)
    (fun x hx => h.getTau_eq hr hs.tau hx), hF]
  unfold ERef.write
  rw [if_pos ⟨rfl, rfl⟩]
  rfl

theorem Geo.taus_other {r : Coord2} (hr : r ∉ onCol P nb band j) (hr' : r ∈ P.ranks) {T T' : Nat → K} {loc : Int → Blk K}
    (ht : TausAt P.col n nb band r.col T (dt r) loc) (hT : ∀ i, ¬ (j * band ≤ i ∧ i < j * band + nr n band j) → T' i = T i) :
    TausAt P.col n nb band r.col T' (dt r) loc := by
  intro k hk ho
  obtain ⟨t1, t2⟩ := ht k hk ho
  refine ⟨t1, fun x hx => ?_⟩
  rw [t2 x hx, hT]
  intro hc
  refine hr (mem_onCol.2 ⟨hr', ?_⟩)
  have hm := h.modc
  have hd := h.c0_div
  have hnb := h.nbp
  have hnr : nr n band j = min band (n - band - 1 - j * band) := rfl
  have : k = j * band / nb := by
    rcases Nat.lt_trichotomy k (j * band / nb) with hlt | he | hgt
    · have := Nat.mul_le_mul_right nb (Nat.succ_le_of_lt hlt)
      rw [Nat.succ_mul] at this
      omega
    · exact he
    · have := Nat.mul_le_mul_right nb (Nat.succ_le_of_lt hgt)
      rw [Nat.succ_mul] at this
      omega
  rw [this] at ho
  exact ho.symm

theorem Geo.win_other {r : Coord2} (hr : r ∉ onCol P nb band j) (hr' : r ∈ P.ranks) {A A' : Elems K} {loc : Coord2 → Blk K}
    (hw : WinAt P n nb n nb r A loc) (hA : ∀ x y, ¬ (j * band ≤ y ∧ y < j * band + band) → A' x y = A x y) :
    WinAt P n nb n nb r A' loc := by
  intro i c i0 i1 c0 c1
  refine (hw i c i0 i1 c0 c1).congr fun x _ _ y y0 y1 => ?_
  rw [hA]
  intro hc
  refine hr (mem_onCol.2 ⟨hr', ?_⟩)
  have hm := h.modc
  have hd := h.c0_div
  have hnb := h.nbp
  have y2 : y < (P.col.onRank r.col).gn c * nb + min nb (n - (P.col.onRank r.col).gn c * nb) := y1
  have : (P.col.onRank r.col).gn c = j * band / nb := by
    rcases Nat.lt_trichotomy ((P.col.onRank r.col).gn c) (j * band / nb) with hlt | he | hgt
    · have := Nat.mul_le_mul_right nb (Nat.succ_le_of_lt hlt)
      rw [Nat.succ_mul] at this
      omega
    · exact he
    · have := Nat.mul_le_mul_right nb (Nat.succ_le_of_lt hgt)
      rw [Nat.succ_mul] at this
      omega
  have h1 := (h.col hr').plain.gl_own c0
  rw [← (h.col hr').gn_cast c0, this] at h1
  exact h1.symm

/-- The panel of an iteration: what the processes hold after it. -/
theorem Geo.panel_part (hdt : TauInj P n nb band dt) {E : Coord2 → RedEnv K} (hE : ∀ r, 0 < (E r).availP) (hET : ∀ r, 0 < (E r).availT)
    {sb : K → Bool} (hgs : GoodSign sb) (hsb : ∀ r, (E r).signbit = sb) {A : Elems K} {T : Nat → K} {g : Glob (RbSt K) (Blk K)}
    (hcl : Clean P.ranks g) (hs : ∀ r ∈ P.ranks, PS P n nb band dt r A T (g.st r)) {st : PanelSt K}
    (hst : st = DLAF.panelFrom (cfg n nb band j sb) 1 (nr n band j) 0 ⟨A, fun i => T (j * band + i), fun _ _ => 0, 0⟩)
    {T' : Nat → K} (hT' : T' = fun i => if j * band ≤ i ∧ i < j * band + nr n band j then st.taus (i - j * band) else T i)
    {V : Elems K} (hV : V = fun x c => storedRefl band st.a x (j * band + c)) :
    ∃ g' F, Runs (fun r => if r ∈ onCol P nb band j then panelPart n nb band (E r) (P.on r) (dt r) j else []) g g' ∧ Clean P.ranks g' ∧
      (∀ r ∈ P.ranks, PS P n nb band dt r st.a T' (g'.st r)) ∧
      (∀ r ∈ onCol P nb band j, HR P n nb band j r V (g'.st r).pV ∧ (g'.st r).pT 0 = some ⟨nr n band j, nr n band j, F⟩) ∧
      (∀ c < nr n band j, ∀ i < nr n band j, c < i → F i c = 0) ∧
      1 - toM n (nr n band j) V * toM (nr n band j) (nr n band j) F * (toM n (nr n band j) V).conjTranspose =
        reflectorProd n V (fun i => T' (j * band + i)) (nr n band j) := by
  have hb := h.hb
  have e0 := h.e0
  have hnr : nr n band j = min band (n - band - 1 - j * band) := rfl
  have hsub : ∀ r ∈ onCol P nb band j, r ∈ P.ranks := fun r hr => (mem_onCol.1 hr).1
  have htt0 : tt j band T (⟨A, fun i => T (j * band + i), fun _ _ => 0, 0⟩ : PanelSt K) = T := by
    funext i
    unfold tt
    dsimp only
    split
    · congr 1; omega
    · rfl
  -- checks
  obtain ⟨g0, r0', c0', q0, o0⟩ := Runs.loc_on (onCol_nodup (P := P) (nb := nb) (band := band) (j := j)) hcl
    (fun r => checkPanel n nb band (P.on r) j) (fun r s' => s' = g.st r)
    (fun r hr => ⟨_, h.checkPanel_eq hr (hs r (hsub r hr)).win, rfl⟩)
  -- reflectors
  obtain ⟨g1, r1, c1, q1, o1⟩ := h.panel_runs hdt hE hsb (T0 := T) (nr n band j) 0 rfl
    (⟨A, fun i => T (j * band + i), fun _ _ => 0, 0⟩ : PanelSt K) g0 c0' (fun r hr => by
      rw [htt0, q0 r hr]
      exact hs r (hsub r hr))
  rw [← hst] at q1
  obtain ⟨k1, k2⟩ := h.cfg_ok sb
  obtain ⟨_, _, p3, p4⟩ := panel_spec k2 (nw := 1) (by omega) hgs (nr n band j) 0 rfl (Nat.zero_le _)
    (⟨A, fun i => T (j * band + i), fun _ _ => 0, 0⟩ : PanelSt K)
  rw [← hst, k1] at p3
  rw [← hst] at p4
  have hcc : (cfg n nb band j sb).c0 = j * band := rfl
  have hcl2 : (cfg n nb band j sb).cols = band := rfl
  have hnf : (cfg n nb band j sb).nrefls = nr n band j := rfl
  rw [hcc, hcl2] at p3
  rw [hnf] at p4
  dsimp only at p3 p4
  have htt1 : tt j band T st = T' := by
    funext i
    rw [hT']
    unfold tt
    beta_reduce
    by_cases h1 : j * band ≤ i
    · rw [if_pos h1]
      by_cases h2 : i < j * band + nr n band j
      · rw [if_pos ⟨h1, h2⟩]
      · rw [if_neg (by omega), p4 _ (by omega)]
        congr 1; omega
    · rw [if_neg h1, if_neg (by omega)]
  rw [htt1] at q1
  -- the panel V and the local part of T
  obtain ⟨g2, r2, c2, q2, o2⟩ := Runs.locals_on (onCol_nodup (P := P) (nb := nb) (band := band) (j := j)) c1
    (fun r => (rows band (P.on r) j).map (setV n nb band (P.on r) j) ++ [tLocal n nb band (E r) (P.on r) (dt r) j])
    (fun r s' => PS P n nb band dt r st.a T' s' ∧ HR P n nb band j r V s'.pV ∧ ∃ f : Nat → Nat → K,
      s'.pT 0 = some ⟨nr n band j, nr n band j, f⟩ ∧
      (∀ c < nr n band j, ∀ i < c, f i c = -(T' (j * band + c)) * DistBt.gramAt (P.row.onRank r.row) nb n ((j + 1) * band) V i c) ∧
      ∀ c < nr n band j, ∀ i, c < i → f i c = 0)
    (fun r hr => by
      obtain ⟨p, a1, a2⟩ := h.setV_all hr (q1 r hr).win
      rw [← hV] at a2
      have hps : PS P n nb band dt r st.a T' (RbSt.rV.set (g1.st r) p) := ⟨(q1 r hr).win, (q1 r hr).tau⟩
      obtain ⟨f, f1, f2, f3⟩ := h.tLocal_ps hr (hET r) hps (V := V) a2
      refine ⟨RbSt.rT.set (RbSt.rV.set (g1.st r) p) (set1 (RbSt.rV.set (g1.st r) p).pT 0 (some ⟨nr n band j, nr n band j, f⟩)), ?_,
        ⟨hps.win, hps.tau⟩, a2, f, set1_at (RbSt.rV.set (g1.st r) p).pT 0 _, f2, f3⟩
      rw [runLocs_append, a1, Option.bind_some, runLocs_one, f1])
  have hex : ∀ r, ∃ f : Nat → Nat → K, r ∈ onCol P nb band j → (g2.st r).pT 0 = some ⟨nr n band j, nr n band j, f⟩ ∧
      (∀ c < nr n band j, ∀ i < c, f i c = -(T' (j * band + c)) * DistBt.gramAt (P.row.onRank r.row) nb n ((j + 1) * band) V i c) ∧
      ∀ c < nr n band j, ∀ i, c < i → f i c = 0 := by
    intro r
    by_cases hr : r ∈ onCol P nb band j
    · obtain ⟨f, hf⟩ := (q2 r hr).2.2
      exact ⟨f, fun _ => hf⟩
    · exact ⟨fun _ _ => 0, fun e => absurd e hr⟩
  choose u hu using hex
  -- the sum
  have hsum : ∃ g3, Runs (fun r => if r ∈ onCol P nb band j then
        (if 1 < (P.on r).row.grid then allReduceTiles .Row (P.on r) RbSt.rT (fun _ => tSize n band j) [0] else []) else []) g2 g3 ∧ Clean P.ranks g3 ∧
      (∀ r ∈ onCol P nb band j, ∃ p, g3.st r = RbSt.rT.set (g2.st r) p ∧
        p 0 = some ⟨nr n band j, nr n band j, fun x y => ((irange 0 P.row.grid).map fun t => u ⟨t, rc P nb band j⟩ x y).sum⟩) ∧
      ∀ r ∈ P.ranks, r ∉ onCol P nb band j → g3.st r = g2.st r := by
    have hgp := h.grid_pos
    have hgr : ∀ r, (P.on r).row.grid = P.row.grid := fun _ => rfl
    by_cases hg : 1 < P.row.grid
    · obtain ⟨g3, r3, c3, q3, o3⟩ := allReduce_one (nb := nb) (band := band) (j := j) RbSt.rT_ok hgp c2 (nr n band j) (nr n band j) u
        (fun r hr => (hu r hr).1)
      refine ⟨g3, r3.congr fun r => ?_, c3, fun r hr => ⟨_, q3 r hr, ?_⟩, o3⟩
      · rw [hgr, if_pos hg]
        rfl
      · exact set1_at (g2.st r).pT 0 _
    · refine ⟨g2, .nil (fun r => by rw [hgr, if_neg hg]; split <;> rfl) g2, c2, fun r hr => ⟨(g2.st r).pT, rfl, ?_⟩, fun _ _ _ => rfl⟩
      rw [(hu r hr).1]
      have hrr := Params2.mem_ranks.1 (hsub r hr) .Row
      have e1 : P.row.grid = 1 := by omega
      have e2 : irange 0 P.row.grid = [0] := by rw [e1]; rfl
      have e3 : r = ⟨0, rc P nb band j⟩ := by
        have a : r.row = 0 := by
          have a1 : 0 ≤ r.row := hrr.1
          have a2 : r.row < P.row.grid := hrr.2
          omega
        have b := (mem_onCol.1 hr).2
        cases r
        simp only at a b
        rw [a, b]
      rw [e2]
      simp only [List.map_cons, List.map_nil, List.sum_cons, List.sum_nil, add_zero]
      rw [← e3]
  obtain ⟨g3, r3, c3, q3, o3⟩ := hsum
  generalize hts : (fun x y => ((irange 0 P.row.grid).map fun t => u ⟨t, rc P nb band j⟩ x y).sum) = ts at q3
  have h1 : ∀ c < nr n band j, ∀ i < c, ts i c = -(T' (j * band + c)) * ∑ x ∈ Finset.range n, star (V x i) * V x c := by
    intro c hc i hi
    rw [← hts]
    beta_reduce
    have e1 : ∀ t ∈ irange 0 P.row.grid, u ⟨t, rc P nb band j⟩ i c = -(T' (j * band + c)) *
        ∑ i' ∈ (View.tiles (P.row.onRank t).dist (((j + 1) * band : Nat) : Int)).toFinset,
          ∑ x ∈ Finset.range (pieceOf nb n ((j + 1) * band) ((P.row.onRank t).gn i')).2,
            star (V ((pieceOf nb n ((j + 1) * band) ((P.row.onRank t).gn i')).1 + x) i) * V ((pieceOf nb n ((j + 1) * band) ((P.row.onRank t).gn i')).1 + x) c := by
      intro t ht
      rw [mem_irange] at ht
      exact (hu _ (h.on_mk ht.1 ht.2)).2.1 c hc i hi
    rw [List.map_congr_left e1, List.sum_map_mul_left]
    congr 1
    have e2 := h.a1.sum_ranks ((j + 1) * band) fun t => ∑ x ∈ Finset.range (pieceOf nb n ((j + 1) * band) t).2,
            star (V ((pieceOf nb n ((j + 1) * band) t).1 + x) i) * V ((pieceOf nb n ((j + 1) * band) t).1 + x) c
    refine e2.trans ?_
    rw [sum_pieces h.nbp h.r0n (fun x => star (V x i) * V x c), Finset.range_eq_Ico,
      ← Finset.sum_Ico_consecutive _ (Nat.zero_le ((j + 1) * band)) h.r0n.le, Finset.sum_eq_zero (s := Finset.Ico 0 ((j + 1) * band)), zero_add]
    intro x hx
    rw [Finset.mem_Ico] at hx
    have : V x c = 0 := by rw [hV]; unfold storedRefl; beta_reduce; rw [if_pos (by omega)]
    rw [this, mul_zero]
  have h2 : ∀ c < nr n band j, ∀ i, c < i → ts i c = 0 := by
    intro c hc i hi
    rw [← hts]
    refine List.sum_eq_zero fun x hx => ?_
    obtain ⟨t, ht, rfl⟩ := List.mem_map.1 hx
    rw [mem_irange] at ht
    exact (hu _ (h.on_mk ht.1 ht.2)).2.2 c hc i hi
  obtain ⟨F, F1, F2⟩ := copyDiagTrmv_spec (taus := ⟨nr n band j, 1, fun x _ => T' (j * band + x)⟩) (t := ⟨nr n band j, nr n band j, ts⟩)
    (G := fun i c => ∑ x ∈ Finset.range n, star (V x i) * V x c) h1 h2
  have hmat := tfactor_matrix (V := V) F2
  dsimp only at F1 F2 hmat
  -- the end of T
  obtain ⟨g4, r4, c4, q4, o4⟩ := Runs.loc_on (onCol_nodup (P := P) (nb := nb) (band := band) (j := j)) c3
    (fun r => tFinish n nb band (dt r) j)
    (fun r s' => PS P n nb band dt r st.a T' s' ∧ HR P n nb band j r V s'.pV ∧ s'.pT 0 = some ⟨nr n band j, nr n band j, F⟩)
    (fun r hr => by
      obtain ⟨p, a1, a2⟩ := q3 r hr
      have hps : PS P n nb band dt r st.a T' (g3.st r) := by rw [a1]; exact ⟨(q2 r hr).1.win, (q2 r hr).1.tau⟩
      refine ⟨RbSt.rT.set (g3.st r) (set1 (g3.st r).pT 0 (some ⟨nr n band j, nr n band j, F⟩)),
        h.tFinish_ps hr hps (f := ts) (by rw [a1]; exact a2) F1, ⟨hps.win, hps.tau⟩, ?_, set1_at (g3.st r).pT 0 _⟩
      show HR P n nb band j r V (g3.st r).pV
      rw [a1]
      exact (q2 r hr).2.1)
  refine ⟨g4, F, (Runs.if_append (Runs.if_append (Runs.if_append (Runs.if_append r0' r1) r2) r3) r4).congr fun r => ?_, c4, fun r hr => ?_,
    fun r hr => (q4 r hr).2, F2.low, hmat⟩
  · by_cases hr : r ∈ onCol P nb band j
    · rw [if_pos hr, if_pos hr]
      unfold panelPart
      simp only [List.map_append, List.map_map, List.append_assoc, List.map_cons, List.map_nil]
      rfl
    · rw [if_neg hr, if_neg hr]
  · by_cases hr' : r ∈ onCol P nb band j
    · exact (q4 r hr').1
    · rw [o4 r hr', o3 r hr hr', o2 r hr', o1 r hr hr', o0 r hr']
      refine ⟨h.win_other hr' hr (hs r hr).win fun x y hy => p3 x y (by omega), h.taus_other hr' hr (hs r hr).tau fun i hi => ?_⟩
      rw [hT']
      exact if_neg hi

end
end DistRed
end DLAF
