import Verif.Lemmas.DistBcast2
import Verif.Lemmas.DistInverse
import Verif.Model.DistAssemble
/- Lemmas about the distributed assembly of the inverse from the triangular inverse. -/
namespace DLAF
variable {K : Type*}

/-- A step of the local algorithm, for rows and columns alike. -/
def asmStepG (ax : Coord) (T : AsmTasks K) (m : Tiles K) (k : Nat) : Option (Tiles K) := do
  let m ← forM' (upto 0 k) m fun m q => do
    let m ← forM' (upto 0 q) m fun m p => m.write (tz ax p q) (T.gemm (m (tz ax q k)) (m (tz ax p k)) (m (tz ax p q)))
    m.write (q, q) (T.herk (m (tz ax q k)) (m (q, q)))
  let m ← forM' (upto 0 k) m fun m p => m.write (tz ax p k) (T.trmm (m (k, k)) (m (tz ax p k)))
  m.write (k, k) (T.lauum (m (k, k)))

/-- What a step does. -/
structure AsmRel (ax : Coord) (T : AsmTasks K) (k : Nat) (m m' : Tiles K) : Prop where
  gemm : ∀ p q, p < q → q < k → T.gemm (m (tz ax q k)) (m (tz ax p k)) (m (tz ax p q)) = some (m' (tz ax p q))
  herk : ∀ q < k, T.herk (m (tz ax q k)) (m (q, q)) = some (m' (q, q))
  line : ∀ p < k, T.trmm (m (k, k)) (m (tz ax p k)) = some (m' (tz ax p k))
  diag : T.lauum (m (k, k)) = some (m' (k, k))
  other : ∀ t, ¬ (px ax t ≤ qx ax t ∧ qx ax t ≤ k) → m' t = m t

theorem tz_eq_iff {ax : Coord} {p q : Nat} {z : Nat × Nat} : z = tz ax p q ↔ px ax z = p ∧ qx ax z = q := by
  constructor
  · rintro rfl
    rw [px_tz, qx_tz]
    exact ⟨rfl, rfl⟩
  · rintro ⟨rfl, rfl⟩
    exact (tz_px_qx ax z).symm

theorem asmStepG_inv {ax : Coord} {T : AsmTasks K} {k : Nat} {m m' : Tiles K} (h : asmStepG ax T m k = some m') : AsmRel ax T k m m' := by
  unfold asmStepG at h
  simp only [Option.bind_eq_bind, Option.bind_eq_some_iff] at h
  obtain ⟨m1, h1, m2, h2, h3⟩ := h
  -- one column of the update
  have inner : ∀ (q : Nat) (s s' : Tiles K), q < k → ((forM' (upto 0 q) s fun m p => m.write (tz ax p q) (T.gemm (m (tz ax q k)) (m (tz ax p k)) (m (tz ax p q)))).bind
      fun m => m.write (q, q) (T.herk (m (tz ax q k)) (m (q, q)))) = some s' →
      (∀ z, ¬ (px ax z ≤ q ∧ qx ax z = q) → s' z = s z) ∧ (∀ p < q, T.gemm (s (tz ax q k)) (s (tz ax p k)) (s (tz ax p q)) = some (s' (tz ax p q))) ∧
        T.herk (s (tz ax q k)) (s (q, q)) = some (s' (q, q)) := by
    intro q s s' hq hs
    obtain ⟨s1, hs1, hs2⟩ := Option.bind_eq_some_iff.1 hs
    obtain ⟨a1, a2⟩ := forM'_frame (upto 0 q) (fun z => if qx ax z = q then some (px ax z) else none) _ (upto_nodup _ _) (by
      intro p hp u u' hu z hz
      obtain ⟨b, hb, e⟩ := write_some hu
      rw [e]
      show (if z = tz ax p q then _ else _) = _
      refine if_neg fun hc => hz ?_
      rw [hc, qx_tz, px_tz, if_pos rfl]) hs1
    have k1 : ∀ z, (qx ax z = q → q ≤ px ax z) → s1 z = s z := by
      intro z hz
      refine a1 z fun y hy hc => ?_
      rw [mem_upto] at hy
      split at hc
      · have := Option.some.inj hc
        have := hz ‹_›
        omega
      · cases hc
    obtain ⟨b, hb, e⟩ := write_some hs2
    have k2 : ∀ z, ¬ (px ax z = q ∧ qx ax z = q) → s' z = s1 z := by
      intro z hz
      rw [e]
      refine if_neg fun hc => hz ?_
      rw [← tz_diag ax] at hc
      exact tz_eq_iff.1 hc
    refine ⟨fun z hz => ?_, fun p hp => ?_, ?_⟩
    · rw [k2 z (by omega), k1 z (by omega)]
    · obtain ⟨u, u', b1, b2, b3⟩ := a2 p (by rw [mem_upto]; omega)
      obtain ⟨b', hb', e'⟩ := write_some b1
      have ow : (if qx ax (tz ax p q) = q then some (px ax (tz ax p q)) else none) = some p := by rw [qx_tz, px_tz, if_pos rfl]
      have hu : ∀ z, qx ax z = k → u z = s z := by
        intro z hz
        refine b2 z (Or.inr fun y hy hc => ?_)
        split at hc
        · omega
        · cases hc
      rw [k2 _ (by rw [px_tz]; omega), b3 _ ow, e']
      show _ = some (if _ then _ else _)
      rw [if_pos rfl, ← hb', hu _ (qx_tz _ _ _), hu _ (qx_tz _ _ _), b2 _ (Or.inl ow)]
    · rw [e]
      show _ = some (if _ then _ else _)
      rw [if_pos rfl, ← hb, k1 (tz ax q k) (by rw [qx_tz]; omega), k1 (q, q) (by rw [← tz_diag ax, px_tz]; omega)]
  obtain ⟨o1, o2⟩ := forM'_frame (upto 0 k) (fun z => if px ax z ≤ qx ax z then some (qx ax z) else none) _ (upto_nodup _ _) (by
    intro q hq u u' hu z hz
    rw [mem_upto] at hq
    obtain ⟨c1, -, -⟩ := inner q u u' hq.2 hu
    refine c1 z fun hc => hz ?_
    rw [if_pos (by omega), hc.2]) h1
  have k1 : ∀ z, (px ax z ≤ qx ax z → k ≤ qx ax z) → m1 z = m z := by
    intro z hz
    refine o1 z fun y hy hc => ?_
    rw [mem_upto] at hy
    split at hc
    · have := Option.some.inj hc
      have := hz ‹_›
      omega
    · cases hc
  obtain ⟨p1, p2⟩ := forM'_frame (upto 0 k) (fun z => if qx ax z = k then some (px ax z) else none) _ (upto_nodup _ _) (by
    intro p hp u u' hu z hz
    obtain ⟨b, hb, e⟩ := write_some hu
    rw [e]
    show (if z = tz ax p k then _ else _) = _
    refine if_neg fun hc => hz ?_
    rw [hc, qx_tz, px_tz, if_pos rfl]) h2
  have k2 : ∀ z, (qx ax z = k → k ≤ px ax z) → m2 z = m1 z := by
    intro z hz
    refine p1 z fun y hy hc => ?_
    rw [mem_upto] at hy
    split at hc
    · have := Option.some.inj hc
      have := hz ‹_›
      omega
    · cases hc
  obtain ⟨b3, hb3, e3⟩ := write_some h3
  have k3 : ∀ z, ¬ (px ax z = k ∧ qx ax z = k) → m' z = m2 z := by
    intro z hz
    rw [e3]
    refine if_neg fun hc => hz ?_
    rw [← tz_diag ax] at hc
    exact tz_eq_iff.1 hc
  have hkk : px ax (k, k) = k ∧ qx ax (k, k) = k := by rw [← tz_diag ax, px_tz, qx_tz]; exact ⟨rfl, rfl⟩
  have col : ∀ q < k, (∀ p < q, T.gemm (m (tz ax q k)) (m (tz ax p k)) (m (tz ax p q)) = some (m1 (tz ax p q))) ∧ T.herk (m (tz ax q k)) (m (q, q)) = some (m1 (q, q)) := by
    intro q hq
    obtain ⟨u, u', c1, c2, c3⟩ := o2 q (by rw [mem_upto]; omega)
    obtain ⟨-, d2, d3⟩ := inner q u u' hq c1
    have ow : ∀ p ≤ q, (if px ax (tz ax p q) ≤ qx ax (tz ax p q) then some (qx ax (tz ax p q)) else none) = some q := by
      intro p hp
      rw [px_tz, qx_tz, if_pos hp]
    have hu : ∀ p, u (tz ax p k) = m (tz ax p k) := by
      intro p
      refine c2 _ (Or.inr fun y hy hc => ?_)
      rw [mem_upto] at hy
      rw [px_tz, qx_tz] at hc
      split at hc
      · have := Option.some.inj hc; omega
      · cases hc
    refine ⟨fun p hp => ?_, ?_⟩
    · rw [c3 _ (ow p (by omega)), ← hu, ← hu, ← c2 _ (Or.inl (ow p (by omega)))]
      exact d2 p hp
    · have := ow q (le_refl _)
      rw [tz_diag] at this
      rw [c3 _ this, ← hu, ← c2 _ (Or.inl this)]
      exact d3
  refine ⟨fun p q hp hq => ?_, fun q hq => ?_, fun p hp => ?_, ?_, fun t ht => ?_⟩
  · rw [k3 _ (by rw [px_tz]; omega), k2 _ (by rw [qx_tz]; omega)]
    exact (col q hq).1 p hp
  · rw [k3 _ (by rw [← tz_diag ax, px_tz]; omega), k2 _ (by rw [← tz_diag ax, qx_tz]; omega)]
    exact (col q hq).2
  · obtain ⟨u, u', c1, c2, c3⟩ := p2 p (by rw [mem_upto]; omega)
    obtain ⟨b, hb, e⟩ := write_some c1
    have ow : (if qx ax (tz ax p k) = k then some (px ax (tz ax p k)) else none) = some p := by rw [px_tz, qx_tz, if_pos rfl]
    rw [k3 _ (by rw [px_tz]; omega), c3 _ ow, e]
    show _ = some (if _ then _ else _)
    rw [if_pos rfl, ← hb, c2 _ (Or.inl ow), c2 (k, k) (Or.inr fun y hy hc => by
      rw [mem_upto] at hy
      rw [hkk.1, hkk.2, if_pos rfl] at hc
      have := Option.some.inj hc; omega), k1 (k, k) (by omega), k1 _ (by rw [qx_tz]; omega)]
  · rw [e3]
    show _ = some (if _ then _ else _)
    rw [if_pos rfl, ← hb3, k2 (k, k) (by omega), k1 (k, k) (by omega)]
  · rw [k3 _ (by omega), k2 _ (by omega), k1 _ (by omega)]

theorem assembleStepL_eq [Field K] [StarRing K] (lp : Lapack K) (m : Tiles K) (k : Nat) : assembleStepL lp m k = asmStepG .Row (asmTasksL lp) m k := rfl
theorem assembleStepU_eq [Field K] [StarRing K] (lp : Lapack K) (m : Tiles K) (k : Nat) : assembleStepU lp m k = asmStepG .Col (asmTasksU lp) m k := rfl

/-! ### Distributed -/

/-- The task of the owner of a diagonal tile. -/
theorem sq_diag {P : Params2} {A : Nat → PanKind} {m0 : Nat → Tiles K} {rest : Coord2 → Nat → VP K} {L : List (Coord2 → VP K)} {w : Bool} (hd : SquareDist P) {r : Coord2} (hr : r ∈ P.ranks)
    {x y : Tiles K} {k : Nat} (hk : k < P.nt) {f : Blk K → Option (Blk K)} (hf : f (x (k, k)) = some (y (k, k)))
    (hsame : ∀ t : Nat × Nat, t.1 < P.nt → t.2 < P.nt → t ≠ (k, k) → x t = y t) :
    VL (sqEnv P A) r w (if (P.on r).row.rank_global_tile k = (P.on r).row.rank ∧ (P.on r).col.rank_global_tile k = (P.on r).col.rank then
        [DSt.task 0 ⟨(P.on r).row.local_tile_from_global_tile k, (P.on r).col.local_tile_from_global_tile k⟩ f] else [])
      (GV.ofL (set1 m0 0 x) rest L) (GV.ofL (set1 m0 0 y) rest L) := by
  have hb : ∀ {z : Coord2}, (sqEnv P A).In 0 r z → ((sqEnv P A).g 0 r z).1 < P.nt ∧ ((sqEnv P A).g 0 r z).2 < P.nt := by
    intro z hz
    obtain ⟨i, j, p, q, -, -, -, -, -, hp, hq, e⟩ := sq_tile hd hr .Col hz
    rw [e]
    exact ⟨hp, hq⟩
  refine VL.ite (fun hc => ?_) fun hc => ?_
  · have ho : P.Owns r (k, k) := hc
    obtain ⟨hin, hg⟩ := sq_local (A := A) (q := 0) hd hr (t := (k, k)) hk hk ho
    refine VL.to (VF.one (sq_task hd hr hin hg hf)) ?_
    refine ⟨fun n z hz => ?_, fun n => rfl⟩
    show set1 (set1 m0 0 _) 0 (set1 (set1 m0 0 _ 0) (k, k) _) n _ = set1 m0 0 y n _
    rw [set1_set1]
    by_cases hn : n = 0
    · subst hn
      rw [set1_same, set1_same, set1_same]
      unfold set1
      by_cases hkk : (sqEnv P A).g 0 r z = (k, k)
      · rw [if_pos hkk, hkk]
      · rw [if_neg hkk]
        exact hsame _ (hb hz).1 (hb hz).2 hkk
    · rw [set1_ne _ _ hn, set1_ne _ _ hn]
  · refine (VL.nil _).to (GV.ofL_mat fun n z hz => ?_)
    by_cases hn : n = 0
    · subst hn
      rw [set1_same, set1_same]
      refine hsame _ (hb hz).1 (hb hz).2 fun hkk => hc ?_
      have := sq_owns hd hr hz
      rw [hkk] at this
      exact this
    · rw [set1_ne _ _ hn, set1_ne _ _ hn]

/-- The panels. -/
def asmA (ax : Coord) (n : Nat) : PanKind := if n = 0 then ⟨ax, isTall ax, true, true, false⟩ else ⟨ax.orth, isTall ax, true, true, false⟩

/-- The tiles that are updated with line `k`. -/
def asmR1 (ax : Coord) (k : Nat) (t : Nat × Nat) : Prop := px ax t ≤ qx ax t ∧ qx ax t < k
instance (ax : Coord) (k : Nat) : DecidablePred (asmR1 ax k) := fun t => by unfold asmR1; infer_instance

/-- Everything known in iteration `k`. -/
structure AsmCtx (P : Params2) (ax : Coord) (T : AsmTasks K) (k : Nat) (m m' : Tiles K) : Prop where
  d : SquareDist P
  fm : P.Fits m
  fm' : P.Fits m'
  rel : AsmRel ax T k m m'
  lt : k < P.nt

section steps
variable {P : Params2} {ax : Coord} {T : AsmTasks K} {k : Nat} {m m' : Tiles K}
  (h : AsmCtx P ax T k m m') {dbg : Bool} {m0 : Nat → Tiles K} {rest : Coord2 → Nat → VP K} {x0 x1 : Coord2 → VP K}
include h

theorem asmPrep_step {r : Coord2} (hr : r ∈ P.ranks) (hk : 0 < k) {s e s' e' : Int} (hx : x0 r = noP P.row.tile s e) (hx1 : x1 r = noP P.row.tile s' e')
    {M : Nat → Tiles K} (hM : M 0 = m) :
    VL (sqEnv P (asmA ax)) r (rrIdx k) (asmPrep dbg ax (P.on r) k) (GV.ofL M rest [x0, x1])
      (GV.ofL M rest [fun r => if r.get ax = (P.get ax).dist.rank_global_tile k then lineP P ax m k 0 k else noP (P.tsz k) 0 k, fun _ => noP (P.tsz k) 1 k]) := by
  have hV : (sqEnv P (asmA ax)).OK := h.d.env
  obtain ⟨t1, t2, t3⟩ := h.d.tsz_pos h.lt
  have hlt := h.lt
  have hn : P.col.dist.nrTiles = P.nt := h.d.nrTiles .Col
  unfold asmPrep
  rw [P.on_at, P.on_at]
  refine VL.append (VL.append (b := GV.ofL M rest [fun _ => noP P.row.tile 0 k, fun _ => noP P.row.tile 1 k])
    (VL.cons (b := GV.ofL M rest [fun _ => noP P.row.tile 0 k, x1]) ?_ (VF.one ?_))
    (VL.ite (b := GV.ofL M rest [fun _ => noP (P.tsz k) 0 k, fun _ => noP (P.tsz k) 1 k])
      (fun hc => VL.cons (b := GV.ofL M rest [fun _ => noP (P.tsz k) 0 k, fun _ => noP P.row.tile 1 k]) ?_ (VF.one ?_)) fun hc => ?_)) ?_
  · refine (VF.setRange hV hr (n := 0) (le_refl _) (by omega) ?_ ?_).to (GV.ofL_to (n := 0) (by simp) (fun _ => noP P.row.tile 0 k) rfl ?_ rfl)
    · show _ ≤ (P.get ax.orth).dist.nrTiles
      rw [h.d.nrTiles]; omega
    · show (x0 r).W = _
      rw [hx]; rfl
    · show VP.loc _ (⟨(x0 r).ax, _, _, _⟩ : VP K) = _
      rw [hx]; rfl
  · refine (VF.setRange hV hr (n := 1) (by omega) (by omega) ?_ ?_).to (GV.ofL_to (n := 1) (by simp) (fun _ => noP P.row.tile 1 k) rfl ?_ rfl)
    · show _ ≤ (P.get ax.orth.orth).dist.nrTiles
      rw [h.d.nrTiles]; omega
    · show (x1 r).W = _
      rw [hx1]; rfl
    · show VP.loc _ (⟨(x1 r).ax, _, _, _⟩ : VP K) = _
      rw [hx1]; rfl
  · refine (VF.setDim (n := 0) ?_ ?_ ?_).to (GV.ofL_to (n := 0) (by simp) (fun _ => noP (P.tsz k) 0 k) rfl ?_ rfl)
    · show 0 < (P.get ax).dist.global_tile_size_of k
      rw [h.d.tsz]; exact t1
    · show (P.get ax).dist.global_tile_size_of k ≤ P.row.tile
      rw [h.d.tsz]; exact t2
    · rfl
    · show VP.loc _ (⟨(P.get ax).dist.global_tile_size_of k, _, _, _⟩ : VP K) = _
      rw [h.d.tsz]; rfl
  · refine (VF.setDim (n := 1) ?_ ?_ ?_).to (GV.ofL_to (n := 1) (by simp) (fun _ => noP (P.tsz k) 1 k) rfl ?_ rfl)
    · show 0 < (P.get ax.orth).dist.global_tile_size_of k
      rw [h.d.tsz]; exact t1
    · show (P.get ax.orth).dist.global_tile_size_of k ≤ P.row.tile
      rw [h.d.tsz]; exact t2
    · rfl
    · show VP.loc _ (⟨(P.get ax.orth).dist.global_tile_size_of k, _, _, _⟩ : VP K) = _
      rw [h.d.tsz]; rfl
  · have hc' : ¬ (k : Int) = P.col.dist.nrTiles - 1 := hc
    rw [t3 (by omega)]
    exact VL.nil _
  · refine sq_link h.d hr 0 (by simp) (M := M) (q := 0) (ax := ax) (k := k) (s := 0) (e := k) rfl rfl rfl rfl h.lt (le_refl _) (by omega) (by omega)
      (by rw [hM]; exact h.fm) eq_comm ?_ rfl ?_
    · exact ((h.d.plainAt ax.orth hr).nx_zero).symm
    · rw [hM]; rfl

theorem asmBcast (hk : 0 < k) {M : Nat → Tiles K} :
    VStep (sqEnv P (asmA ax)) (rrIdx k) (fun r => bcastPanels dbg ax (P.on r) (((P.on r).get ax).rank_global_tile k) (DSt.panel 0 k) (DSt.panel 1 k) 0 k 1 k)
      (GV.ofL M rest [fun r => if r.get ax = (P.get ax).dist.rank_global_tile k then lineP P ax m k 0 k else noP (P.tsz k) 0 k, fun _ => noP (P.tsz k) 1 k])
      (GV.ofL M rest [fun _ => lineP P ax m k 0 k, fun _ => lineP P ax m k 1 k]) := by
  have hV : (sqEnv P (asmA ax)).OK := h.d.env
  have hlt := h.lt
  have hroot : 0 ≤ (P.get ax).dist.rank_global_tile k ∧ (P.get ax).dist.rank_global_tile k < (P.get ax).grid :=
    (h.d.plain ax).valid.wf.cyc.rank_range (t := (k : Int)) (by omega)
  have t0 := Int.le_of_lt (h.d.tsz_pos h.lt).1
  have key := VStep.bcast2 hV (a := GV.ofL M rest [fun r => if r.get ax = (P.get ax).dist.rank_global_tile k then lineP P ax m k 0 k else noP (P.tsz k) 0 k, fun _ => noP (P.tsz k) 1 k])
    (it := k) 0 1 (by omega) rfl rfl h.d.size h.d.tile (root := (P.get ax).dist.rank_global_tile k) hroot (dbg := dbg) (ax := P.tsz k) (axT := P.tsz k) (s := 0) (e := k) (sT := 1) (eT := k) t0 t0
    (le_refl _) (by omega) (by omega) (le_refl _) (by show _ ≤ (P.get ax.orth).dist.nrTiles; rw [h.d.nrTiles]; omega) (fun t => m (tz ax t.toNat k)) (by
      intro t h0 h1
      show VPanel.fits (isTall ax) _ _ ((P.get ax.orth).dist.global_tile_size_of t) = true
      rw [h.d.tsz]
      exact h.d.fits h.fm h.lt (by omega) (by omega)) (by
      intro t h0 h1
      show VPanel.fits (isTall ax) _ _ ((P.get ax).dist.global_tile_size_of t) = true
      rw [h.d.tsz]
      exact h.d.fits h.fm h.lt (by omega) (by omega)) (by
      intro r hr
      refine ⟨?_, rfl⟩
      show (if r.get ax = (P.get ax).dist.rank_global_tile k then lineP P ax m k 0 k else noP (P.tsz k) 0 k) = (⟨_, _, _, if r.get ax = _ then _ else _⟩ : VP K)
      by_cases hc : r.get ax = (P.get ax).dist.rank_global_tile k
      · rw [if_pos hc, if_pos hc]; rfl
      · rw [if_neg hc, if_neg hc]; rfl) rfl rfl
  refine VStep.congr (VStep.to key fun r hr => ?_) fun r hr => ?_
  · rw [GV.ofL_setPs (by simp), GV.ofL_setPs (by simp)]
    exact .refl _
  · rw [P.on_at]
    rfl

theorem asmTrail_step {r : Coord2} (hr : r ∈ P.ranks) (hx0 : x0 r = lineP P ax m k 0 k) (hx1 : x1 r = lineP P ax m k 1 k) :
    VL (sqEnv P (asmA ax)) r (rrIdx k) (asmTrail dbg ax T (P.on r) k) (GV.ofL (set1 m0 0 m) rest [x0, x1])
      (GV.ofL (set1 m0 0 (mixT (asmR1 ax k) m m')) rest [x0, x1]) := by
  have hlt := h.lt
  have p1 := h.d.plainAt ax.orth hr
  have p2 := h.d.plainAt ax hr
  have n1 : (P.at' ax.orth r).dist.nrTiles = P.nt := h.d.nrTiles ax.orth
  have n2 : (P.at' ax r).dist.nrTiles = P.nt := h.d.nrTiles ax
  let ow : Nat → Nat → Prop := fun q p => (P.get ax).dist.rank_global_tile q = r.get ax ∧ (P.get ax.orth).dist.rank_global_tile p = r.get ax.orth
  have how : ∀ q p, P.Owns r (tz ax p q) ↔ ow q p := by
    intro q p
    unfold Params2.Owns
    cases ax
    · exact Iff.rfl
    · exact and_comm
  let ops : Nat × Nat → List (DSt K → Option (DSt K)) := fun t =>
    if ow (qx ax t) (px ax t) then [if px ax t = qx ax t then asmHerk dbg ax T (P.on r) k (qx ax t) else asmGemm dbg ax T (P.on r) k (qx ax t) (px ax t)] else []
  have e0 : asmTrail dbg ax T (P.on r) k = ((upto 0 k).flatMap fun q => (upto 0 (q + 1)).map fun p => tz ax p q).flatMap ops := by
    have hup : ∀ n : Nat, irange (0 : Int) n = (upto 0 n).map fun i : Nat => (i : Int) := fun n => by
      rw [show (0 : Int) = ((0 : Nat) : Int) from rfl, irange_upto]
    unfold asmTrail
    rw [List.flatMap_assoc, hup, List.flatMap_map]
    refine List.flatMap_congr fun q _ => ?_
    rw [P.on_at, P.on_at, List.flatMap_map, upto_succ (by omega), List.flatMap_append, hup, List.flatMap_map]
    by_cases hq : (P.at' ax r).dist.rank_global_tile q = (P.at' ax r).dist.rank
    · rw [if_neg (fun hc => hc hq)]
      congr 1
      · refine List.flatMap_congr fun p hp => ?_
        rw [mem_upto] at hp
        show _ = if ow (qx ax (tz ax p q)) (px ax (tz ax p q)) then _ else _
        rw [px_tz, qx_tz, if_neg (show ¬ p = q by omega)]
        by_cases hp : (P.at' ax.orth r).dist.rank_global_tile p = (P.at' ax.orth r).dist.rank
        · rw [if_neg (fun hc => hc hp), if_pos ⟨hq, hp⟩]
        · rw [if_pos hp, if_neg (fun hc => hp hc.2)]
      · rw [List.flatMap_cons, List.flatMap_nil, List.append_nil]
        show _ = if ow (qx ax (tz ax q q)) (px ax (tz ax q q)) then _ else _
        rw [px_tz, qx_tz, if_pos rfl]
        rfl
    · rw [if_pos hq]
      symm
      have hno : ∀ p, ops (tz ax p q) = [] := fun p => if_neg (by rw [qx_tz]; exact fun hc => hq hc.1)
      simp [hno]
  rw [e0]
  have e1 : set1 m0 0 m = set1 m0 0 (mixT (fun _ => False) m m') := by congr 1
  rw [e1]
  have hmem : ∀ t, t ∈ ((upto 0 k).flatMap fun q => (upto 0 (q + 1)).map fun p => tz ax p q) ↔ asmR1 ax k t := by
    intro t
    simp only [List.mem_flatMap, List.mem_map, mem_upto]
    constructor
    · rintro ⟨q, hq, p, hp, rfl⟩
      unfold asmR1
      rw [px_tz, qx_tz]
      omega
    · intro ht
      exact ⟨qx ax t, ⟨by omega, ht.2⟩, px ax t, ⟨by omega, by have := ht.1; omega⟩, tz_px_qx ax t⟩
  refine sq_gtasks h.d hr 0 _ ops ?_ (fun _ _ => id) (fun t => by rw [hmem]; simp) ?_ ?_
  · rw [List.nodup_flatMap]
    refine ⟨fun q _ => (upto_nodup _ _).map fun x y hxy => (tz_inj hxy).1, (upto_nodup _ _).imp ?_⟩
    intro x y hxy z h1 h2
    rw [List.mem_map] at h1 h2
    obtain ⟨a, _, rfl⟩ := h1
    obtain ⟨b, _, h⟩ := h2
    exact hxy (tz_inj h).2.symm
  · intro t _ hno
    refine if_neg fun hc => hno ?_
    have := (how (qx ax t) (px ax t)).2 hc
    rwa [tz_px_qx] at this
  · intro t ht ho c hc
    rw [hmem] at ht
    obtain ⟨p, q, rfl⟩ : ∃ p q, t = tz ax p q := ⟨_, _, (tz_px_qx ax t).symm⟩
    unfold asmR1 at ht
    rw [px_tz, qx_tz] at ht
    have ho' := (how q p).1 ho
    have hops : ops (tz ax p q) = [if p = q then asmHerk dbg ax T (P.on r) k q else asmGemm dbg ax T (P.on r) k q p] := by
      show (if ow (qx ax (tz ax p q)) (px ax (tz ax p q)) then _ else _) = _
      rw [px_tz, qx_tz, if_pos ho']
    rw [hops]
    refine VF.one ?_
    have gp : (P.at' ax.orth r).gl ((P.at' ax.orth r).lc p) = p := p1.gl_lc (by omega) ho'.2
    have gq : (P.at' ax r).gl ((P.at' ax r).lc q) = q := p2.gl_lc (by omega) ho'.1
    have bp := p1.lc_bounds (t := (p : Int)) (by omega) (by omega) ho'.2
    have bq := p2.lc_bounds (t := (q : Int)) (by omega) (by omega) ho'.1
    have hin : (sqEnv P (asmA ax)).In 0 r (tileAt ax ((P.at' ax.orth r).lc p) ((P.at' ax r).lc q)) := (sq_in _ _ _ _ _).2 ⟨bp, bq⟩
    have hg : (sqEnv P (asmA ax)).g 0 r (tileAt ax ((P.at' ax.orth r).lc p) ((P.at' ax r).lc q)) = tz ax p q := by
      rw [sq_g, gp, gq]; rfl
    have rd0 : ∀ {f : DSt K × Blk K → Option (DSt K)} {c' : GV K}, VF (sqEnv P (asmA ax)) r (rrIdx k) (fun s => f (s, m (tz ax p k))) (GV.ofL (set1 m0 0 c) rest [x0, x1]) c' →
        VF (sqEnv P (asmA ax)) r (rrIdx k) (fun s => ((DSt.panel 0 k).read dbg ((P.at' ax.orth r).lc p) s).bind f) (GV.ofL (set1 m0 0 c) rest [x0, x1]) c' := by
      intro f c' hf
      have gp' : (P.at' (asmA ax 0).axis.orth r).gl ((P.at' ax.orth r).lc p) = p := gp
      have h2 : (p : Int) < k := by omega
      have h0 : (0 : Int) ≤ p := by omega
      have b0 := bp.1
      clear e0 e1 hmem hops how hin hg bq gq
      exact sq_rd (L := [x0, x1]) (A := asmA ax) (M := set1 m0 0 c) (it := k) (dbg := dbg) (i := (P.at' ax.orth r).lc p) (ax := ax) (x := m) (k := k) (p := p) (s := 0) (e := k)
        h.d hr 0 (by simp) hx0 h.lt (le_refl _) b0 gp' h0 h2 hf
    have rd1 : 0 < q → ∀ {f : DSt K × Blk K → Option (DSt K)} {c' : GV K}, VF (sqEnv P (asmA ax)) r (rrIdx k) (fun s => f (s, m (tz ax q k))) (GV.ofL (set1 m0 0 c) rest [x0, x1]) c' →
        VF (sqEnv P (asmA ax)) r (rrIdx k) (fun s => ((DSt.panel 1 k).read dbg ((P.at' ax r).lc q) s).bind f) (GV.ofL (set1 m0 0 c) rest [x0, x1]) c' := by
      intro hq f c' hf
      have gq' : (P.at' (asmA ax 1).axis.orth r).gl ((P.at' ax r).lc q) = q := by
        show (P.at' ax.orth.orth r).gl _ = _
        rw [orth_orth]; exact gq
      have h2 : (q : Int) < k := by omega
      have h0 : (1 : Int) ≤ q := by omega
      have b0 := bq.1
      clear e0 e1 hmem hops how hin hg bp gp rd0
      exact sq_rd (L := [x0, x1]) (A := asmA ax) (M := set1 m0 0 c) (it := k) (dbg := dbg) (i := (P.at' ax r).lc q) (ax := ax) (x := m) (k := k) (p := q) (s := 1) (e := k)
        h.d hr 1 (by simp) hx1 h.lt (by omega) b0 gq' h0 h2 hf
    by_cases hpq : p = q
    · rw [if_pos hpq]
      subst hpq
      show VF _ _ _ (fun s => (((DSt.panel 0 k).read dbg (((P.on r).get ax.orth).local_tile_from_global_tile p) s).bind fun sa =>
        DSt.task 0 (tileAt ax (((P.on r).get ax.orth).local_tile_from_global_tile p) (((P.on r).get ax).local_tile_from_global_tile p)) (T.herk sa.2) sa.1)) _ _
      rw [P.on_at, P.on_at]
      refine rd0 ?_
      show VF _ _ _ (DSt.task 0 _ (T.herk (m (tz ax p k)))) _ _
      refine sq_task h.d hr hin hg ?_
      rw [hc, tz_diag]
      exact h.rel.herk p ht.2
    · rw [if_neg hpq]
      show VF _ _ _ (fun s => (((DSt.panel 1 k).read dbg (((P.on r).get ax).local_tile_from_global_tile q) s).bind fun sa =>
        ((DSt.panel 0 k).read dbg (((P.on r).get ax.orth).local_tile_from_global_tile p) sa.1).bind fun sb =>
        DSt.task 0 (tileAt ax (((P.on r).get ax.orth).local_tile_from_global_tile p) (((P.on r).get ax).local_tile_from_global_tile q)) (T.gemm sa.2 sb.2) sb.1)) _ _
      rw [P.on_at, P.on_at]
      refine rd1 (by omega) ?_
      dsimp only
      refine rd0 ?_
      show VF _ _ _ (DSt.task 0 _ (T.gemm (m (tz ax q k)) (m (tz ax p k)))) _ _
      refine sq_task h.d hr hin hg ?_
      rw [hc]
      exact h.rel.gemm p q (by omega) ht.2

theorem asmReset_step {r : Coord2} (hx0 : (x0 r).s = 0 ∧ (x0 r).e = k) (hx1 : (x1 r).s = 1 ∧ (x1 r).e = k) {M : Nat → Tiles K} :
    VL (sqEnv P (asmA ax)) r (rrIdx k) (asmReset k) (GV.ofL M rest [x0, x1]) (GV.ofL M rest [fun _ => noP P.row.tile 0 k, fun _ => noP P.row.tile 1 k]) := by
  unfold asmReset
  refine VL.cons (b := GV.ofL M rest [fun _ => noP P.row.tile 0 k, x1]) ?_ (VF.one ?_)
  · refine (VF.reset (n := 0)).to (GV.ofL_to (n := 0) (by simp) (fun _ => noP P.row.tile 0 k) rfl ?_ rfl)
    show VP.loc _ (⟨_, (x0 r).s, (x0 r).e, _⟩ : VP K) = _
    rw [hx0.1, hx0.2]; rfl
  · refine (VF.reset (n := 1)).to (GV.ofL_to (n := 1) (by simp) (fun _ => noP P.row.tile 1 k) rfl ?_ rfl)
    show VP.loc _ (⟨_, (x1 r).s, (x1 r).e, _⟩ : VP K) = _
    rw [hx1.1, hx1.2]; rfl

theorem AsmCtx.m1 : P.Fits (mixT (asmR1 ax k) m m') := by
  intro i hi j hj
  unfold mixT
  split
  · exact h.fm' i hi j hj
  · exact h.fm i hi j hj

theorem AsmCtx.m1_kk : mixT (asmR1 ax k) m m' (k, k) = m (k, k) := by
  rw [← tz_diag ax]
  exact if_neg (by unfold asmR1; rw [px_tz, qx_tz]; omega)

/-- The transposed panel before the second broadcast. -/
def asmD (P : Params2) (ax : Coord) (m : Tiles K) (k : Nat) (b : Bool) (r : Coord2) : VP K :=
  if r.get ax = (P.get ax).dist.rank_global_tile k then
    (if b = true ∨ r.get ax.orth = (P.get ax.orth).dist.rank_global_tile k then lineP P ax m k k ((k : Int) + 1) else noP (P.tsz k) k ((k : Int) + 1))
  else noP P.row.tile 1 k

theorem asmDiag_step {r : Coord2} (hr : r ∈ P.ranks) (ho : r.get ax = (P.get ax).dist.rank_global_tile k) (hx1 : x1 r = noP P.row.tile 1 k) {M : Nat → Tiles K} (hM : M 0 (k, k) = m (k, k)) :
    VL (sqEnv P (asmA ax)) r (rrIdx k) (asmDiag dbg ax (P.on r) k) (GV.ofL M rest [x0, x1])
      (GV.ofL M rest [x0, asmD P ax m k false]) := by
  have hV : (sqEnv P (asmA ax)).OK := h.d.env
  obtain ⟨t1, t2, t3⟩ := h.d.tsz_pos h.lt
  have hlt := h.lt
  have hn : P.col.dist.nrTiles = P.nt := h.d.nrTiles .Col
  have p1 := h.d.plainAt ax.orth hr
  have p2 := h.d.plainAt ax hr
  have n1 : (P.at' ax.orth r).dist.nrTiles = P.nt := h.d.nrTiles ax.orth
  have n2 : (P.at' ax r).dist.nrTiles = P.nt := h.d.nrTiles ax
  unfold asmDiag
  rw [P.on_at, P.on_at]
  refine VL.append (VL.append (b := GV.ofL M rest [x0, fun _ => noP P.row.tile k ((k : Int) + 1)]) (VF.one ?_)
    (VL.ite (b := GV.ofL M rest [x0, fun _ => noP (P.tsz k) k ((k : Int) + 1)]) (fun hc => VF.one ?_) fun hc => ?_)) (VL.ite (fun hc => ?_) fun hc => ?_)
  · refine (VF.setRange hV hr (n := 1) (by omega) (by omega) ?_ ?_).to (GV.ofL_to (n := 1) (by simp) (fun _ => noP P.row.tile k ((k : Int) + 1)) rfl ?_ rfl)
    · show _ ≤ (P.get ax.orth.orth).dist.nrTiles
      rw [h.d.nrTiles]; omega
    · show (x1 r).W = _
      rw [hx1]; rfl
    · show VP.loc _ (⟨(x1 r).ax, _, _, _⟩ : VP K) = _
      rw [hx1]; rfl
  · refine (VF.setDim (n := 1) ?_ ?_ ?_).to (GV.ofL_to (n := 1) (by simp) (fun _ => noP (P.tsz k) k ((k : Int) + 1)) rfl ?_ rfl)
    · show 0 < (P.get ax.orth).dist.global_tile_size_of k
      rw [h.d.tsz]; exact t1
    · show (P.get ax.orth).dist.global_tile_size_of k ≤ P.row.tile
      rw [h.d.tsz]; exact t2
    · rfl
    · show VP.loc _ (⟨(P.get ax.orth).dist.global_tile_size_of k, _, _, _⟩ : VP K) = _
      rw [h.d.tsz]; rfl
  · have hc' : ¬ (k : Int) = P.col.dist.nrTiles - 1 := hc
    rw [t3 (by omega)]
    exact VL.nil _
  · have hc' : (P.get ax.orth).dist.rank_global_tile k = r.get ax.orth := hc
    have bp := p1.lc_bounds (t := (k : Int)) (by omega) (by omega) hc'
    have bq := p2.lc_bounds (t := (k : Int)) (by omega) (by omega) ho.symm
    have gp : (P.at' ax.orth r).gl ((P.at' ax.orth r).lc k) = k := p1.gl_lc (by omega) hc'
    have gq : (P.at' ax r).gl ((P.at' ax r).lc k) = k := p2.gl_lc (by omega) ho.symm
    have enx := p2.lc_nx (t := (k : Int)) (by omega) ho.symm
    have hcrd : ∀ i, ((sqEnv P (asmA ax)).E.crd 1 r).gl i = (P.at' ax r).gl i := fun i => by
      show (P.at' ax.orth.orth r).gl i = _
      rw [orth_orth]
    have key := VL.links hV hr (a := GV.ofL M rest [x0, fun _ => noP (P.tsz k) k ((k : Int) + 1)]) (n := 1) (q := 0) (it := k) (dbg := dbg) [(P.at' ax r).nx k]
      (fun _ => tileAt ax ((P.at' ax.orth r).lc k) ((P.at' ax r).lc k)) (by simp) (s := k) (e := (k : Int) + 1) rfl rfl (by omega) (by omega) rfl (by
        intro i
        rw [List.mem_singleton, hcrd, ← enx]
        constructor
        · rintro rfl
          rw [gq]
          exact ⟨bq.1, by omega, by omega⟩
        · rintro ⟨h0, h1, h2⟩
          exact p2.gl_inj h0 bq.1 (by rw [gq]; show (P.at' ax r).gl i = _; omega)) (fun t => m (tz ax t.toNat k)) (by
        intro i _
        exact (sq_in _ _ _ _ _).2 ⟨bp, bq⟩) (by
        intro i hi
        rw [List.mem_singleton] at hi
        rw [sq_g, gp, gq, hcrd, hi, ← enx, gq]
        show M 0 (tz ax k k) = m (tz ax k k)
        rw [tz_diag]
        exact hM) (by
        intro t h0 h1
        show VPanel.fits (isTall ax) _ _ ((P.get ax.orth.orth).dist.global_tile_size_of t) = true
        rw [h.d.tsz]
        exact h.d.fits h.fm h.lt (by omega) (by omega)) rfl
    refine key.to (GV.ofL_to (n := 1) (by simp) (asmD P ax m k false) rfl ?_ rfl)
    unfold asmD
    rw [if_pos ho, if_pos (Or.inr hc'.symm)]
    rfl
  · refine (VL.nil _).to ?_
    have hc' : ¬ (P.get ax.orth).dist.rank_global_tile k = r.get ax.orth := hc
    refine ⟨fun _ _ _ => rfl, fun n => ?_⟩
    rcases n with _ | _ | n
    · rfl
    · show VP.loc _ (noP (P.tsz k) k ((k : Int) + 1)) = VP.loc _ (asmD P ax m k false r)
      unfold asmD
      rw [if_pos ho, if_neg]
      rintro (hb | hb)
      · cases hb
      · exact hc' hb.symm
    · rfl

theorem asmBcast1 {M : Nat → Tiles K} :
    VStep (sqEnv P (asmA ax)) (rrIdx k) (fun r => if ((P.on r).get ax).rank_global_tile k = ((P.on r).get ax).rank then
        bcastPanel dbg ax.orth (P.on r) (((P.on r).get ax.orth).rank_global_tile k) (DSt.panel 1 k) k ((k : Int) + 1) else [])
      (GV.ofL M rest [x0, asmD P ax m k false]) (GV.ofL M rest [x0, asmD P ax m k true]) := by
  have hV : (sqEnv P (asmA ax)).OK := h.d.env
  have hlt := h.lt
  have hroot : 0 ≤ (P.get ax.orth).dist.rank_global_tile k ∧ (P.get ax.orth).dist.rank_global_tile k < (P.get ax.orth).grid :=
    (h.d.plain ax.orth).valid.wf.cyc.rank_range (t := (k : Int)) (by omega)
  have t0 := Int.le_of_lt (h.d.tsz_pos h.lt).1
  let act : Int → Bool := fun x => decide (x = (P.get ax).dist.rank_global_tile k)
  have hact : ∀ r : Coord2, act (r.get ax.orth.orth) = true ↔ r.get ax = (P.get ax).dist.rank_global_tile k := fun r => by
    rw [orth_orth]
    exact decide_eq_true_iff
  have key := VStep.bcast hV (a := GV.ofL M rest [x0, asmD P ax m k false]) (it := k) 1 (root := (P.get ax.orth).dist.rank_global_tile k) hroot (dbg := dbg) (ax := P.tsz k)
    (s := k) (e := (k : Int) + 1) t0 (by omega) (by omega) (by show _ ≤ (P.get ax.orth.orth).dist.nrTiles; rw [h.d.nrTiles]; omega) act (fun t => m (tz ax t.toNat k)) (by
      intro t h0 h1
      show VPanel.fits (isTall ax) _ _ ((P.get ax.orth.orth).dist.global_tile_size_of t) = true
      rw [h.d.tsz]
      exact h.d.fits h.fm h.lt (by omega) (by omega)) (by
      intro r hr ha
      have ha' := (hact r).1 ha
      show asmD P ax m k false r = (⟨_, _, _, if r.get ax.orth = (P.get ax.orth).dist.rank_global_tile k then _ else _⟩ : VP K)
      unfold asmD
      rw [if_pos ha']
      by_cases hc : r.get ax.orth = (P.get ax.orth).dist.rank_global_tile k
      · rw [if_pos (Or.inr hc), if_pos hc]; rfl
      · rw [if_neg (fun hb => hb.elim (by decide) hc), if_neg hc]; rfl) rfl
  refine VStep.congr (VStep.to key fun r hr => ?_) fun r hr => ?_
  · rw [GV.ofL_setPs (by simp)]
    refine ⟨fun _ _ _ => rfl, fun n => ?_⟩
    rcases n with _ | _ | n
    · rfl
    · show VP.loc _ (if act (r.get ax.orth.orth) = true then _ else asmD P ax m k false r) = VP.loc _ (asmD P ax m k true r)
      by_cases hc : r.get ax = (P.get ax).dist.rank_global_tile k
      · rw [if_pos ((hact r).2 hc)]
        unfold asmD
        rw [if_pos hc, if_pos (Or.inl rfl)]
        rfl
      · rw [if_neg (fun hb => hc ((hact r).1 hb))]
        unfold asmD
        rw [if_neg hc, if_neg hc]
    · rfl
  · rw [P.on_at, P.on_at]
    refine if_congr ?_ rfl rfl
    show (P.get ax).dist.rank_global_tile k = r.get ax ↔ act (r.get ax.orth.orth) = true
    rw [hact]
    exact eq_comm

theorem asmLine_step {r : Coord2} (hr : r ∈ P.ranks) (ho : r.get ax = (P.get ax).dist.rank_global_tile k) {y1 : Coord2 → VP K}
    (hx1 : x1 r = lineP P ax m k k ((k : Int) + 1)) (hy : y1 r = noP P.row.tile k ((k : Int) + 1)) :
    VL (sqEnv P (asmA ax)) r (rrIdx k) (asmLine dbg ax T (P.on r) k) (GV.ofL (set1 m0 0 (mixT (asmR1 ax k) m m')) rest [x0, x1])
      (GV.ofL (set1 m0 0 (mixT (fun t => asmR1 ax k t ∨ triR3 ax k t) m m')) rest [x0, y1]) := by
  have hlt := h.lt
  have p1 := h.d.plainAt ax.orth hr
  have p2 := h.d.plainAt ax hr
  have n2 : (P.at' ax r).dist.nrTiles = P.nt := h.d.nrTiles ax
  unfold asmLine
  refine VL.append (b := GV.ofL (set1 m0 0 (mixT (fun t => asmR1 ax k t ∨ triR3 ax k t) m m')) rest [x0, x1]) ?_ (VF.one ?_)
  · have e0 : ((irange 0 (((P.on r).get ax.orth).next_local_tile_from_global_tile k)).map fun i => fun s =>
        ((DSt.panel 1 (k : Int)).read dbg (((P.on r).get ax).next_local_tile_from_global_tile k) s).bind fun sa =>
          DSt.task 0 (tileAt ax i (((P.on r).get ax).next_local_tile_from_global_tile k)) (T.trmm sa.2) sa.1) =
        (tilesOf ax ((P.at' ax.orth r).nx (0 : Nat)) ((P.at' ax.orth r).nx k) ((P.at' ax r).nx k) ((P.at' ax r).nx (k + 1 : Nat))).map fun z => fun s =>
          ((DSt.panel 1 (k : Int)).read dbg (z.get ax) s).bind fun sa => DSt.task 0 z (T.trmm sa.2) sa.1 := by
      rw [← tilesOf_line h.d hr (own := True) (by simp [ho]), if_pos trivial, List.map_map, P.on_at, P.on_at,
        show (P.at' ax.orth r).nx (0 : Nat) = 0 from p1.nx_zero]
      refine List.map_congr_left fun i _ => ?_
      funext s
      show _ = ((DSt.panel 1 _).read dbg ((tileAt ax i ((P.at' ax r).nx k)).get ax) s).bind fun sa => DSt.task 0 (tileAt ax i ((P.at' ax r).nx k)) (T.trmm sa.2) sa.1
      rw [tileAt_get_axis]
    rw [e0]
    refine sq_tasks h.d hr 0 _ _ (triR3 ax k) (tilesOf_nodup _ _ _ _ _) ?_ (fun t h1 h2 => ?_) (fun t => Iff.rfl) ?_
    · intro z
      rw [mem_tilesOf_nx h.d hr (n := 0) (A := asmA ax) (show k ≤ P.nt by omega) (show k + 1 ≤ P.nt by omega)]
      refine and_congr_right fun hz => ?_
      unfold triR3
      omega
    · unfold triR3 at h1
      unfold asmR1 at h2
      omega
    · intro z hz hR c hc
      obtain ⟨i, j, p, q, rfl, i0, j0, ip, jq, hp, hq, e⟩ := sq_tile h.d hr ax hz
      rw [e] at hR hc ⊢
      obtain ⟨hR1, hR2⟩ := hR
      rw [px_tz] at hR1
      rw [qx_tz] at hR2
      subst hR2
      have jq' : (P.at' (asmA ax 1).axis.orth r).gl j = q := by
        show (P.at' ax.orth.orth r).gl j = _
        rw [orth_orth]; exact jq
      rw [tileAt_get_axis]
      clear e0
      refine sq_rd (L := [x0, x1]) (A := asmA ax) (it := q) (dbg := dbg) (i := j) (ax := ax) (x := m) (k := q) (p := q) (s := q) (e := (q : Int) + 1)
        h.d hr 1 (by simp) hx1 h.lt (by omega) j0 jq' (by omega) (by omega) ?_
      show VF _ _ _ (DSt.task 0 (tileAt ax i j) (T.trmm (m (tz ax q q)))) _ _
      refine sq_task h.d hr hz e ?_
      rw [hc, tz_diag]
      exact h.rel.line p hR1
  · refine (VF.reset (n := 1)).to (GV.ofL_to (n := 1) (by simp) y1 rfl ?_ rfl)
    show VP.loc _ (⟨_, (x1 r).s, (x1 r).e, _⟩ : VP K) = _
    rw [hx1, hy]; rfl

theorem asmEnd_step {r : Coord2} (hr : r ∈ P.ranks) {L : List (Coord2 → VP K)} {w : Bool} :
    VL (sqEnv P (asmA ax)) r w (asmEnd T (P.on r) k) (GV.ofL (set1 m0 0 (mixT (fun t => asmR1 ax k t ∨ triR3 ax k t) m m')) rest L) (GV.ofL (set1 m0 0 m') rest L) := by
  refine sq_diag h.d hr h.lt ?_ ?_
  · have : mixT (fun t => asmR1 ax k t ∨ triR3 ax k t) m m' (k, k) = m (k, k) := by
      rw [← tz_diag ax]
      exact if_neg (by simp only [asmR1, triR3, px_tz, qx_tz]; omega)
    rw [this]
    exact h.rel.diag
  · intro t h1 h2 hne
    unfold mixT
    by_cases hc : asmR1 ax k t ∨ triR3 ax k t
    · exact if_pos hc
    · rw [if_neg hc, h.rel.other]
      intro hc'
      refine hne ?_
      rw [← tz_diag ax, tz_eq_iff]
      unfold asmR1 triR3 at hc
      omega

/-- One iteration. -/
theorem asm_step {g : Glob (DSt K) (Blk K)} (hg : VIdle (sqEnv P (asmA ax)) (set1 m0 0 m) g) :
    ∃ g', Runs (fun r => if r ∈ P.ranks then asmStep dbg ax T (P.on r) k else []) g g' ∧ VIdle (sqEnv P (asmA ax)) (set1 m0 0 m') g' := by
  have hV : (sqEnv P (asmA ax)).OK := h.d.env
  have hlt := h.lt
  refine VStep.iter (w := rrIdx k) (p := fun r => asmStep dbg ax T (P.on r) k) (fun ss se hss => ?_) hg
  let rest : Coord2 → Nat → VP K := fun r n => ⟨(sqEnv P (asmA ax)).E.tile n, ss r n, se r n, fun _ => none⟩
  let F0 : Coord2 → VP K := fun r => if 0 < k then noP P.row.tile 0 k else rest r 0
  let F1 : Coord2 → VP K := fun r => if 0 < k then (if r.get ax = (P.get ax).dist.rank_global_tile k then noP P.row.tile k ((k : Int) + 1) else noP P.row.tile 1 k) else rest r 1
  have G1 : VStep (sqEnv P (asmA ax)) (rrIdx k) (fun r => if (k : Int) > 0 then
      (asmPrep dbg ax (P.on r) k).map Instr.loc ++
      bcastPanels dbg ax (P.on r) (((P.on r).get ax).rank_global_tile k) (DSt.panel 0 k) (DSt.panel 1 k) 0 k 1 k ++
      (asmTrail dbg ax T (P.on r) k).map Instr.loc ++ (asmReset k).map Instr.loc ++
      (if ((P.on r).get ax).rank_global_tile k = ((P.on r).get ax).rank then
        (asmDiag dbg ax (P.on r) k).map Instr.loc ++
        bcastPanel dbg ax.orth (P.on r) (((P.on r).get ax.orth).rank_global_tile k) (DSt.panel 1 k) k ((k : Int) + 1) ++
        (asmLine dbg ax T (P.on r) k).map Instr.loc else []) else [])
      ⟨set1 m0 0 m, rest⟩ (GV.ofL (set1 m0 0 (mixT (fun t => asmR1 ax k t ∨ triR3 ax k t) m m')) rest [F0, F1]) := by
    refine VStep.frm (a := GV.ofL (set1 m0 0 m) rest [fun r => rest r 0, fun r => rest r 1]) (VStep.ite (fun hc => ?_) fun hc => ?_) fun r hr => ⟨fun _ _ _ => rfl, fun n => ?_⟩
    · have hk : 0 < k := by omega
      have S1 := VStep.locals hV (w := rrIdx k) fun r hr => asmPrep_step h (dbg := dbg) (rest := rest) (x0 := fun r => rest r 0) (x1 := fun r => rest r 1) hr hk
        (s := ss r 0) (e := se r 0) (s' := ss r 1) (e' := se r 1) rfl rfl (M := set1 m0 0 m) (set1_same _ _ _)
      have S2 := asmBcast h (dbg := dbg) (rest := rest) hk (M := set1 m0 0 m)
      have S3 := VStep.locals hV (w := rrIdx k) fun r hr => asmTrail_step h (dbg := dbg) (m0 := m0) (rest := rest) (x0 := fun _ => lineP P ax m k 0 k) (x1 := fun _ => lineP P ax m k 1 k) hr rfl rfl
      have S4 := VStep.locals hV (w := rrIdx k) fun r (_ : r ∈ P.ranks) => asmReset_step h (rest := rest) (r := r) (x0 := fun _ => lineP P ax m k 0 k) (x1 := fun _ => lineP P ax m k 1 k)
        ⟨rfl, rfl⟩ ⟨rfl, rfl⟩ (M := set1 m0 0 (mixT (asmR1 ax k) m m'))
      have S5 : VStep (sqEnv P (asmA ax)) (rrIdx k) (fun r => (if ((P.on r).get ax).rank_global_tile k = ((P.on r).get ax).rank then asmDiag dbg ax (P.on r) k else []).map Instr.loc)
          (GV.ofL (set1 m0 0 (mixT (asmR1 ax k) m m')) rest [fun _ => noP P.row.tile 0 k, fun _ => noP P.row.tile 1 k])
          (GV.ofL (set1 m0 0 (mixT (asmR1 ax k) m m')) rest [fun _ => noP P.row.tile 0 k, asmD P ax m k false]) := by
        refine VStep.locals hV fun r hr => ?_
        rw [P.on_at]
        refine VL.ite (fun hc => ?_) fun hc => ?_
        · have hc' : (P.get ax).dist.rank_global_tile k = r.get ax := hc
          exact asmDiag_step h hr hc'.symm rfl (by rw [set1_same]; exact h.m1_kk)
        · have hc' : ¬ (P.get ax).dist.rank_global_tile k = r.get ax := hc
          refine (VL.nil _).to ⟨fun _ _ _ => rfl, fun n => ?_⟩
          rcases n with _ | _ | n
          · rfl
          · show VP.loc _ (noP P.row.tile 1 k) = VP.loc _ (asmD P ax m k false r)
            unfold asmD
            rw [if_neg (fun hb => hc' hb.symm)]
          · rfl
      have S6 := asmBcast1 h (dbg := dbg) (rest := rest) (x0 := fun _ => noP P.row.tile 0 k) (M := set1 m0 0 (mixT (asmR1 ax k) m m'))
      have S7 : VStep (sqEnv P (asmA ax)) (rrIdx k) (fun r => (if ((P.on r).get ax).rank_global_tile k = ((P.on r).get ax).rank then asmLine dbg ax T (P.on r) k else []).map Instr.loc)
          (GV.ofL (set1 m0 0 (mixT (asmR1 ax k) m m')) rest [fun _ => noP P.row.tile 0 k, asmD P ax m k true])
          (GV.ofL (set1 m0 0 (mixT (fun t => asmR1 ax k t ∨ triR3 ax k t) m m')) rest [F0, F1]) := by
        have e0 : F0 = fun _ => noP P.row.tile 0 k := funext fun r => if_pos hk
        rw [e0]
        refine VStep.locals hV fun r hr => ?_
        rw [P.on_at]
        refine VL.ite (fun hc => ?_) fun hc => ?_
        · have hc' : (P.get ax).dist.rank_global_tile k = r.get ax := hc
          refine asmLine_step h hr hc'.symm ?_ ?_
          · unfold asmD
            rw [if_pos hc'.symm, if_pos (Or.inl rfl)]
          · show (if 0 < k then (if r.get ax = (P.get ax).dist.rank_global_tile k then _ else _) else _) = _
            rw [if_pos hk, if_pos hc'.symm]
        · have hc' : ¬ (P.get ax).dist.rank_global_tile k = r.get ax := hc
          refine (VL.nil _).to ⟨fun n z hz => ?_, fun n => ?_⟩
          · by_cases hn : n = 0
            · subst hn
              show set1 m0 0 _ 0 _ = set1 m0 0 _ 0 _
              rw [set1_same, set1_same]
              unfold mixT
              refine if_congr ?_ rfl rfl
              obtain ⟨i, j, p, q, -, i0, j0, ip, jq, hp, hq, e⟩ := sq_tile h.d hr ax hz
              rw [e]
              have hne : q ≠ k := by
                intro hqk
                have := (h.d.plainAt ax hr).gl_own j0
                rw [jq, hqk] at this
                exact hc' this
              have ht : ¬ triR3 ax k (tz ax p q) := by
                unfold triR3
                rw [px_tz, qx_tz]
                exact fun hx => hne hx.2
              exact ⟨Or.inl, fun hx => hx.elim id fun hx => absurd hx ht⟩
            · show set1 m0 0 _ n _ = set1 m0 0 _ n _
              rw [set1_ne _ _ hn, set1_ne _ _ hn]
          rcases n with _ | _ | n
          · rfl
          · show VP.loc _ (asmD P ax m k true r) = VP.loc _ (if 0 < k then (if r.get ax = (P.get ax).dist.rank_global_tile k then _ else _) else _)
            unfold asmD
            rw [if_pos hk, if_neg (fun hb => hc' hb.symm), if_neg (fun hb => hc' hb.symm)]
          · rfl
      refine ((((((S1.append S2).append S3).append S4).append S5).append S6).append S7).congr fun r _ => ?_
      simp only [List.append_assoc]
      congr 4
      split
      · rfl
      · rfl
    · have hk : k = 0 := by omega
      have e0 : F0 = fun r => rest r 0 := funext fun r => if_neg (by omega)
      have e1 : F1 = fun r => rest r 1 := funext fun r => if_neg (by omega)
      rw [e0, e1]
      refine (VStep.nil _).to fun r hr => GV.ofL_mat fun n z hz => ?_
      have : mixT (fun t => asmR1 ax k t ∨ triR3 ax k t) m m' = m := by
        funext t
        refine if_neg ?_
        unfold asmR1 triR3
        omega
      rw [this]
    · rcases n with _ | _ | n <;> rfl
  have G2 := VStep.locals hV (w := rrIdx k) fun r hr => asmEnd_step h (m0 := m0) (rest := rest) hr (L := [F0, F1]) (w := rrIdx k)
  refine ⟨_, (G1.append G2).congr fun r _ => rfl, rfl, fun r hr n => ?_⟩
  obtain ⟨z0, z1, z2⟩ := hss r hr n
  rcases n with _ | _ | n
  · have : F0 r = noP P.row.tile 0 k ∨ F0 r = rest r 0 := by
      show (if _ then _ else _) = _ ∨ (if _ then _ else _) = _
      split
      · exact Or.inl rfl
      · exact Or.inr rfl
    show (F0 r).ax = _ ∧ (F0 r).W = _ ∧ 0 ≤ (F0 r).s ∧ (true = false → _) ∧ (true = false → _)
    rcases this with e | e <;> rw [e]
    · exact ⟨rfl, rfl, le_refl _, fun hc => (by cases hc), fun hc => (by cases hc)⟩
    · exact ⟨rfl, rfl, z0, fun hc => (by cases hc), fun hc => (by cases hc)⟩
  · have : F1 r = noP P.row.tile k ((k : Int) + 1) ∨ F1 r = noP P.row.tile 1 k ∨ F1 r = rest r 1 := by
      show (if _ then (if _ then _ else _) else _) = _ ∨ (if _ then (if _ then _ else _) else _) = _ ∨ (if _ then (if _ then _ else _) else _) = _
      split
      · split
        · exact Or.inl rfl
        · exact Or.inr (Or.inl rfl)
      · exact Or.inr (Or.inr rfl)
    show (F1 r).ax = _ ∧ (F1 r).W = _ ∧ 0 ≤ (F1 r).s ∧ (true = false → _) ∧ (true = false → _)
    rcases this with e | e | e <;> rw [e]
    · refine ⟨rfl, rfl, ?_, fun hc => (by cases hc), fun hc => (by cases hc)⟩
      show (0 : Int) ≤ (k : Int)
      omega
    · refine ⟨rfl, rfl, ?_, fun hc => (by cases hc), fun hc => (by cases hc)⟩
      show (0 : Int) ≤ 1
      omega
    · exact ⟨rfl, rfl, z0, fun hc => (by cases hc), fun hc => (by cases hc)⟩
  · exact ⟨rfl, rfl, z0, z1, z2⟩

end steps

/-- Kernels that keep the size of the tile. -/
structure AsmTasks.Keeps (T : AsmTasks K) : Prop where
  gemm : ∀ a b c e, T.gemm a b c = some e → e.rows = c.rows ∧ e.cols = c.cols
  herk : ∀ a b e, T.herk a b = some e → e.rows = b.rows ∧ e.cols = b.cols
  trmm : ∀ a b e, T.trmm a b = some e → e.rows = b.rows ∧ e.cols = b.cols
  lauum : ∀ a e, T.lauum a = some e → e.rows = a.rows ∧ e.cols = a.cols

theorem AsmRel.shape {ax : Coord} {T : AsmTasks K} {k : Nat} {m m' : Tiles K} (h : AsmRel ax T k m m') (hT : T.Keeps) (t : Nat × Nat) :
    (m' t).rows = (m t).rows ∧ (m' t).cols = (m t).cols := by
  by_cases ho : px ax t ≤ qx ax t ∧ qx ax t ≤ k
  · rw [← tz_px_qx ax t]
    obtain ⟨o1, o2⟩ := ho
    rcases Nat.lt_or_ge (px ax t) (qx ax t) with hp | hp <;> rcases Nat.lt_or_ge (qx ax t) k with hq | hq
    · exact hT.gemm _ _ _ _ (h.gemm _ _ hp hq)
    · rw [show qx ax t = k by omega] at hp ⊢
      exact hT.trmm _ _ _ (h.line _ hp)
    · rw [show px ax t = qx ax t by omega, tz_diag]
      exact hT.herk _ _ _ (h.herk _ hq)
    · rw [show px ax t = k by omega, show qx ax t = k by omega, tz_diag]
      exact hT.lauum _ _ h.diag
  · rw [h.other t ho]
    exact ⟨rfl, rfl⟩

/-- The loop. -/
theorem assemble_runs {P : Params2} {ax : Coord} {T : AsmTasks K} {m m' : Tiles K} {dbg : Bool} {m0 : Nat → Tiles K}
    (hd : SquareDist P) (hT : T.Keeps) (hm : P.Fits m) (hf : forM' (upto 0 P.nt) m (asmStepG ax T) = some m')
    {g : Glob (DSt K) (Blk K)} (hg : VIdle (sqEnv P (asmA ax)) (set1 m0 0 m) g) :
    ∃ g', Runs (fun r => if r ∈ P.ranks then assembleDist dbg ax T (P.on r) else []) g g' ∧ VIdle (sqEnv P (asmA ax)) (set1 m0 0 m') g' ∧ P.Fits m' := by
  obtain ⟨g', r1, i1, i2⟩ := Runs.loop (p := fun k r => if r ∈ P.ranks then asmStep dbg ax T (P.on r) (k : Nat) else [])
    (step := asmStepG ax T) (fun m g => VIdle (sqEnv P (asmA ax)) (set1 m0 0 m) g ∧ P.Fits m) (upto 0 P.nt) (by
      intro k hk m m' g ⟨hg, hm⟩ hs
      rw [mem_upto] at hk
      have hrel := asmStepG_inv hs
      have hm' : P.Fits m' := fun i hi j hj => by
        have := hrel.shape hT (i, j)
        rw [this.1, this.2]
        exact hm i hi j hj
      obtain ⟨g', r1, i1⟩ := asm_step (dbg := dbg) (m0 := m0) ⟨hd, hm, hm', hrel, hk.2⟩ hg
      exact ⟨g', r1, i1, hm'⟩) ⟨hg, hm⟩ hf
  refine ⟨g', r1.congr fun r => ?_, i1, i2⟩
  by_cases hr : r ∈ P.ranks
  · simp only [if_pos hr]
    unfold assembleDist
    have hn : (P.on r).col.nrTiles = P.nt := hd.nrTiles .Col
    rw [hn, show (0 : Int) = ((0 : Nat) : Int) from rfl, irange_upto, List.flatMap_map]
  · simp [hr]

end DLAF
