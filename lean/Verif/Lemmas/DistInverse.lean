import Verif.Lemmas.DistSquare
import Verif.Lemmas.Tasks
import Verif.Model.DistInverse
/- Lemmas about the distributed triangular inverse. -/
namespace DLAF

/-- A loop whose iterations each change their own tiles: iteration `x` runs in a state in which its own tiles, and those of no iteration, are the
initial ones. -/
theorem forM'_frame {K X : Type*} (xs : List X) (own : Nat × Nat → Option X) (b : Tiles K → X → Option (Tiles K)) (hnd : xs.Nodup)
    (hb : ∀ x ∈ xs, ∀ s s', b s x = some s' → ∀ z, own z ≠ some x → s' z = s z) {m m' : Tiles K} (h : forM' xs m b = some m') :
    (∀ z, (∀ y ∈ xs, own z ≠ some y) → m' z = m z) ∧ ∀ x ∈ xs, ∃ s s', b s x = some s' ∧
      (∀ z, (own z = some x ∨ ∀ y ∈ xs, own z ≠ some y) → s z = m z) ∧ ∀ z, own z = some x → m' z = s' z := by
  induction xs generalizing m with
  | nil =>
    simp only [forM'_nil, Option.some.injEq] at h
    subst h
    exact ⟨fun _ _ => rfl, fun x hx => absurd hx (by simp)⟩
  | cons x xs ih =>
    rw [forM'_cons, Option.bind_eq_some_iff] at h
    obtain ⟨m1, h1, h2⟩ := h
    rw [List.nodup_cons] at hnd
    have hx := hb x List.mem_cons_self m m1 h1
    obtain ⟨i1, i2⟩ := ih hnd.2 (fun y hy => hb y (List.mem_cons_of_mem _ hy)) h2
    have hno : ∀ z, own z = some x → ∀ y ∈ xs, own z ≠ some y := by
      intro z hz y hy e
      rw [hz] at e
      exact hnd.1 (Option.some.inj e ▸ hy)
    refine ⟨fun z hz => ?_, fun y hy => ?_⟩
    · rw [i1 z fun y hy => hz y (List.mem_cons_of_mem _ hy)]
      exact hx z (hz x List.mem_cons_self)
    · rcases List.mem_cons.1 hy with rfl | hy
      · exact ⟨m, m1, h1, fun _ _ => rfl, fun z hz => i1 z (hno z hz)⟩
      · obtain ⟨s, s', j1, j2, j3⟩ := i2 y hy
        refine ⟨s, s', j1, fun z hz => ?_, j3⟩
        rcases hz with hz | hz
        · rw [j2 z (Or.inl hz)]
          refine hx z fun e => ?_
          rw [hz] at e
          exact hnd.1 (Option.some.inj e ▸ hy)
        · rw [j2 z (Or.inr fun w hw => hz w (List.mem_cons_of_mem _ hw))]
          exact hx z (hz x List.mem_cons_self)

variable {K : Type*} [Field K] [StarRing K]

/-- A step of the local triangular inverse, for rows and columns alike. -/
def triStepG (ax : Coord) (f1 f2 : Blk K → Blk K → Option (Blk K)) (fd : Blk K → Option (Blk K)) (nt : Nat) (m : Tiles K) (k : Nat) : Option (Tiles K) := do
  let m ← forM' (upto (k + 1) nt) m fun m q => do
    let m ← m.write (tz ax k q) (f1 (m (k, k)) (m (tz ax k q)))
    forM' (upto 0 k) m fun m p => m.write (tz ax p q) (gemm .NoTrans .NoTrans 1 (m ((tz ax p q).1, k)) (m (k, (tz ax p q).2)) 1 (m (tz ax p q)))
  let m ← forM' (upto 0 k) m fun m p => m.write (tz ax p k) (f2 (m (k, k)) (m (tz ax p k)))
  m.write (k, k) (fd (m (k, k)))

theorem trinvStepL_eq (lp : Lapack K) (d : Diag) (nt : Nat) (m : Tiles K) (k : Nat) : trinvStepL lp d nt m k =
    triStepG .Row (lp.tileTrsm .Right .Lower .NoTrans d (-1)) (lp.tileTrsm .Left .Lower .NoTrans d 1) (lp.tileTrtri .Lower d) nt m k := rfl
theorem trinvStepU_eq (lp : Lapack K) (d : Diag) (nt : Nat) (m : Tiles K) (k : Nat) : trinvStepU lp d nt m k =
    triStepG .Col (lp.tileTrsm .Left .Upper .NoTrans d (-1)) (lp.tileTrsm .Right .Upper .NoTrans d 1) (lp.tileTrtri .Upper d) nt m k := rfl

/-- The tiles of line `k` behind the diagonal. -/
def triR1 (ax : Coord) (k : Nat) (t : Nat × Nat) : Prop := px ax t = k ∧ k < qx ax t
/-- The tiles before and behind. -/
def triR2 (ax : Coord) (k : Nat) (t : Nat × Nat) : Prop := px ax t < k ∧ k < qx ax t
/-- The tiles before the diagonal. -/
def triR3 (ax : Coord) (k : Nat) (t : Nat × Nat) : Prop := px ax t < k ∧ qx ax t = k
instance (ax : Coord) (k : Nat) : DecidablePred (triR1 ax k) := fun t => by unfold triR1; infer_instance
instance (ax : Coord) (k : Nat) : DecidablePred (triR2 ax k) := fun t => by unfold triR2; infer_instance
instance (ax : Coord) (k : Nat) : DecidablePred (triR3 ax k) := fun t => by unfold triR3; infer_instance

/-- What a step does. -/
structure TriRel (ax : Coord) (f1 f2 : Blk K → Blk K → Option (Blk K)) (fd : Blk K → Option (Blk K)) (nt k : Nat) (m m' : Tiles K) : Prop where
  line : ∀ q, k < q → q < nt → f1 (m (k, k)) (m (tz ax k q)) = some (m' (tz ax k q))
  trail : ∀ p q, p < k → k < q → q < nt → gemm .NoTrans .NoTrans 1 (mixT (triR1 ax k) m m' ((tz ax p q).1, k)) (mixT (triR1 ax k) m m' (k, (tz ax p q).2)) 1
    (m (tz ax p q)) = some (m' (tz ax p q))
  cross : ∀ p < k, f2 (m (k, k)) (m (tz ax p k)) = some (m' (tz ax p k))
  diag : fd (m (k, k)) = some (m' (k, k))
  other : ∀ t, ¬ (px ax t ≤ k ∧ k ≤ qx ax t ∧ qx ax t < nt) → m' t = m t

theorem tz_inj {ax : Coord} {p q p' q' : Nat} (h : tz ax p q = tz ax p' q') : p = p' ∧ q = q' := by
  have h1 := congrArg (px ax) h
  have h2 := congrArg (qx ax) h
  rw [px_tz, px_tz] at h1
  rw [qx_tz, qx_tz] at h2
  exact ⟨h1, h2⟩

theorem tz_diag (ax : Coord) (k : Nat) : tz ax k k = (k, k) := by cases ax <;> rfl

theorem triStepG_inv {ax : Coord} {f1 f2 : Blk K → Blk K → Option (Blk K)} {fd : Blk K → Option (Blk K)} {nt k : Nat} {m m' : Tiles K} (hk : k < nt)
    (h : triStepG ax f1 f2 fd nt m k = some m') : TriRel ax f1 f2 fd nt k m m' := by
  unfold triStepG at h
  simp only [Option.bind_eq_bind, Option.bind_eq_some_iff] at h
  obtain ⟨m1, h1, m2, h2, h3⟩ := h
  -- inner loop
  have inner : ∀ (q : Nat) (s s' : Tiles K), forM' (upto 0 k) s (fun m p => m.write (tz ax p q) (gemm .NoTrans .NoTrans 1 (m ((tz ax p q).1, k)) (m (k, (tz ax p q).2)) 1 (m (tz ax p q)))) = some s' →
      (∀ z, (¬ (qx ax z = q ∧ px ax z < k)) → s' z = s z) ∧ ∀ p < k, ∀ (_ : q ≠ k), gemm .NoTrans .NoTrans 1 (s ((tz ax p q).1, k)) (s (k, (tz ax p q).2)) 1 (s (tz ax p q)) = some (s' (tz ax p q)) := by
    intro q s s' hs
    obtain ⟨a1, a2⟩ := forM'_frame (upto 0 k) (fun z => if qx ax z = q then some (px ax z) else none) _ (upto_nodup _ _) (by
      intro p hp u u' hu z hz
      obtain ⟨b, hb, e⟩ := write_some hu
      rw [e]
      show (if z = tz ax p q then _ else _) = _
      refine if_neg fun hc => hz ?_
      rw [hc, qx_tz, px_tz, if_pos rfl]) hs
    refine ⟨fun z hz => a1 z fun y hy hc => hz ?_, fun p hp hq => ?_⟩
    · rw [mem_upto] at hy
      split at hc
      · rename_i e
        have := Option.some.inj hc
        exact ⟨e, by omega⟩
      · cases hc
    · obtain ⟨u, u', b1, b2, b3⟩ := a2 p (by rw [mem_upto]; omega)
      obtain ⟨b, hb, e⟩ := write_some b1
      have e' : s' (tz ax p q) = b := by
        rw [b3 _ (by rw [qx_tz, px_tz, if_pos rfl]), e]
        exact if_pos rfl
      rw [e', ← hb, b2 (tz ax p q) (Or.inl (by rw [qx_tz, px_tz, if_pos rfl]))]
      have hu : ∀ z, (qx ax z = q → k ≤ px ax z) → u z = s z := by
        intro z hz
        refine b2 z (Or.inr fun y hy hc => ?_)
        rw [mem_upto] at hy
        split at hc
        · have := Option.some.inj hc
          have := hz ‹_›
          omega
        · cases hc
      rw [hu ((tz ax p q).1, k) (by cases ax <;> simp [tz, px, qx]; omega), hu (k, (tz ax p q).2) (by cases ax <;> simp [tz, px, qx]; omega)]
  obtain ⟨o1, o2⟩ := forM'_frame (upto (k + 1) nt) (fun z => if px ax z ≤ k then some (qx ax z) else none) _ (upto_nodup _ _) (by
    intro q hq u u' hu z hz
    obtain ⟨u1, hu1, hu2⟩ := Option.bind_eq_some_iff.1 hu
    rw [mem_upto] at hq
    obtain ⟨c1, -⟩ := inner q u1 u' hu2
    have hne : ¬ (qx ax z = q ∧ px ax z ≤ k) := fun hc => hz (by rw [if_pos hc.2, hc.1])
    rw [c1 z (by omega)]
    obtain ⟨b, hb, e⟩ := write_some hu1
    rw [e]
    show (if z = tz ax k q then _ else _) = _
    refine if_neg fun hc => hne ?_
    rw [hc, qx_tz, px_tz]
    omega) h1
  obtain ⟨p1, p2⟩ := forM'_frame (upto 0 k) (fun z => if qx ax z = k then some (px ax z) else none) _ (upto_nodup _ _) (by
    intro p hp u u' hu z hz
    obtain ⟨b, hb, e⟩ := write_some hu
    rw [e]
    show (if z = tz ax p k then _ else _) = _
    refine if_neg fun hc => hz ?_
    rw [hc, qx_tz, px_tz, if_pos rfl]) h2
  obtain ⟨b3, hb3, e3⟩ := write_some h3
  -- unchanged by the parts
  have k1 : ∀ z, (px ax z ≤ k → qx ax z ≤ k ∨ nt ≤ qx ax z) → m1 z = m z := by
    intro z hz
    refine o1 z fun y hy hc => ?_
    rw [mem_upto] at hy
    split at hc
    · have := Option.some.inj hc
      have := hz ‹_›
      omega
    · cases hc
  have k2 : ∀ z, (qx ax z = k → k ≤ px ax z) → m2 z = m1 z := by
    intro z hz
    refine p1 z fun y hy hc => ?_
    rw [mem_upto] at hy
    split at hc
    · have := Option.some.inj hc
      have := hz ‹_›
      omega
    · cases hc
  have hd : ∀ z : Nat × Nat, z = (k, k) ↔ px ax z = k ∧ qx ax z = k := by
    intro z
    rw [← tz_diag ax k]
    constructor
    · rintro rfl; rw [px_tz, qx_tz]; exact ⟨rfl, rfl⟩
    · rintro ⟨e1, e2⟩
      have := tz_px_qx ax z
      rw [e1, e2] at this
      exact this.symm
  have k3 : ∀ z, ¬ (px ax z = k ∧ qx ax z = k) → m' z = m2 z := by
    intro z hz
    rw [e3]
    exact if_neg fun hc => hz ((hd z).1 hc)
  have hkk1 : m1 (k, k) = m (k, k) := k1 _ fun _ => by rw [← tz_diag ax k, qx_tz]; omega
  have hkk2 : m2 (k, k) = m1 (k, k) := k2 _ fun _ => by rw [← tz_diag ax k, px_tz]
  -- first loop
  have hl1 : ∀ q, k < q → q < nt → f1 (m (k, k)) (m (tz ax k q)) = some (m1 (tz ax k q)) ∧ ∀ p < k,
      gemm .NoTrans .NoTrans 1 (mixT (triR1 ax k) m m1 ((tz ax p q).1, k)) (mixT (triR1 ax k) m m1 (k, (tz ax p q).2)) 1 (m (tz ax p q)) = some (m1 (tz ax p q)) := by
    intro q h1 h2
    obtain ⟨u, u', c1, c2, c3⟩ := o2 q (by rw [mem_upto]; omega)
    obtain ⟨u1, hu1, hu2⟩ := Option.bind_eq_some_iff.1 c1
    obtain ⟨d1, d2⟩ := inner q u1 u' hu2
    obtain ⟨b, hb, e⟩ := write_some hu1
    have own : ∀ p ≤ k, (if px ax (tz ax p q) ≤ k then some (qx ax (tz ax p q)) else none) = some q := by
      intro p hp
      rw [px_tz, qx_tz, if_pos hp]
    have hu : ∀ p ≤ k, u (tz ax p q) = m (tz ax p q) := fun p hp => c2 _ (Or.inl (own p hp))
    have hu' : ∀ p, u (tz ax p k) = m (tz ax p k) := by
      intro p
      refine c2 _ (Or.inr fun y hy hc => ?_)
      rw [mem_upto] at hy
      rw [px_tz, qx_tz] at hc
      split at hc
      · have := Option.some.inj hc; omega
      · cases hc
    have hkk : u (k, k) = m (k, k) := by have := hu' k; rwa [tz_diag] at this
    have hm1 : ∀ p ≤ k, m1 (tz ax p q) = u' (tz ax p q) := fun p hp => c3 _ (own p hp)
    have hb' : m1 (tz ax k q) = b := by
      rw [hm1 k (le_refl _), d1 _ (by rw [px_tz]; omega), e]
      exact if_pos rfl
    refine ⟨?_, fun p hp => ?_⟩
    · rw [hb', ← hb, hkk, hu k (le_refl _)]
    · rw [hm1 p (by omega), ← d2 p hp (by omega)]
      have hu1 : ∀ z, z ≠ tz ax k q → u1 z = u z := fun z hz => by rw [e]; exact if_neg hz
      have hA : u1 (tz ax k q) = m1 (tz ax k q) := by rw [hb', e]; exact if_pos rfl
      have hB : u1 (tz ax p k) = m (tz ax p k) := by
        rw [hu1 _ (fun hc => by have := tz_inj hc; omega)]
        exact hu' p
      have hC : u1 (tz ax p q) = m (tz ax p q) := by
        rw [hu1 _ (fun hc => by have := tz_inj hc; omega)]
        exact hu p (by omega)
      have hA' : mixT (triR1 ax k) m m1 (tz ax k q) = u1 (tz ax k q) := by
        rw [hA]
        exact if_pos (by unfold triR1; rw [px_tz, qx_tz]; omega)
      have hB' : mixT (triR1 ax k) m m1 (tz ax p k) = u1 (tz ax p k) := by
        rw [hB]
        exact if_neg (by unfold triR1; rw [px_tz, qx_tz]; omega)
      rw [hC]
      clear d1 d2 hu hu' hm1 own
      cases ax
      · simp only [tz] at hA' hB' ⊢; rw [hA', hB']
      · simp only [tz] at hA' hB' ⊢; rw [hA', hB']
  have hm12 : ∀ p q, p ≤ k → k < q → m' (tz ax p q) = m1 (tz ax p q) := by
    intro p q hp hq
    rw [k3 _ (by rw [px_tz, qx_tz]; omega), k2 _ (by rw [qx_tz]; omega)]
  refine ⟨fun q h1 h2 => ?_, fun p q hp h1 h2 => ?_, fun p hp => ?_, ?_, fun t ht => ?_⟩
  · rw [hm12 k q (le_refl _) h1]; exact (hl1 q h1 h2).1
  · rw [hm12 p q (by omega) h1, ← (hl1 q h1 h2).2 p hp]
    have : ∀ z, mixT (triR1 ax k) m m' z = mixT (triR1 ax k) m m1 z := by
      intro z
      unfold mixT
      by_cases hz : triR1 ax k z
      · rw [if_pos hz, if_pos hz]
        have := hm12 k (qx ax z) (le_refl _) hz.2
        rw [← hz.1, tz_px_qx] at this
        exact this
      · rw [if_neg hz, if_neg hz]
    rw [this, this]
  · obtain ⟨u, u', c1, c2, c3⟩ := p2 p (by rw [mem_upto]; omega)
    obtain ⟨b, hb, e⟩ := write_some c1
    have own : (if qx ax (tz ax p k) = k then some (px ax (tz ax p k)) else none) = some p := by rw [px_tz, qx_tz, if_pos rfl]
    rw [k3 _ (by rw [px_tz, qx_tz]; omega), c3 _ own, e]
    show _ = some (if _ then _ else _)
    rw [if_pos rfl, ← hb, c2 _ (Or.inl own), c2 (k, k) (Or.inr fun y hy hc => by
      rw [mem_upto] at hy
      rw [← tz_diag ax k, px_tz, qx_tz, if_pos rfl] at hc
      have := Option.some.inj hc; omega), hkk1, k1 _ (by rw [qx_tz]; omega)]
  · rw [e3]
    show _ = some (if _ then _ else _)
    rw [if_pos rfl, ← hb3, hkk2, hkk1]
  · rw [k3 _ (by omega), k2 _ (by omega), k1 _ (by omega)]


/-! ### Distributed -/

theorem tileAt_get_orth (ax : Coord) (i j : Int) : (tileAt ax i j).get ax.orth = i := by cases ax <;> rfl
theorem tileAt_get_axis (ax : Coord) (i j : Int) : (tileAt ax i j).get ax = j := by cases ax <;> rfl

theorem Params2.on_at (P : Params2) (r : Coord2) (c : Coord) : (P.on r).get c = (P.at' c r).dist := by cases c <;> rfl

/-- The panels. -/
def triA (ax : Coord) (n : Nat) : PanKind := if n = 0 then ⟨ax, isTall ax, false, true, false⟩ else ⟨ax.orth, isTall ax.orth, true, false, false⟩

/-- Everything known in iteration `k`. -/
structure TriCtx (P : Params2) (ax : Coord) (f1 f2 : Blk K → Blk K → Option (Blk K)) (fd : Blk K → Option (Blk K)) (k : Nat) (m m' : Tiles K) : Prop where
  d : SquareDist P
  fm : P.Fits m
  fm' : P.Fits m'
  rel : TriRel ax f1 f2 fd P.nt k m m'
  lt : k < P.nt

section steps
variable {P : Params2} {ax : Coord} {f1 f2 : Blk K → Blk K → Option (Blk K)} {fd : Blk K → Option (Blk K)} {k : Nat} {m m' : Tiles K}
  (h : TriCtx P ax f1 f2 fd k m m') {dbg : Bool} {m0 : Nat → Tiles K} {rest : Coord2 → Nat → VP K} {x0 x1 : Coord2 → VP K}
include h

theorem TriCtx.m1 : P.Fits (mixT (triR1 ax k) m m') := by
  intro i hi j hj
  unfold mixT
  split
  · exact h.fm' i hi j hj
  · exact h.fm i hi j hj

theorem triPrep0_step {r : Coord2} (hr : r ∈ P.ranks) (hk : k + 1 < P.nt) {s e : Int} (hx : x0 r = noP P.row.tile s e) {M : Nat → Tiles K} (hM : M 0 = m) :
    VL (sqEnv P (triA ax)) r (rrIdx (triIt (P.on r) k)) (triPrep0 dbg ax (P.on r) k) (GV.ofL M rest [x0, x1])
      (GV.ofL M rest [fun r => if r.get ax = (P.get ax).dist.rank_global_tile k then lineP P ax m k 0 ((k : Int) + 1) else noP (P.tsz k) 0 ((k : Int) + 1), x1]) := by
  have hV : (sqEnv P (triA ax)).OK := h.d.env
  obtain ⟨t1, t2, t3⟩ := h.d.tsz_pos h.lt
  unfold triPrep0
  rw [P.on_at, P.on_at]
  refine VL.append (VL.append (b := GV.ofL M rest [fun _ => noP P.row.tile 0 ((k : Int) + 1), x1]) (VF.one ?_)
    (VL.ite (b := GV.ofL M rest [fun _ => noP (P.tsz k) 0 ((k : Int) + 1), x1]) (fun hc => VF.one ?_) fun hc => ?_)) ?_
  · refine (VF.setRange hV hr (n := 0) (le_refl _) (by omega) ?_ ?_).to (GV.ofL_to (n := 0) (by simp) (fun _ => noP P.row.tile 0 ((k : Int) + 1)) rfl ?_ rfl)
    · show _ ≤ (P.get ax.orth).dist.nrTiles
      rw [h.d.nrTiles]; omega
    · show (x0 r).W = _
      rw [hx]; rfl
    · show VP.loc _ (⟨(x0 r).ax, _, _, _⟩ : VP K) = _
      rw [hx]; rfl
  · refine (VF.setDim (n := 0) ?_ ?_ ?_).to (GV.ofL_to (n := 0) (by simp) (fun _ => noP (P.tsz k) 0 ((k : Int) + 1)) rfl ?_ rfl)
    · show 0 < (P.get ax).dist.global_tile_size_of k
      rw [h.d.tsz]; exact t1
    · show (P.get ax).dist.global_tile_size_of k ≤ P.row.tile
      rw [h.d.tsz]; exact t2
    · rfl
    · show VP.loc _ (⟨(P.get ax).dist.global_tile_size_of k, _, _, _⟩ : VP K) = _
      rw [h.d.tsz]; rfl
  · rw [t3 hk]
    exact VL.nil _
  · have hs := h.d.row
    refine sq_link h.d hr 0 (by simp) (M := M) (q := 0) (ax := ax) (k := k) (s := 0) (e := (k : Int) + 1) rfl rfl rfl rfl h.lt (le_refl _) (by omega) (by omega)
      (by rw [hM]; exact h.fm) eq_comm ?_ rfl ?_
    · exact ((h.d.plainAt ax.orth hr).nx_zero).symm
    · rw [hM]; rfl

theorem triSolve0_step {r : Coord2} (hr : r ∈ P.ranks) (hx : k + 1 < P.nt → x0 r = lineP P ax m k 0 ((k : Int) + 1)) :
    VL (sqEnv P (triA ax)) r (rrIdx (triIt (P.on r) k)) (triSolve0 dbg ax (P.on r) k f1) (GV.ofL (set1 m0 0 m) rest [x0, x1])
      (GV.ofL (set1 m0 0 (mixT (triR1 ax k) m m')) rest [x0, x1]) := by
  have hV : (sqEnv P (triA ax)).OK := h.d.env
  have p1 := h.d.plainAt ax.orth hr
  have p2 := h.d.plainAt ax hr
  have n2 : (P.at' ax r).dist.nrTiles = P.nt := h.d.nrTiles ax
  have e0 : triSolve0 dbg ax (P.on r) k f1 = (tilesOf ax.orth ((P.at' ax.orth.orth r).nx (k + 1 : Nat)) ((P.at' ax.orth.orth r).nx P.nt) ((P.at' ax.orth r).nx k)
      ((P.at' ax.orth r).nx (k + 1 : Nat))).map fun z => fun s => ((DSt.panel 0 (triIt (P.on r) k)).read dbg (z.get ax.orth) s).bind fun sa => DSt.task 0 z (f1 sa.2) sa.1 := by
    rw [← tilesOf_line h.d hr (own := (P.at' ax.orth r).dist.rank_global_tile k = (P.at' ax.orth r).dist.rank) (by
      show (P.get ax.orth).dist.rank_global_tile k = r.get ax.orth ↔ _
      exact eq_comm), orth_orth]
    unfold triSolve0
    rw [P.on_at, P.on_at]
    by_cases hc : (P.at' ax.orth r).dist.rank_global_tile k = (P.at' ax.orth r).dist.rank
    · rw [if_pos hc, if_pos hc, List.map_map]
      have : (P.at' ax r).nx P.nt = (P.at' ax r).dist.localNrTiles := by rw [← n2]; exact p2.nx_all
      rw [this]
      refine List.map_congr_left fun j _ => ?_
      funext s
      show _ = ((DSt.panel 0 _).read dbg ((tileAt ax.orth j ((P.at' ax.orth r).nx k)).get ax.orth) s).bind
        fun sa => DSt.task 0 (tileAt ax.orth j ((P.at' ax.orth r).nx k)) (f1 sa.2) sa.1
      rw [tileAt_orth, tileAt_get_orth]
    · rw [if_neg hc, if_neg hc]
      rfl
  rw [e0]
  have e1 : set1 m0 0 m = set1 m0 0 (mixT (fun _ => False) m m') := by
    congr 1
  rw [e1]
  refine sq_tasks h.d hr 0 _ _ (triR1 ax k) (tilesOf_nodup _ _ _ _ _) ?_ (fun _ _ => id) (fun t => by simp) ?_
  · intro z
    rw [mem_tilesOf_nx h.d hr (n := 0) (A := triA ax) (le_refl _) (show k + 1 ≤ P.nt by have := h.lt; omega)]
    refine and_congr_right fun hz => ?_
    obtain ⟨i, j, p, q, -, -, -, -, -, -, hq, e⟩ := sq_tile h.d hr ax hz
    rw [e, px_orth, qx_orth]
    unfold triR1
    rw [px_tz, qx_tz]
    omega
  · intro z hz hR c hc
    obtain ⟨i, j, p, q, rfl, i0, j0, ip, jq, hp, hq, e⟩ := sq_tile h.d hr ax hz
    rw [e] at hR hc ⊢
    obtain ⟨hR1, hR2⟩ := hR
    rw [px_tz] at hR1
    rw [qx_tz] at hR2
    subst hR1
    refine sq_rd h.d hr 0 (by simp) (hx (by omega)) h.lt (le_refl _) (p := p) (by rw [tileAt_get_orth]; exact i0) ?_ (by omega) (by omega) ?_
    · rw [tileAt_get_orth]; exact ip
    show VF _ _ _ (DSt.task 0 (tileAt ax i j) (f1 (m (tz ax p p)))) _ _
    refine sq_task h.d hr hz e ?_
    rw [tz_diag, hc]
    exact h.rel.line q hR2 hq

theorem triPrep1_step {r : Coord2} (hr : r ∈ P.ranks) {s : Int} (hx : x1 r = noP P.row.tile s P.nt) {M : Nat → Tiles K} {y : Tiles K} (hM : M 0 = y) (hy : P.Fits y) :
    VL (sqEnv P (triA ax)) r (rrIdx (triIt (P.on r) k)) (triPrep1 dbg ax (P.on r) k) (GV.ofL M rest [x0, x1])
      (GV.ofL M rest [x0, fun r => if r.get ax.orth = (P.get ax.orth).dist.rank_global_tile k then lineP P ax.orth y k k P.nt else noP (P.tsz k) k P.nt]) := by
  have hV : (sqEnv P (triA ax)).OK := h.d.env
  obtain ⟨t1, t2, t3⟩ := h.d.tsz_pos h.lt
  have hk := h.lt
  unfold triPrep1
  rw [P.on_at, P.on_at]
  refine VL.append (VL.append (b := GV.ofL M rest [x0, fun _ => noP P.row.tile k P.nt]) (VF.one ?_)
    (VL.ite (b := GV.ofL M rest [x0, fun _ => noP (P.tsz k) k P.nt]) (fun hc => VF.one ?_) fun hc => ?_)) ?_
  · refine (VF.setRangeStart hV hr (n := 1) (by omega) ?_ ?_).to (GV.ofL_to (n := 1) (by simp) (fun _ => noP P.row.tile k P.nt) rfl ?_ rfl)
    · show _ ≤ (x1 r).e
      rw [hx]; show (k : Int) ≤ P.nt; omega
    · show (x1 r).W = _
      rw [hx]; rfl
    · show VP.loc _ (⟨(x1 r).ax, _, (x1 r).e, _⟩ : VP K) = _
      rw [hx]; rfl
  · have e : ∀ t, P.col.dist.global_tile_size_of t = P.tsz t := h.d.tsz .Col
    refine (VF.setDim (n := 1) ?_ ?_ ?_).to (GV.ofL_to (n := 1) (by simp) (fun _ => noP (P.tsz k) k P.nt) rfl ?_ rfl)
    · show 0 < P.col.dist.global_tile_size_of k
      rw [e]; exact t1
    · show P.col.dist.global_tile_size_of k ≤ P.row.tile
      rw [e]; exact t2
    · rfl
    · show VP.loc _ (⟨P.col.dist.global_tile_size_of k, _, _, _⟩ : VP K) = _
      rw [e]; rfl
  · have hn : P.col.dist.nrTiles = P.nt := h.d.nrTiles .Col
    have hc' : ¬ (k : Int) = P.col.dist.nrTiles - 1 := hc
    rw [t3 (by omega)]
    exact VL.nil _
  · refine sq_link h.d hr 1 (by simp) (M := M) (q := 0) (ax := ax.orth) (k := k) (s := k) (e := P.nt) rfl rfl rfl rfl h.lt (by omega) (by omega) (le_refl _)
      (by rw [hM]; exact hy) eq_comm ?_ ?_ ?_
    · rw [orth_orth]
    · rw [orth_orth]
      have n2 : (P.at' ax r).dist.nrTiles = P.nt := h.d.nrTiles ax
      rw [← n2]
      exact ((h.d.plainAt ax hr).nx_all).symm
    · rw [hM]; rfl

theorem triTrail_step {r : Coord2} (hr : r ∈ P.ranks) (hx0 : k + 1 < P.nt → x0 r = lineP P ax m k 0 ((k : Int) + 1))
    (hx1 : 0 < k → x1 r = lineP P ax.orth (mixT (triR1 ax k) m m') k k P.nt) :
    VL (sqEnv P (triA ax)) r (rrIdx (triIt (P.on r) k)) (triTrail dbg ax (P.on r) k) (GV.ofL (set1 m0 0 (mixT (triR1 ax k) m m')) rest [x0, x1])
      (GV.ofL (set1 m0 0 (mixT (fun t => triR1 ax k t ∨ triR2 ax k t) m m')) rest [x0, x1]) := by
  have hV : (sqEnv P (triA ax)).OK := h.d.env
  have p1 := h.d.plainAt ax.orth hr
  have p2 := h.d.plainAt ax hr
  have n2 : (P.at' ax r).dist.nrTiles = P.nt := h.d.nrTiles ax
  unfold triTrail
  have e0 : ((irange (((P.on r).get ax).next_local_tile_from_global_tile ((k : Int) + 1)) ((P.on r).get ax).localNrTiles).flatMap fun j =>
      (irange 0 (((P.on r).get ax.orth).next_local_tile_from_global_tile k)).map fun i => tileAt ax i j) =
      tilesOf ax ((P.at' ax.orth r).nx (0 : Nat)) ((P.at' ax.orth r).nx k) ((P.at' ax r).nx (k + 1 : Nat)) ((P.at' ax r).nx P.nt) := by
    rw [P.on_at, P.on_at]
    have a1 : (P.at' ax r).nx P.nt = (P.at' ax r).dist.localNrTiles := by rw [← n2]; exact p2.nx_all
    have a2 : (P.at' ax.orth r).nx (0 : Nat) = 0 := p1.nx_zero
    rw [a1, a2]
    rfl
  rw [e0]
  refine sq_tasks h.d hr 0 _ _ (triR2 ax k) (tilesOf_nodup _ _ _ _ _) ?_ (fun t h1 h2 => by unfold triR2 at h1; unfold triR1 at h2; omega) (fun t => Iff.rfl) ?_
  · intro z
    have hk := h.lt
    rw [mem_tilesOf_nx h.d hr (n := 0) (A := triA ax) (show k ≤ P.nt by omega) (le_refl _)]
    refine and_congr_right fun hz => ?_
    obtain ⟨i, j, p, q, -, -, -, -, -, -, hq, e⟩ := sq_tile h.d hr ax hz
    rw [e]
    unfold triR2
    rw [px_tz, qx_tz]
    omega
  · intro z hz hR c hc
    obtain ⟨i, j, p, q, rfl, i0, j0, ip, jq, hp, hq, e⟩ := sq_tile h.d hr ax hz
    rw [e] at hR hc ⊢
    obtain ⟨hR1, hR2⟩ := hR
    rw [px_tz] at hR1
    rw [qx_tz] at hR2
    have hx0' := hx0 (by omega)
    have hx1' := hx1 (by omega)
    have hop := h.rel.trail p q hR1 hR2 hq
    have h1 : ∀ (L : List (Coord2 → VP K)) {t : Nat × Nat}, t = tz ax p q → VF (sqEnv P (triA ax)) r (rrIdx (triIt (P.on r) k))
        (DSt.task 0 (tileAt ax i j) (gemm .NoTrans .NoTrans 1 (mixT (triR1 ax k) m m' (t.1, k)) (mixT (triR1 ax k) m m' (k, t.2)) 1))
        (GV.ofL (set1 m0 0 c) rest L) ((GV.ofL (set1 m0 0 c) rest L).setT 0 (tz ax p q) (m' (tz ax p q))) := by
      rintro L t rfl
      refine sq_task h.d hr hz e ?_
      rw [hc]
      exact hop
    have hmix : mixT (triR1 ax k) m m' (tz ax p k) = m (tz ax p k) := if_neg (by unfold triR1; rw [px_tz, qx_tz]; omega)
    have jq' : (P.at' (triA ax 1).axis.orth r).gl j = q := by
      show (P.at' ax.orth.orth r).gl j = _
      rw [orth_orth]; exact jq
    have ip' : (P.at' (triA ax 0).axis.orth r).gl i = p := ip
    have hx1'' : ([x0, x1] : List (Coord2 → VP K))[1] r = lineP P ax.orth (mixT (triR1 ax k) m m') k k P.nt := hx1'
    have hx0'' : ([x0, x1] : List (Coord2 → VP K))[0] r = lineP P ax m k 0 ((k : Int) + 1) := hx0'
    clear jq ip hx1' hx0' hx0 hx1 hV p1 p2 n2 e0 hop
    cases ax
    · show VF _ _ _ (fun s => ((DSt.panel 1 (triIt (P.on r) k)).read dbg j s).bind fun sa => ((DSt.panel 0 (triIt (P.on r) k)).read dbg i sa.1).bind fun sb =>
        DSt.task 0 (tileAt .Row i j) (gemm .NoTrans .NoTrans 1 sa.2 sb.2 1) sb.1) _ _
      refine sq_rd h.d hr 1 (by simp) hx1'' h.lt (by omega) (p := q) j0 jq' (by omega) (by omega) ?_
      dsimp only
      refine sq_rd h.d hr 0 (by simp) hx0'' h.lt (le_refl _) (p := p) i0 ip' (by omega) (by omega) ?_
      rw [← hmix]
      exact h1 _ rfl
    · show VF _ _ _ (fun s => ((DSt.panel 0 (triIt (P.on r) k)).read dbg i s).bind fun sa => ((DSt.panel 1 (triIt (P.on r) k)).read dbg j sa.1).bind fun sb =>
        DSt.task 0 (tileAt .Col i j) (gemm .NoTrans .NoTrans 1 sa.2 sb.2 1) sb.1) _ _
      refine sq_rd h.d hr 0 (by simp) hx0'' h.lt (le_refl _) (p := p) i0 ip' (by omega) (by omega) ?_
      dsimp only
      refine sq_rd h.d hr 1 (by simp) hx1'' h.lt (by omega) (p := q) j0 jq' (by omega) (by omega) ?_
      rw [← hmix]
      exact h1 _ rfl

theorem triSolve1_step {r : Coord2} (hr : r ∈ P.ranks) (hx1 : 0 < k → x1 r = lineP P ax.orth (mixT (triR1 ax k) m m') k k P.nt) :
    VL (sqEnv P (triA ax)) r (rrIdx (triIt (P.on r) k)) (triSolve1 dbg ax (P.on r) k f2) (GV.ofL (set1 m0 0 (mixT (fun t => triR1 ax k t ∨ triR2 ax k t) m m')) rest [x0, x1])
      (GV.ofL (set1 m0 0 (mixT (fun t => (triR1 ax k t ∨ triR2 ax k t) ∨ triR3 ax k t) m m')) rest [x0, x1]) := by
  have hV : (sqEnv P (triA ax)).OK := h.d.env
  have p1 := h.d.plainAt ax.orth hr
  have p2 := h.d.plainAt ax hr
  have e0 : triSolve1 dbg ax (P.on r) k f2 = (tilesOf ax ((P.at' ax.orth r).nx (0 : Nat)) ((P.at' ax.orth r).nx k) ((P.at' ax r).nx k)
      ((P.at' ax r).nx (k + 1 : Nat))).map fun z => fun s => ((DSt.panel 1 (triIt (P.on r) k)).read dbg (z.get ax) s).bind fun sa => DSt.task 0 z (f2 sa.2) sa.1 := by
    rw [← tilesOf_line h.d hr (own := (P.at' ax r).dist.rank_global_tile k = (P.at' ax r).dist.rank) (by
      show (P.get ax).dist.rank_global_tile k = r.get ax ↔ _
      exact eq_comm)]
    unfold triSolve1
    rw [P.on_at, P.on_at]
    by_cases hc : (P.at' ax r).dist.rank_global_tile k = (P.at' ax r).dist.rank
    · rw [if_pos hc, if_pos hc, List.map_map]
      have : (P.at' ax.orth r).nx (0 : Nat) = 0 := p1.nx_zero
      rw [this]
      refine List.map_congr_left fun j _ => ?_
      funext s
      show _ = ((DSt.panel 1 _).read dbg ((tileAt ax j ((P.at' ax r).nx k)).get ax) s).bind
        fun sa => DSt.task 0 (tileAt ax j ((P.at' ax r).nx k)) (f2 sa.2) sa.1
      rw [tileAt_get_axis]
    · rw [if_neg hc, if_neg hc]
      rfl
  rw [e0]
  refine sq_tasks h.d hr 0 _ _ (triR3 ax k) (tilesOf_nodup _ _ _ _ _) ?_ (fun t h1 h2 => by unfold triR3 at h1; unfold triR1 triR2 at h2; omega) (fun t => Iff.rfl) ?_
  · intro z
    have hk := h.lt
    rw [mem_tilesOf_nx h.d hr (n := 0) (A := triA ax) (show k ≤ P.nt by omega) (show k + 1 ≤ P.nt by omega)]
    refine and_congr_right fun hz => ?_
    obtain ⟨i, j, p, q, -, -, -, -, -, -, hq, e⟩ := sq_tile h.d hr ax hz
    rw [e]
    unfold triR3
    rw [px_tz, qx_tz]
    omega
  · intro z hz hR c hc
    obtain ⟨i, j, p, q, rfl, i0, j0, ip, jq, hp, hq, e⟩ := sq_tile h.d hr ax hz
    rw [e] at hR hc ⊢
    obtain ⟨hR1, hR2⟩ := hR
    rw [px_tz] at hR1
    rw [qx_tz] at hR2
    subst hR2
    refine sq_rd h.d hr 1 (by simp) (hx1 (by omega)) h.lt (by omega) (p := q) (by rw [tileAt_get_axis]; exact j0) ?_ (by omega) (by omega) ?_
    · rw [tileAt_get_axis]
      show (P.at' ax.orth.orth r).gl j = _
      rw [orth_orth]; exact jq
    show VF _ _ _ (DSt.task 0 (tileAt ax i j) (f2 (mixT (triR1 ax q) m m' (tz ax.orth q q)))) _ _
    refine sq_task h.d hr hz e ?_
    have hmix : mixT (triR1 ax q) m m' (tz ax.orth q q) = m (q, q) := by
      rw [tz_diag, ← tz_diag ax]
      exact if_neg (by unfold triR1; rw [px_tz, qx_tz]; omega)
    rw [hc, hmix]
    exact h.rel.cross p hR1

theorem triEnd_step {r : Coord2} (hr : r ∈ P.ranks) {s e s' e' : Int} (hx0 : (x0 r).s = s ∧ (x0 r).e = e) (hx1 : (x1 r).s = s' ∧ (x1 r).e = e')
    {y0 y1 : Coord2 → VP K} (hy0 : y0 r = noP P.row.tile s e) (hy1 : y1 r = noP P.row.tile s' e') :
    VL (sqEnv P (triA ax)) r (rrIdx (triIt (P.on r) k)) (triEnd ax (P.on r) k fd) (GV.ofL (set1 m0 0 (mixT (fun t => (triR1 ax k t ∨ triR2 ax k t) ∨ triR3 ax k t) m m')) rest [x0, x1])
      (GV.ofL (set1 m0 0 m') rest [y0, y1]) := by
  have hV : (sqEnv P (triA ax)).OK := h.d.env
  have hk := h.lt
  have R0 : ∀ {M : Nat → Tiles K} {z0 z1 : Coord2 → VP K}, (z0 r).s = s ∧ (z0 r).e = e → VF (sqEnv P (triA ax)) r (rrIdx (triIt (P.on r) k)) ((DSt.panel 0 (triIt (P.on r) k)).upd fun v => some v.reset)
      (GV.ofL M rest [z0, z1]) (GV.ofL M rest [y0, z1]) := by
    intro M z0 z1 hz
    refine (VF.reset (n := 0)).to (GV.ofL_to (n := 0) (by simp) y0 rfl ?_ rfl)
    show VP.loc _ (⟨_, (z0 r).s, (z0 r).e, _⟩ : VP K) = _
    rw [hy0, hz.1, hz.2]; rfl
  have R1 : ∀ {M : Nat → Tiles K} {z0 z1 : Coord2 → VP K}, (z1 r).s = s' ∧ (z1 r).e = e' → VF (sqEnv P (triA ax)) r (rrIdx (triIt (P.on r) k)) ((DSt.panel 1 (triIt (P.on r) k)).upd fun v => some v.reset)
      (GV.ofL M rest [z0, z1]) (GV.ofL M rest [z0, y1]) := by
    intro M z0 z1 hz
    refine (VF.reset (n := 1)).to (GV.ofL_to (n := 1) (by simp) y1 rfl ?_ rfl)
    show VP.loc _ (⟨_, (z1 r).s, (z1 r).e, _⟩ : VP K) = _
    rw [hy1, hz.1, hz.2]; rfl
  unfold triEnd
  refine VL.append (b := GV.ofL (set1 m0 0 (mixT (fun t => (triR1 ax k t ∨ triR2 ax k t) ∨ triR3 ax k t) m m')) rest [y0, y1]) ?_ ?_
  · cases ax
    · exact VL.cons (R1 hx1) (VF.one (R0 hx0))
    · exact VL.cons (R0 hx0) (VF.one (R1 hx1))
  · -- the tile on the diagonal
    have pr := h.d.plainAt .Row hr
    have pc := h.d.plainAt .Col hr
    have nr : (P.at' .Row r).dist.nrTiles = P.nt := h.d.nrTiles .Row
    have nc : (P.at' .Col r).dist.nrTiles = P.nt := h.d.nrTiles .Col
    have hsame : ∀ t : Nat × Nat, px ax t < P.nt → qx ax t < P.nt → t ≠ (k, k) → mixT (fun t => (triR1 ax k t ∨ triR2 ax k t) ∨ triR3 ax k t) m m' t = m' t := by
      intro t h1 h2 hne
      unfold mixT
      by_cases hc : (triR1 ax k t ∨ triR2 ax k t) ∨ triR3 ax k t
      · exact if_pos hc
      · rw [if_neg hc, h.rel.other]
        intro hc'
        refine hne ?_
        have : px ax t = k ∧ qx ax t = k := by
          unfold triR1 triR2 triR3 at hc
          omega
        have e := tz_px_qx ax t
        rw [this.1, this.2, tz_diag] at e
        exact e.symm
    refine VL.ite (fun hc => ?_) fun hc => ?_
    · have hc1 : (P.at' .Row r).dist.rank_global_tile k = r.row := hc.1
      have hc2 : (P.at' .Col r).dist.rank_global_tile k = r.col := hc.2
      have hin : (sqEnv P (triA ax)).In 0 r ⟨(P.at' .Row r).lc k, (P.at' .Col r).lc k⟩ :=
        ⟨pr.lc_bounds (by omega) (by omega) hc1, pc.lc_bounds (by omega) (by omega) hc2⟩
      have hg : (sqEnv P (triA ax)).g 0 r ⟨(P.at' .Row r).lc k, (P.at' .Col r).lc k⟩ = (k, k) := by
        show (((P.at' .Row r).gl ((P.at' .Row r).lc k)).toNat, ((P.at' .Col r).gl ((P.at' .Col r).lc k)).toNat) = _
        rw [pr.gl_lc (by omega) hc1, pc.gl_lc (by omega) hc2]
        rfl
      refine VL.to (VF.one (sq_task h.d hr hin hg (b := m' (k, k)) ?_)) ?_
      · have : mixT (fun t => (triR1 ax k t ∨ triR2 ax k t) ∨ triR3 ax k t) m m' (k, k) = m (k, k) := by
          rw [← tz_diag ax]
          exact if_neg (by simp only [triR1, triR2, triR3, px_tz, qx_tz]; omega)
        rw [this]
        exact h.rel.diag
      · refine ⟨fun n z hz => ?_, fun n => rfl⟩
        show set1 (set1 m0 0 _) 0 (set1 (set1 m0 0 _ 0) (k, k) _) n _ = set1 m0 0 m' n _
        rw [set1_set1]
        by_cases hn : n = 0
        · subst hn
          rw [set1_same, set1_same, set1_same]
          unfold set1
          obtain ⟨i, j, p, q, -, -, -, -, -, hp, hq, e⟩ := sq_tile h.d hr ax hz
          rw [e]
          by_cases hkk : tz ax p q = (k, k)
          · rw [if_pos hkk, hkk]
          · rw [if_neg hkk]
            exact hsame _ (by rw [px_tz]; exact hp) (by rw [qx_tz]; exact hq) hkk
        · rw [set1_ne _ _ hn, set1_ne _ _ hn]
    · refine (VL.nil _).to (GV.ofL_mat fun n z hz => ?_)
      by_cases hn : n = 0
      · subst hn
        rw [set1_same, set1_same]
        obtain ⟨i, j, p, q, -, -, -, -, -, hp, hq, e⟩ := sq_tile h.d hr ax hz
        rw [e]
        refine hsame _ (by rw [px_tz]; exact hp) (by rw [qx_tz]; exact hq) fun hkk => hc ?_
        rw [← e] at hkk
        have hz0 := hz.1.1
        have hz1 := hz.2.1
        have g1 := congrArg Prod.fst hkk
        have g2 := congrArg Prod.snd hkk
        have g1' : ((P.at' .Row r).gl z.row).toNat = k := g1
        have g2' : ((P.at' .Col r).gl z.col).toNat = k := g2
        have a1 := pr.gl_nonneg hz0
        have a2 := pc.gl_nonneg hz1
        have o1 := pr.gl_own hz0
        have o2 := pc.gl_own hz1
        rw [show (P.at' .Row r).gl z.row = k by omega] at o1
        rw [show (P.at' .Col r).gl z.col = k by omega] at o2
        exact ⟨o1, o2⟩
      · rw [set1_ne _ _ hn, set1_ne _ _ hn]

/-- One iteration. -/
theorem triInv_step {g : Glob (DSt K) (Blk K)} (hg : VIdle (sqEnv P (triA ax)) (set1 m0 0 m) g) :
    ∃ g', Runs (fun r => if r ∈ P.ranks then triInvStep dbg ax (P.on r) k f1 f2 fd else []) g g' ∧ VIdle (sqEnv P (triA ax)) (set1 m0 0 m') g' := by
  have hV : (sqEnv P (triA ax)).OK := h.d.env
  have hk := h.lt
  have hn : P.col.dist.nrTiles = P.nt := h.d.nrTiles .Col
  let it : Int := P.col.dist.nrTiles - 1 - k
  refine VStep.iter (w := rrIdx it) (p := fun r => triInvStep dbg ax (P.on r) k f1 f2 fd) (fun ss se hss => ?_) hg
  let rest : Coord2 → Nat → VP K := fun r n => ⟨(sqEnv P (triA ax)).E.tile n, ss r n, se r n, fun _ => none⟩
  have hs0 : ∀ r ∈ P.ranks, ss r 0 = 0 := fun r hr => (hss r hr 0).2.1 rfl
  have he1 : ∀ r ∈ P.ranks, se r 1 = P.nt := fun r hr => by
    have h1 : se r 1 = (P.at' ax.orth.orth r).dist.nrTiles := (hss r hr 1).2.2 rfl
    rw [h1]
    exact h.d.nrTiles _
  let m1 : Tiles K := mixT (triR1 ax k) m m'
  let D0 : Coord2 → VP K := fun r => if k + 1 < P.nt then lineP P ax m k 0 ((k : Int) + 1) else rest r 0
  let D1 : Coord2 → VP K := fun r => if 0 < k then lineP P ax.orth m1 k k P.nt else rest r 1
  have G1 : VStep (sqEnv P (triA ax)) (rrIdx it) (fun r => if (k : Int) < (P.on r).col.nrTiles - 1 then
      (triPrep0 dbg ax (P.on r) k).map Instr.loc ++ bcastPanel dbg ax (P.on r) (((P.on r).get ax).rank_global_tile k) (DSt.panel 0 (triIt (P.on r) k)) 0 ((k : Int) + 1) else [])
      ⟨set1 m0 0 m, rest⟩ (GV.ofL (set1 m0 0 m) rest [D0, fun r => rest r 1]) := by
    show VStep _ _ (fun r => if (k : Int) < P.col.dist.nrTiles - 1 then _ else _) _ _
    refine VStep.frm (a := GV.ofL (set1 m0 0 m) rest [fun r => rest r 0, fun r => rest r 1]) (VStep.ite (fun hc => ?_) fun hc => ?_) fun r hr => ⟨fun _ _ _ => rfl, fun n => ?_⟩
    · have hk1 : k + 1 < P.nt := by omega
      refine VStep.append (VStep.locals hV fun r hr => triPrep0_step h hr hk1 (s := ss r 0) (e := se r 0) rfl (set1_same _ _ _)) ?_
      refine VStep.congr (sq_bcast h.d 0 (by simp) (it := it) (dbg := dbg) (ax := ax) (x := m) (k := k) (s := 0) (e := (k : Int) + 1) rfl rfl rfl h.fm rfl hk (le_refl _) (by omega) (by omega) ?_)
        fun r hr => ?_
      · have : D0 = fun _ => lineP P ax m k 0 ((k : Int) + 1) := funext fun r => if_pos hk1
        rw [this]
        rfl
      · rw [P.on_at]
        rfl
    · have : D0 = fun r => rest r 0 := funext fun r => if_neg (by omega)
      rw [this]
      exact VStep.nil _
    · rcases n with _ | _ | n <;> rfl
  have G2 : VStep (sqEnv P (triA ax)) (rrIdx it) (fun r => (triSolve0 dbg ax (P.on r) k f1).map Instr.loc)
      (GV.ofL (set1 m0 0 m) rest [D0, fun r => rest r 1]) (GV.ofL (set1 m0 0 m1) rest [D0, fun r => rest r 1]) :=
    VStep.locals hV fun r hr => triSolve0_step h hr fun hc => if_pos hc
  have G3 : VStep (sqEnv P (triA ax)) (rrIdx it) (fun r => if (k : Int) > 0 then
      (triPrep1 dbg ax (P.on r) k).map Instr.loc ++
        bcastPanel dbg ax.orth (P.on r) (((P.on r).get ax.orth).rank_global_tile k) (DSt.panel 1 (triIt (P.on r) k)) k ((P.on r).get ax).nrTiles else [])
      (GV.ofL (set1 m0 0 m1) rest [D0, fun r => rest r 1]) (GV.ofL (set1 m0 0 m1) rest [D0, D1]) := by
    refine VStep.ite (fun hc => ?_) fun hc => ?_
    · have hk1 : 0 < k := by omega
      refine VStep.append (VStep.locals hV fun r hr => triPrep1_step h hr (s := ss r 1) ?_ (set1_same _ _ _) h.m1) ?_
      · show (⟨_, ss r 1, se r 1, _⟩ : VP K) = _
        rw [he1 r hr]
        rfl
      refine VStep.congr (sq_bcast h.d 1 (by simp) (it := it) (dbg := dbg) (ax := ax.orth) (x := m1) (k := k) (s := k) (e := P.nt) rfl rfl rfl h.m1 rfl hk (by omega) (by omega) (le_refl _) ?_)
        fun r hr => ?_
      · have : D1 = fun _ => lineP P ax.orth m1 k k P.nt := funext fun r => if_pos hk1
        rw [this]
        rfl
      · rw [P.on_at, P.on_at, show (P.at' ax r).dist.nrTiles = P.nt from h.d.nrTiles ax]
        rfl
    · have : D1 = fun r => rest r 1 := funext fun r => if_neg (by omega)
      rw [this]
      exact VStep.nil _
  have G4 := VStep.locals hV (w := rrIdx it) fun r hr => triTrail_step h (dbg := dbg) (m0 := m0) (rest := rest) (x0 := D0) (x1 := D1) hr (fun hc => if_pos hc) fun hc => if_pos hc
  have G5 := VStep.locals hV (w := rrIdx it) fun r hr => triSolve1_step h (dbg := dbg) (m0 := m0) (rest := rest) (x0 := D0) (x1 := D1) hr fun hc => if_pos hc
  have G6 := VStep.locals hV (w := rrIdx it) fun r hr => triEnd_step h (m0 := m0) (rest := rest) (x0 := D0) (x1 := D1) hr (s := (D0 r).s) (e := (D0 r).e) (s' := (D1 r).s) (e' := (D1 r).e)
    ⟨rfl, rfl⟩ ⟨rfl, rfl⟩ (y0 := fun r => noP P.row.tile (D0 r).s (D0 r).e) (y1 := fun r => noP P.row.tile (D1 r).s (D1 r).e) rfl rfl
  refine ⟨_, (((((G1.append G2).append G3).append G4).append G5).append G6).congr fun r _ => rfl, rfl, fun r hr n => ?_⟩
  obtain ⟨z0, z1, z2⟩ := hss r hr n
  rcases n with _ | _ | n
  · have e0 : (D0 r).s = 0 := by
      show VP.s (if _ then _ else _) = 0
      split
      · rfl
      · exact hs0 r hr
    refine ⟨rfl, rfl, ?_, fun _ => ?_, fun hc => absurd hc (by show ¬ true = false; decide)⟩
    · show 0 ≤ (D0 r).s
      omega
    · exact e0
  · have e1 : 0 ≤ (D1 r).s ∧ (D1 r).e = P.nt := by
      show 0 ≤ VP.s (if _ then _ else _) ∧ VP.e (if _ then _ else _) = _
      split
      · refine ⟨?_, rfl⟩
        show (0 : Int) ≤ (k : Int)
        omega
      · exact ⟨z0, he1 r hr⟩
    refine ⟨rfl, rfl, e1.1, fun hc => absurd hc (by show ¬ true = false; decide), fun _ => ?_⟩
    show (D1 r).e = (P.get ax.orth.orth).dist.nrTiles
    rw [h.d.nrTiles]
    exact e1.2
  · exact ⟨rfl, rfl, z0, z1, z2⟩

end steps

/-- Kernels that keep the size of the tile. -/
def KeepsShape (f : Blk K → Blk K → Option (Blk K)) : Prop := ∀ a b c, f a b = some c → c.rows = b.rows ∧ c.cols = b.cols

theorem tileTrsm_shape (lp : Lapack K) (s : Side) (u : Uplo) (o : BlasOp) (d : Diag) (alpha : K) : KeepsShape (lp.tileTrsm s u o d alpha) := by
  intro a b c h
  unfold Lapack.tileTrsm at h
  split at h
  · cases h; exact ⟨rfl, rfl⟩
  · cases h

theorem tileTrtri_shape (lp : Lapack K) (u : Uplo) (d : Diag) {a c : Blk K} (h : lp.tileTrtri u d a = some c) : c.rows = a.rows ∧ c.cols = a.cols := by
  unfold Lapack.tileTrtri at h
  split at h
  · rw [Option.map_eq_some_iff] at h
    obtain ⟨f, -, rfl⟩ := h
    exact ⟨rfl, rfl⟩
  · cases h

theorem gemm_shape {oa ob : BlasOp} {alpha beta : K} {a b c e : Blk K} (h : gemm oa ob alpha a b beta c = some e) : e.rows = c.rows ∧ e.cols = c.cols := by
  unfold gemm at h
  split at h
  · cases h; exact ⟨rfl, rfl⟩
  · cases h

theorem TriRel.shape {ax : Coord} {f1 f2 : Blk K → Blk K → Option (Blk K)} {fd : Blk K → Option (Blk K)} {nt k : Nat} {m m' : Tiles K} (h : TriRel ax f1 f2 fd nt k m m')
    (h1 : KeepsShape f1) (h2 : KeepsShape f2) (hd : ∀ a c, fd a = some c → c.rows = a.rows ∧ c.cols = a.cols) (t : Nat × Nat) :
    (m' t).rows = (m t).rows ∧ (m' t).cols = (m t).cols := by
  by_cases ho : px ax t ≤ k ∧ k ≤ qx ax t ∧ qx ax t < nt
  · rw [← tz_px_qx ax t]
    obtain ⟨o1, o2, o3⟩ := ho
    rcases Nat.lt_or_ge (px ax t) k with hp | hp <;> rcases Nat.lt_or_ge k (qx ax t) with hq | hq
    · exact gemm_shape (h.trail _ _ hp hq o3)
    · rw [show qx ax t = k by omega]
      exact h2 _ _ _ (h.cross _ hp)
    · rw [show px ax t = k by omega]
      exact h1 _ _ _ (h.line _ hq o3)
    · rw [show px ax t = k by omega, show qx ax t = k by omega, tz_diag]
      exact hd _ _ h.diag
  · rw [h.other t ho]
    exact ⟨rfl, rfl⟩

/-- The loop. -/
theorem triInv_runs {P : Params2} {ax : Coord} {f1 f2 : Blk K → Blk K → Option (Blk K)} {fd : Blk K → Option (Blk K)} {m m' : Tiles K} {dbg : Bool} {m0 : Nat → Tiles K}
    (hd : SquareDist P) (h1 : KeepsShape f1) (h2 : KeepsShape f2) (h3 : ∀ a c, fd a = some c → c.rows = a.rows ∧ c.cols = a.cols) (hm : P.Fits m)
    (hf : forM' (downto P.nt 0) m (triStepG ax f1 f2 fd P.nt) = some m') {g : Glob (DSt K) (Blk K)} (hg : VIdle (sqEnv P (triA ax)) (set1 m0 0 m) g) :
    ∃ g', Runs (fun r => if r ∈ P.ranks then triInv dbg ax f1 f2 fd (P.on r) else []) g g' ∧ VIdle (sqEnv P (triA ax)) (set1 m0 0 m') g' ∧ P.Fits m' := by
  obtain ⟨g', r1, i1, i2⟩ := Runs.loop (p := fun k r => if r ∈ P.ranks then triInvStep dbg ax (P.on r) (k : Nat) f1 f2 fd else [])
    (step := triStepG ax f1 f2 fd P.nt) (fun m g => VIdle (sqEnv P (triA ax)) (set1 m0 0 m) g ∧ P.Fits m) (downto P.nt 0) (by
      intro k hk m m' g ⟨hg, hm⟩ hs
      rw [mem_downto] at hk
      have hrel := triStepG_inv hk.2 hs
      have hm' : P.Fits m' := fun i hi j hj => by
        have := hrel.shape h1 h2 h3 (i, j)
        rw [this.1, this.2]
        exact hm i hi j hj
      obtain ⟨g', r1, i1⟩ := triInv_step (dbg := dbg) (m0 := m0) ⟨hd, hm, hm', hrel, hk.2⟩ hg
      exact ⟨g', r1, i1, hm'⟩) ⟨hg, hm⟩ hf
  refine ⟨g', r1.congr fun r => ?_, i1, i2⟩
  by_cases hr : r ∈ P.ranks
  · simp only [if_pos hr]
    unfold triInv
    have hn : (P.on r).col.nrTiles = P.nt := hd.nrTiles .Col
    rw [hn]
    have : (irange 0 (P.nt : Int)).reverse = (downto P.nt 0).map fun k : Nat => (k : Int) := by
      unfold downto
      rw [List.map_reverse, show (0 : Int) = ((0 : Nat) : Int) from rfl, irange_upto]
    rw [this, List.flatMap_map]
  · simp [hr]

end DLAF
