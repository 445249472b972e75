import Verif.Model.DistGenToStd
import Verif.Lemmas.DistAssemble
/- The local transformation to standard form as a sequence of states in the order of the distributed algorithm. -/
namespace DLAF
variable {K : Type*}

/-- The states of a loop. -/
theorem forM'_trace {S : Type*} {b : S → Nat → Option S} {n0 n : Nat} (hn : n0 ≤ n) {s s1 : S} (h : forM' (upto n0 n) s b = some s1) :
    ∃ X : Nat → S, X n0 = s ∧ X n = s1 ∧ ∀ k, n0 ≤ k → k < n → b (X k) k = some (X (k + 1)) := by
  induction n, hn using Nat.le_induction generalizing s1 with
  | base =>
    rw [upto_self, forM'_nil, Option.some.injEq] at h
    exact ⟨fun _ => s, rfl, h, fun k h1 h2 => by omega⟩
  | succ n hn ih =>
    rw [upto_succ hn, forM'_append, Option.bind_eq_some_iff] at h
    obtain ⟨s2, h1, h2⟩ := h
    rw [forM'_cons, Option.bind_eq_some_iff] at h2
    obtain ⟨s3, h2, h3⟩ := h2
    rw [forM'_nil, Option.some.injEq] at h3
    subst h3
    obtain ⟨X, x1, x2, x3⟩ := ih h1
    refine ⟨fun k => if k ≤ n then X k else s3, ?_, ?_, fun k h4 h5 => ?_⟩
    · simp only [if_pos hn]; exact x1
    · simp
    · by_cases hk : k = n
      · subst hk
        simp only [le_refl, if_true, if_neg (show ¬ k + 1 ≤ k by omega)]
        rw [x2]; exact h2
      · simp only [if_pos (show k ≤ n by omega), if_pos (show k + 1 ≤ n by omega)]
        exact x3 k h4 (by omega)

/-- First and second gemm on a tile. -/
def GsTasks.fst (T : GsTasks K) (ap lp aq lq c : Blk K) : Option (Blk K) := if T.sw then T.gemm lp aq c else T.gemm ap lq c
def GsTasks.snd (T : GsTasks K) (ap lp aq lq c : Blk K) : Option (Blk K) := if T.sw then T.gemm ap lq c else T.gemm lp aq c

/-- The local step, for both triangles. -/
def gsStepG (ax : Coord) (T : GsTasks K) (nt : Nat) (l a : Tiles K) (k : Nat) : Option (Tiles K) := do
  let a ← a.write (k, k) (T.hegst (a (k, k)) (l (k, k)))
  if k + 1 = nt then pure a else
  let a ← forM' (upto (k + 1) nt) a fun a i => do
    let a ← a.write (tz ax i k) (T.trsm (l (k, k)) (a (tz ax i k)))
    a.write (tz ax i k) (T.hemm (a (k, k)) (l (tz ax i k)) (a (tz ax i k)))
  let a ← forM' (upto (k + 1) nt) a fun a j => do
    let a ← a.write (j, j) (T.her2k (a (tz ax j k)) (l (tz ax j k)) (a (j, j)))
    forM' (upto (j + 1) nt) a fun a i => do
      let a ← a.write (tz ax i j) (T.fst (a (tz ax i k)) (l (tz ax i k)) (a (tz ax j k)) (l (tz ax j k)) (a (tz ax i j)))
      a.write (tz ax i j) (T.snd (a (tz ax i k)) (l (tz ax i k)) (a (tz ax j k)) (l (tz ax j k)) (a (tz ax i j)))
  let a ← forM' (upto (k + 1) nt) a fun a i =>
    a.write (tz ax i k) (T.hemm (a (k, k)) (l (tz ax i k)) (a (tz ax i k)))
  forM' (upto (k + 1) nt) a fun a j => do
    let a ← a.write (tz ax j k) (T.trsmU (l (j, j)) (a (tz ax j k)))
    forM' (upto (j + 1) nt) a fun a i => a.write (tz ax i k) (T.gemmU (l (tz ax i j)) (a (tz ax j k)) (a (tz ax i k)))

theorem genToStdStepL_eq [Field K] [StarRing K] (lp : Lapack K) (nt : Nat) (l a : Tiles K) (k : Nat) : genToStdStepL lp nt l a k = gsStepG .Col (gsTasksL lp) nt l a k := rfl
theorem genToStdStepU_eq [Field K] [StarRing K] (lp : Lapack K) (nt : Nat) (l a : Tiles K) (k : Nat) : genToStdStepU lp nt l a k = gsStepG .Row (gsTasksU lp) nt l a k := rfl

/-- A loop over the tiles of a line. -/
theorem line_loop {ax : Coord} {c a n : Nat} {b : Tiles K → Nat → Option (Tiles K)} (G : Nat → Tiles K → Blk K → Prop)
    (hb : ∀ p, a ≤ p → p < n → ∀ s s', b s p = some s' → G p s (s' (tz ax p c)) ∧ ∀ z, z ≠ tz ax p c → s' z = s z)
    (hG : ∀ p, a ≤ p → p < n → ∀ (s u : Tiles K) v, (∀ z, (qx ax z = c → px ax z = p ∨ px ax z < a) → s z = u z) → G p s v → G p u v)
    {m m' : Tiles K} (h : forM' (upto a n) m b = some m') :
    (∀ z, ¬ (qx ax z = c ∧ a ≤ px ax z ∧ px ax z < n) → m' z = m z) ∧ ∀ p, a ≤ p → p < n → G p m (m' (tz ax p c)) := by
  obtain ⟨o1, o2⟩ := forM'_frame (upto a n) (fun z => if qx ax z = c then some (px ax z) else none) b (upto_nodup _ _) (by
    intro p hp u u' hu z hz
    rw [mem_upto] at hp
    refine (hb p hp.1 hp.2 u u' hu).2 z fun hc => hz ?_
    rw [hc, qx_tz, px_tz, if_pos rfl]) h
  refine ⟨fun z hz => o1 z fun y hy hc => ?_, fun p h1 h2 => ?_⟩
  · rw [mem_upto] at hy
    split at hc
    · have := Option.some.inj hc
      exact hz ⟨‹_›, by omega, by omega⟩
    · cases hc
  · obtain ⟨u, u', b1, b2, b3⟩ := o2 p (by rw [mem_upto]; exact ⟨h1, h2⟩)
    have ow : (if qx ax (tz ax p c) = c then some (px ax (tz ax p c)) else none) = some p := by rw [qx_tz, px_tz, if_pos rfl]
    rw [b3 _ ow]
    refine hG p h1 h2 u m _ (fun z hz => b2 z ?_) (hb p h1 h2 u u' b1).1
    by_cases hc : qx ax z = c
    · rw [if_pos hc]
      rcases hz hc with hz | hz
      · exact Or.inl (by rw [hz])
      · refine Or.inr fun y hy hyc => ?_
        rw [mem_upto] at hy
        have := Option.some.inj hyc
        omega
    · rw [if_neg hc]
      exact Or.inr fun y _ hyc => by cases hyc

/-- Two writes of the same tile. -/
theorem write2_inv {m m' : Tiles K} {z : Nat × Nat} {f : Tiles K → Option (Blk K)} {g : Tiles K → Option (Blk K)}
    (h : ((m.write z (f m)).bind fun m => m.write z (g m)) = some m') : ∃ x, f m = some x ∧ (∃ m1 : Tiles K, m1 z = x ∧ (∀ y, y ≠ z → m1 y = m y) ∧ g m1 = some (m' z)) ∧ ∀ y, y ≠ z → m' y = m y := by
  obtain ⟨m1, h1, h2⟩ := Option.bind_eq_some_iff.1 h
  obtain ⟨b1, e1, rfl⟩ := write_some h1
  obtain ⟨b2, e2, rfl⟩ := write_some h2
  have w1 : ∃ m1 : Tiles K, m1 = fun y => if y = z then b1 else m y := ⟨_, rfl⟩
  obtain ⟨m1, w1⟩ := w1
  rw [← w1] at e2
  refine ⟨b1, e1, ⟨m1, by rw [w1]; exact if_pos rfl, fun y hy => by rw [w1]; exact if_neg hy, ?_⟩, fun y hy => ?_⟩
  · rw [e2]
    exact (congrArg some (if_pos rfl)).symm
  · exact (if_neg hy).trans (if_neg hy)

/-- What an iteration of the local algorithm does; `Y j` is the state before the `j`-th step of the last loop, `A1` are the tiles of line `k` used in the update. -/
structure GsLoc (ax : Coord) (T : GsTasks K) (nt : Nat) (l : Tiles K) (k : Nat) (m : Tiles K) (Y : Nat → Tiles K) (A1 : Nat → Blk K) : Prop where
  hegst : T.hegst (m (k, k)) (l (k, k)) = some (Y (k + 1) (k, k))
  line1 : ∀ p, k < p → p < nt → ∃ x, T.trsm (l (k, k)) (m (tz ax p k)) = some x ∧ T.hemm (Y (k + 1) (k, k)) (l (tz ax p k)) x = some (A1 p)
  her2k : ∀ q, k < q → q < nt → T.her2k (A1 q) (l (tz ax q k)) (m (q, q)) = some (Y (k + 1) (q, q))
  gemm : ∀ q p, k < q → q < p → p < nt → ∃ x, T.fst (A1 p) (l (tz ax p k)) (A1 q) (l (tz ax q k)) (m (tz ax p q)) = some x ∧
    T.snd (A1 p) (l (tz ax p k)) (A1 q) (l (tz ax q k)) x = some (Y (k + 1) (tz ax p q))
  line2 : ∀ p, k < p → p < nt → T.hemm (Y (k + 1) (k, k)) (l (tz ax p k)) (A1 p) = some (Y (k + 1) (tz ax p k))
  other : ∀ z, ¬ (k ≤ qx ax z ∧ qx ax z ≤ px ax z ∧ px ax z < nt) → Y (k + 1) z = m z
  row : ∀ j, k < j → j < nt → T.trsmU (l (j, j)) (Y j (tz ax j k)) = some (Y (j + 1) (tz ax j k))
  below : ∀ j p, k < j → j < p → p < nt → T.gemmU (l (tz ax p j)) (Y (j + 1) (tz ax j k)) (Y j (tz ax p k)) = some (Y (j + 1) (tz ax p k))
  keep : ∀ j, k < j → j < nt → ∀ z, ¬ (qx ax z = k ∧ j ≤ px ax z ∧ px ax z < nt) → Y (j + 1) z = Y j z

theorem gsStepG_inv {ax : Coord} {T : GsTasks K} {nt : Nat} {l m m' : Tiles K} {k : Nat} (hk : k < nt) (h : gsStepG ax T nt l m k = some m') :
    ∃ Y A1, GsLoc ax T nt l k m Y A1 ∧ Y nt = m' := by
  have h' : ∃ m1 m2 m3 m4, m.write (k, k) (T.hegst (m (k, k)) (l (k, k))) = some m1 ∧
      forM' (upto (k + 1) nt) m1 (fun a i => (a.write (tz ax i k) (T.trsm (l (k, k)) (a (tz ax i k)))).bind fun a =>
        a.write (tz ax i k) (T.hemm (a (k, k)) (l (tz ax i k)) (a (tz ax i k)))) = some m2 ∧
      forM' (upto (k + 1) nt) m2 (fun a j => (a.write (j, j) (T.her2k (a (tz ax j k)) (l (tz ax j k)) (a (j, j)))).bind fun a =>
        forM' (upto (j + 1) nt) a fun a i =>
          (a.write (tz ax i j) (T.fst (a (tz ax i k)) (l (tz ax i k)) (a (tz ax j k)) (l (tz ax j k)) (a (tz ax i j)))).bind fun a =>
          a.write (tz ax i j) (T.snd (a (tz ax i k)) (l (tz ax i k)) (a (tz ax j k)) (l (tz ax j k)) (a (tz ax i j)))) = some m3 ∧
      forM' (upto (k + 1) nt) m3 (fun a i => a.write (tz ax i k) (T.hemm (a (k, k)) (l (tz ax i k)) (a (tz ax i k)))) = some m4 ∧
      forM' (upto (k + 1) nt) m4 (fun a j => (a.write (tz ax j k) (T.trsmU (l (j, j)) (a (tz ax j k)))).bind fun a =>
        forM' (upto (j + 1) nt) a fun a i => a.write (tz ax i k) (T.gemmU (l (tz ax i j)) (a (tz ax j k)) (a (tz ax i k)))) = some m' := by
    unfold gsStepG at h
    simp only [Option.bind_eq_bind] at h
    obtain ⟨m1, h1, h2⟩ := Option.bind_eq_some_iff.1 h
    by_cases hl : k + 1 = nt
    · rw [if_pos hl] at h2
      have h2 : m1 = m' := Option.some.inj h2
      subst h2
      subst hl
      refine ⟨m1, m1, m1, m1, h1, ?_⟩
      simp only [upto_self, forM'_nil, and_self]
    · rw [if_neg hl] at h2
      obtain ⟨m2, h2, h3⟩ := Option.bind_eq_some_iff.1 h2
      obtain ⟨m3, h3, h4⟩ := Option.bind_eq_some_iff.1 h3
      obtain ⟨m4, h4, h5⟩ := Option.bind_eq_some_iff.1 h4
      exact ⟨m1, m2, m3, m4, h1, h2, h3, h4, h5⟩
  obtain ⟨m1, m2, m3, m4, h1, h2, h3, h4, h5⟩ := h'
  have kk : ∀ q, tz ax q q = (q, q) := tz_diag ax
  -- the diagonal tile
  obtain ⟨b1, e1, w1⟩ := write_some h1
  have d1 : m1 (k, k) = b1 := by rw [w1]; exact if_pos rfl
  have s1 : ∀ z, ¬ (px ax z = k ∧ qx ax z = k) → m1 z = m z := by
    intro z hz
    rw [w1]
    refine if_neg fun hc => hz ?_
    rw [← kk] at hc
    exact tz_eq_iff.1 hc
  -- the line
  obtain ⟨s2, l2⟩ := line_loop (ax := ax) (c := k) (fun p s v => ∃ x, T.trsm (l (k, k)) (s (tz ax p k)) = some x ∧ T.hemm (s (k, k)) (l (tz ax p k)) x = some v) (by
    intro p p1 p2 s s' hs
    obtain ⟨x, x1, ⟨u, u1, u2, u3⟩, x3⟩ := write2_inv (f := fun a => T.trsm (l (k, k)) (a (tz ax p k))) (g := fun a => T.hemm (a (k, k)) (l (tz ax p k)) (a (tz ax p k))) hs
    refine ⟨⟨x, x1, ?_⟩, x3⟩
    rw [← u3, u1, u2 (k, k) (by rw [← kk]; intro hc; have := (tz_inj hc).1; omega)]) (by
    rintro p p1 p2 s u v hz ⟨x, x1, x2⟩
    refine ⟨x, ?_, ?_⟩
    · rw [← hz _ (fun _ => Or.inl (px_tz _ _ _))]; exact x1
    · rw [← hz (k, k) (by rw [← tz_diag ax, px_tz]; omega)]; exact x2) h2
  -- the trailing matrix
  have inner : ∀ (q : Nat) (s s' : Tiles K), k < q → ((s.write (q, q) (T.her2k (s (tz ax q k)) (l (tz ax q k)) (s (q, q)))).bind fun a =>
        forM' (upto (q + 1) nt) a fun a i =>
          (a.write (tz ax i q) (T.fst (a (tz ax i k)) (l (tz ax i k)) (a (tz ax q k)) (l (tz ax q k)) (a (tz ax i q)))).bind fun a =>
          a.write (tz ax i q) (T.snd (a (tz ax i k)) (l (tz ax i k)) (a (tz ax q k)) (l (tz ax q k)) (a (tz ax i q)))) = some s' →
      (∀ z, ¬ (qx ax z = q ∧ q ≤ px ax z ∧ (px ax z < nt ∨ px ax z = q)) → s' z = s z) ∧ T.her2k (s (tz ax q k)) (l (tz ax q k)) (s (q, q)) = some (s' (q, q)) ∧
      ∀ p, q < p → p < nt → ∃ x, T.fst (s (tz ax p k)) (l (tz ax p k)) (s (tz ax q k)) (l (tz ax q k)) (s (tz ax p q)) = some x ∧
        T.snd (s (tz ax p k)) (l (tz ax p k)) (s (tz ax q k)) (l (tz ax q k)) x = some (s' (tz ax p q)) := by
    intro q s s' hq hs
    obtain ⟨u, u1, u2⟩ := Option.bind_eq_some_iff.1 hs
    obtain ⟨b, eb, wb⟩ := write_some u1
    have su : ∀ z, ¬ (px ax z = q ∧ qx ax z = q) → u z = s z := by
      intro z hz
      rw [wb]
      refine if_neg fun hc => hz ?_
      rw [← kk] at hc
      exact tz_eq_iff.1 hc
    have ub : u (q, q) = b := by rw [wb]; exact if_pos rfl
    obtain ⟨c1, c2⟩ := line_loop (ax := ax) (c := q) (fun p s v => ∃ x, T.fst (s (tz ax p k)) (l (tz ax p k)) (s (tz ax q k)) (l (tz ax q k)) (s (tz ax p q)) = some x ∧
        T.snd (s (tz ax p k)) (l (tz ax p k)) (s (tz ax q k)) (l (tz ax q k)) x = some v) (by
      intro p p1 p2 s s' hs
      obtain ⟨x, x1, ⟨u, u1, u2, u3⟩, x3⟩ := write2_inv (f := fun a => T.fst (a (tz ax p k)) (l (tz ax p k)) (a (tz ax q k)) (l (tz ax q k)) (a (tz ax p q)))
        (g := fun a => T.snd (a (tz ax p k)) (l (tz ax p k)) (a (tz ax q k)) (l (tz ax q k)) (a (tz ax p q))) hs
      refine ⟨⟨x, x1, ?_⟩, x3⟩
      have n1 : ∀ y, tz ax y k ≠ tz ax p q := fun y hc => by have := (tz_inj hc).2; omega
      rw [← u3, u1, u2 _ (n1 _), u2 _ (n1 _)]) (by
      rintro p p1 p2 s u v hz ⟨x, x1, x2⟩
      have n1 : ∀ y, s (tz ax y k) = u (tz ax y k) := fun y => hz _ fun hc => by rw [qx_tz] at hc; omega
      refine ⟨x, ?_, ?_⟩
      · rw [← n1, ← n1, ← hz _ (fun _ => Or.inl (px_tz _ _ _))]; exact x1
      · rw [← n1, ← n1]; exact x2) u2
    refine ⟨fun z hz => ?_, ?_, fun p p1 p2 => ?_⟩
    · rw [c1 z (by omega), su z (by omega)]
    · rw [c1 (q, q) (by rw [← tz_diag ax, px_tz]; omega), ub]; exact eb
    · obtain ⟨x, x1, x2⟩ := c2 p (by omega) p2
      have n1 : ∀ y, u (tz ax y k) = s (tz ax y k) := fun y => su _ (by rw [qx_tz]; omega)
      refine ⟨x, ?_, ?_⟩
      · rw [← n1, ← n1, ← su _ (by rw [px_tz]; omega)]; exact x1
      · rw [← n1, ← n1]; exact x2
  obtain ⟨o1, o2⟩ := forM'_frame (upto (k + 1) nt) (fun z => if qx ax z ≤ px ax z ∧ px ax z < nt then some (qx ax z) else none) _ (upto_nodup _ _) (by
    intro q hq u u' hu z hz
    rw [mem_upto] at hq
    obtain ⟨c1, -, -⟩ := inner q u u' (by omega) hu
    refine c1 z fun hc => hz ?_
    rw [if_pos (by omega), hc.1]) h3
  have s3 : ∀ z, ¬ (k < qx ax z ∧ qx ax z ≤ px ax z ∧ px ax z < nt) → m3 z = m2 z := by
    intro z hz
    refine o1 z fun y hy hc => ?_
    rw [mem_upto] at hy
    split at hc
    · have := Option.some.inj hc
      omega
    · cases hc
  have t3 : ∀ q, k < q → q < nt → T.her2k (m2 (tz ax q k)) (l (tz ax q k)) (m2 (q, q)) = some (m3 (q, q)) ∧
      ∀ p, q < p → p < nt → ∃ x, T.fst (m2 (tz ax p k)) (l (tz ax p k)) (m2 (tz ax q k)) (l (tz ax q k)) (m2 (tz ax p q)) = some x ∧
        T.snd (m2 (tz ax p k)) (l (tz ax p k)) (m2 (tz ax q k)) (l (tz ax q k)) x = some (m3 (tz ax p q)) := by
    intro q q1 q2
    obtain ⟨u, u', b1, b2, b3⟩ := o2 q (by rw [mem_upto]; omega)
    obtain ⟨-, c2, c3⟩ := inner q u u' q1 b1
    have hl : ∀ y, u (tz ax y k) = m2 (tz ax y k) := fun y => by
      refine b2 _ (Or.inr fun z hz hc => ?_)
      rw [mem_upto] at hz
      split at hc
      · have := Option.some.inj hc
        rw [qx_tz] at this
        omega
      · cases hc
    have hq : ∀ p, q ≤ p → p < nt → (if qx ax (tz ax p q) ≤ px ax (tz ax p q) ∧ px ax (tz ax p q) < nt then some (qx ax (tz ax p q)) else none) = some q := by
      intro p p1 p2
      rw [px_tz, qx_tz, if_pos ⟨p1, p2⟩]
    refine ⟨?_, fun p p1 p2 => ?_⟩
    · have e := hq q (le_refl _) q2
      rw [kk] at e
      rw [b3 _ e, ← hl, ← b2 _ (Or.inl e)]
      exact c2
    · obtain ⟨x, x1, x2⟩ := c3 p p1 p2
      have e := hq p (by omega) p2
      refine ⟨x, ?_, ?_⟩
      · rw [← hl, ← hl, ← b2 _ (Or.inl e)]; exact x1
      · rw [← hl, ← hl, b3 _ e]; exact x2
  -- the line again
  obtain ⟨s4, l4⟩ := line_loop (ax := ax) (c := k) (fun p s v => T.hemm (s (k, k)) (l (tz ax p k)) (s (tz ax p k)) = some v) (by
    intro p p1 p2 s s' hs
    obtain ⟨b, eb, wb⟩ := write_some hs
    refine ⟨?_, fun z hz => by rw [wb]; exact if_neg hz⟩
    rw [wb, eb]
    exact (congrArg some (if_pos rfl)).symm) (by
    intro p p1 p2 s u v hz hx
    rw [← hz _ (fun _ => Or.inl (px_tz _ _ _)), ← hz (k, k) (by rw [← tz_diag ax, px_tz]; omega)]
    exact hx) h4
  -- the last loop
  obtain ⟨Y, y1, y2, y3⟩ := forM'_trace (show k + 1 ≤ nt by omega) h5
  have sol : ∀ j, k < j → j < nt → T.trsmU (l (j, j)) (Y j (tz ax j k)) = some (Y (j + 1) (tz ax j k)) ∧
      (∀ p, j < p → p < nt → T.gemmU (l (tz ax p j)) (Y (j + 1) (tz ax j k)) (Y j (tz ax p k)) = some (Y (j + 1) (tz ax p k))) ∧
      ∀ z, ¬ (qx ax z = k ∧ j ≤ px ax z ∧ px ax z < nt) → Y (j + 1) z = Y j z := by
    intro j j1 j2
    obtain ⟨u, u1, u2⟩ := Option.bind_eq_some_iff.1 (y3 j (by omega) j2)
    obtain ⟨b, eb, wb⟩ := write_some u1
    have su : ∀ z, ¬ (px ax z = j ∧ qx ax z = k) → u z = Y j z := by
      intro z hz
      rw [wb]
      exact if_neg fun hc => hz (tz_eq_iff.1 hc)
    have ub : u (tz ax j k) = b := by rw [wb]; exact if_pos rfl
    obtain ⟨c1, c2⟩ := line_loop (ax := ax) (c := k) (fun p s v => T.gemmU (l (tz ax p j)) (s (tz ax j k)) (s (tz ax p k)) = some v) (by
      intro p p1 p2 s s' hs
      obtain ⟨b, eb, wb⟩ := write_some hs
      refine ⟨?_, fun z hz => by rw [wb]; exact if_neg hz⟩
      rw [wb, eb]
      exact (congrArg some (if_pos rfl)).symm) (by
      intro p p1 p2 s u v hz hx
      rw [← hz _ (fun _ => Or.inl (px_tz _ _ _)), ← hz (tz ax j k) (fun _ => Or.inr (by rw [px_tz]; omega))]
      exact hx) u2
    have hj : Y (j + 1) (tz ax j k) = b := by rw [c1 _ (by rw [px_tz]; omega), ub]
    refine ⟨by rw [hj]; exact eb, fun p p1 p2 => ?_, fun z hz => ?_⟩
    · have := c2 p (by omega) p2
      rw [ub, su _ (by rw [px_tz]; omega)] at this
      rw [hj]; exact this
    · rw [c1 z (by omega), su z (by omega)]
  refine ⟨Y, fun p => m2 (tz ax p k), ⟨?_, ?_, ?_, ?_, ?_, ?_, fun j a b => (sol j a b).1, fun j p a b c => (sol j a (by omega)).2.1 p b c, fun j a b => (sol j a b).2.2⟩, y2⟩
  all_goals rw [y1]
  all_goals have dd : m4 (k, k) = b1 := by rw [s4 _ (by rw [← tz_diag ax, px_tz]; omega), s3 _ (by rw [← tz_diag ax, qx_tz]; omega), s2 _ (by rw [← tz_diag ax, px_tz]; omega), d1]
  all_goals have d3 : m3 (k, k) = b1 := by rw [s3 _ (by rw [← tz_diag ax, qx_tz]; omega), s2 _ (by rw [← tz_diag ax, px_tz]; omega), d1]
  · rw [dd]; exact e1
  · intro p p1 p2
    obtain ⟨x, x1, x2⟩ := l2 p (by omega) p2
    refine ⟨x, ?_, ?_⟩
    · rw [← s1 _ (by rw [px_tz]; omega)]; exact x1
    · rw [dd, ← d1]; exact x2
  · intro q q1 q2
    have hc := (t3 q q1 q2).1
    rw [s4 _ (by rw [← tz_diag ax, qx_tz]; omega)]
    rw [s2 (q, q) (by rw [← tz_diag ax, qx_tz]; omega), s1 (q, q) (by rw [← tz_diag ax, qx_tz]; omega)] at hc
    exact hc
  · intro q p q1 q2 q3
    obtain ⟨x, x1, x2⟩ := (t3 q q1 (by omega)).2 p q2 q3
    rw [s4 _ (by rw [qx_tz]; omega)]
    refine ⟨x, ?_, x2⟩
    rw [← s1 (tz ax p q) (by rw [qx_tz]; omega), ← s2 (tz ax p q) (by rw [qx_tz]; omega)]
    exact x1
  · intro p p1 p2
    have hc := l4 p (by omega) p2
    rw [d3, s3 _ (by rw [qx_tz]; omega)] at hc
    rw [dd]
    exact hc
  · intro z hz
    rw [s4 z (by omega), s3 z (by omega), s2 z (by omega), s1 z (by omega)]

/-- What iteration `k` of the distributed algorithm does. -/
structure GsRel (ax : Coord) (T : GsTasks K) (nt : Nat) (l : Tiles K) (k : Nat) (m m' : Tiles K) (A1 : Nat → Blk K) : Prop where
  hegst : T.hegst (m (k, k)) (l (k, k)) = some (m' (k, k))
  line1 : ∀ p, k < p → p < nt → ∃ x, T.trsm (l (k, k)) (m (tz ax p k)) = some x ∧ T.hemm (m' (k, k)) (l (tz ax p k)) x = some (A1 p)
  her2k : ∀ q, k < q → q < nt → T.her2k (A1 q) (l (tz ax q k)) (m (q, q)) = some (m' (q, q))
  gemm : ∀ q p, k < q → q < p → p < nt → ∃ x, T.fst (A1 p) (l (tz ax p k)) (A1 q) (l (tz ax q k)) (m (tz ax p q)) = some x ∧
    T.snd (A1 p) (l (tz ax p k)) (A1 q) (l (tz ax q k)) x = some (m' (tz ax p q))
  line2 : ∀ p, k < p → p < nt → T.hemm (m' (k, k)) (l (tz ax p k)) (A1 p) = some (m' (tz ax p k))
  row : ∀ c, c < k → T.trsmU (l (k, k)) (m (tz ax k c)) = some (m' (tz ax k c))
  below : ∀ c p, c < k → k < p → p < nt → T.gemmU (l (tz ax p k)) (m' (tz ax k c)) (m (tz ax p c)) = some (m' (tz ax p c))
  other : ∀ z, ¬ (k ≤ px ax z ∧ qx ax z ≤ px ax z ∧ px ax z < nt) → m' z = m z

/-- The local algorithm in the order of the distributed one. -/
theorem gs_order {ax : Coord} {T : GsTasks K} {nt : Nat} {l a a' : Tiles K} (h : forM' (upto 0 nt) a (gsStepG ax T nt l) = some a') :
    ∃ (D : Nat → Tiles K) (A1 : Nat → Nat → Blk K), D 0 = a ∧ D nt = a' ∧ ∀ k < nt, GsRel ax T nt l k (D k) (D (k + 1)) (A1 k) := by
  obtain ⟨X, x0, x1, x2⟩ := forM'_trace (Nat.zero_le nt) h
  have hY : ∀ k, ∃ (Y : Nat → Tiles K) (A1 : Nat → Blk K), k < nt → GsLoc ax T nt l k (X k) Y A1 ∧ Y nt = X (k + 1) := by
    intro k
    by_cases hk : k < nt
    · obtain ⟨Y, A1, h1, h2⟩ := gsStepG_inv hk (x2 k (by omega) hk)
      exact ⟨Y, A1, fun _ => ⟨h1, h2⟩⟩
    · exact ⟨fun _ => a, fun _ => a (0, 0), fun hc => absurd hc hk⟩
  choose Y A1 hY using hY
  have keepY : ∀ k < nt, ∀ z, qx ax z ≠ k → ∀ j, k < j → j ≤ nt → Y k j z = Y k (k + 1) z := by
    intro k hk z hz j hj
    induction j, (show k + 1 ≤ j from hj) using Nat.le_induction with
    | base => exact fun _ => rfl
    | succ j hj' ih =>
      intro hle
      rw [(hY k hk).1.keep j (by omega) (by omega) z (by omega)]
      exact ih (by omega) (by omega)
  have nextX : ∀ k < nt, ∀ z, qx ax z ≠ k → X (k + 1) z = Y k (k + 1) z := by
    intro k hk z hz
    rw [← (hY k hk).2]
    exact keepY k hk z hz nt hk (le_refl _)
  let D : Nat → Tiles K := fun k t => if qx ax t < k then Y (qx ax t) k t else X k t
  have dX : ∀ k t, k ≤ qx ax t → D k t = X k t := fun k t hq => if_neg (by omega)
  have dY : ∀ k t, qx ax t < k → D k t = Y (qx ax t) k t := fun k t hq => if_pos hq
  have dS : ∀ k t, k < nt → k ≤ qx ax t → D (k + 1) t = Y k (k + 1) t := by
    intro k t hk hq
    by_cases hc : qx ax t = k
    · rw [dY _ _ (by omega), hc]
    · rw [dX _ _ (by omega), nextX k hk t hc]
  have kk : ∀ q, px ax (q, q) = q ∧ qx ax (q, q) = q := fun q => by rw [← tz_diag ax, px_tz, qx_tz]; exact ⟨rfl, rfl⟩
  refine ⟨D, A1, ?_, ?_, fun k hk => ?_⟩
  · funext t
    rw [dX _ _ (by omega), x0]
  · funext t
    by_cases hq : qx ax t < nt
    · rw [dY _ _ hq, (hY _ hq).2, ← x1]
      have : ∀ j, qx ax t + 1 ≤ j → j ≤ nt → X j t = X (qx ax t + 1) t := by
        intro j hj
        induction j, hj using Nat.le_induction with
        | base => exact fun _ => rfl
        | succ j hj' ih =>
          intro hle
          rw [nextX j (by omega) t (by omega), (hY j (by omega)).1.other t (by omega)]
          exact ih (by omega)
      exact (this nt (by omega) (le_refl _)).symm
    · rw [dX _ _ (by omega), x1]
  · have H := (hY k hk).1
    refine ⟨?_, fun p p1 p2 => ?_, fun q q1 q2 => ?_, fun q p q1 q2 q3 => ?_, fun p p1 p2 => ?_, fun c hc => ?_, fun c p hc p1 p2 => ?_, fun z hz => ?_⟩
    · rw [dX k (k, k) (by rw [(kk k).2]), dS k (k, k) hk (by rw [(kk k).2])]
      exact H.hegst
    · rw [dX k _ (by rw [qx_tz]), dS k (k, k) hk (by rw [(kk k).2])]
      exact H.line1 p p1 p2
    · rw [dX k (q, q) (by rw [(kk q).2]; omega), dS k (q, q) hk (by rw [(kk q).2]; omega)]
      exact H.her2k q q1 q2
    · rw [dX k _ (by rw [qx_tz]; omega), dS k _ hk (by rw [qx_tz]; omega)]
      exact H.gemm q p q1 q2 q3
    · rw [dS k (k, k) hk (by rw [(kk k).2]), dS k _ hk (by rw [qx_tz])]
      exact H.line2 p p1 p2
    · rw [dY k _ (by rw [qx_tz]; exact hc), dY (k + 1) _ (by rw [qx_tz]; omega), qx_tz]
      exact (hY c (by omega)).1.row k hc hk
    · rw [dY k _ (by rw [qx_tz]; exact hc), dY (k + 1) _ (by rw [qx_tz]; omega), dY (k + 1) _ (by rw [qx_tz]; omega), qx_tz, qx_tz]
      exact (hY c (by omega)).1.below k p hc p1 p2
    · rcases Nat.lt_or_ge (qx ax z) k with hq | hq
      · rw [dY _ _ hq, dY _ _ (by omega), (hY _ (by omega)).1.keep k hq hk z (by omega)]
      · rw [dX _ _ hq, dS _ _ hk hq, H.other z (by omega)]

/-- Kernels that keep the size of the tile. -/
structure GsTasks.Keeps (T : GsTasks K) : Prop where
  hegst : ∀ a l e, T.hegst a l = some e → e.rows = a.rows ∧ e.cols = a.cols
  trsm : ∀ l a e, T.trsm l a = some e → e.rows = a.rows ∧ e.cols = a.cols
  hemm : ∀ d l a e, T.hemm d l a = some e → e.rows = a.rows ∧ e.cols = a.cols
  her2k : ∀ a l c e, T.her2k a l c = some e → e.rows = c.rows ∧ e.cols = c.cols
  gemm : ∀ a b c e, T.gemm a b c = some e → e.rows = c.rows ∧ e.cols = c.cols
  trsmU : ∀ l a e, T.trsmU l a = some e → e.rows = a.rows ∧ e.cols = a.cols
  gemmU : ∀ l a c e, T.gemmU l a c = some e → e.rows = c.rows ∧ e.cols = c.cols

theorem GsTasks.Keeps.fst {T : GsTasks K} (h : T.Keeps) {ap lp aq lq c e : Blk K} (hf : T.fst ap lp aq lq c = some e) : e.rows = c.rows ∧ e.cols = c.cols := by
  unfold GsTasks.fst at hf
  split at hf <;> exact h.gemm _ _ _ _ hf
theorem GsTasks.Keeps.snd {T : GsTasks K} (h : T.Keeps) {ap lp aq lq c e : Blk K} (hf : T.snd ap lp aq lq c = some e) : e.rows = c.rows ∧ e.cols = c.cols := by
  unfold GsTasks.snd at hf
  split at hf <;> exact h.gemm _ _ _ _ hf

/-- An iteration keeps the sizes of the tiles. -/
theorem GsRel.shape {ax : Coord} {T : GsTasks K} {nt : Nat} {l : Tiles K} {k : Nat} {m m' : Tiles K} {A1 : Nat → Blk K} (h : GsRel ax T nt l k m m' A1) (hT : T.Keeps) (t : Nat × Nat) :
    (m' t).rows = (m t).rows ∧ (m' t).cols = (m t).cols := by
  by_cases ho : k ≤ px ax t ∧ qx ax t ≤ px ax t ∧ px ax t < nt
  · rw [← tz_px_qx ax t]
    obtain ⟨o1, o2, o3⟩ := ho
    rcases Nat.lt_trichotomy (qx ax t) k with hq | hq | hq
    · rcases Nat.lt_or_ge k (px ax t) with hp | hp
      · exact hT.gemmU _ _ _ _ (h.below _ _ hq hp o3)
      · rw [show px ax t = k by omega]
        exact hT.trsmU _ _ _ (h.row _ hq)
    · rw [hq]
      rcases Nat.lt_or_ge k (px ax t) with hp | hp
      · obtain ⟨x, x1, x2⟩ := h.line1 _ hp o3
        have e1 := hT.trsm _ _ _ x1
        have e2 := hT.hemm _ _ _ _ x2
        have e3 := hT.hemm _ _ _ _ (h.line2 _ hp o3)
        rw [e3.1, e3.2, e2.1, e2.2]
        exact e1
      · rw [show px ax t = k by omega, tz_diag]
        exact hT.hegst _ _ _ h.hegst
    · rcases Nat.lt_or_ge (qx ax t) (px ax t) with hp | hp
      · obtain ⟨x, x1, x2⟩ := h.gemm _ _ hq hp o3
        have e1 := hT.fst x1
        have e2 := hT.snd x2
        rw [e2.1, e2.2]
        exact e1
      · rw [show px ax t = qx ax t by omega, tz_diag]
        exact hT.her2k _ _ _ _ (h.her2k _ hq (by omega))
  · rw [h.other t ho]
    exact ⟨rfl, rfl⟩

end DLAF
