import Verif.Model.Cholesky
import Verif.Lemmas.Tasks
import Mathlib.Tactic.LinearCombination
/- One iteration of the Cholesky factorization, and its invariant. -/
namespace DLAF
variable {K : Type*} [Field K] [StarRing K]

/-- What an iteration of `call_L` computes. -/
structure StepL (lp : Lapack K) (sz : Nat → Nat) (nt k : Nat) (m m' : Tiles K) (F : Nat → Nat → K) : Prop where
  diag : m' (k, k) = ⟨sz k, sz k, F⟩
  panel : ∀ i, k < i → i < nt → m' (i, k) =
    ⟨sz i, sz k, lp.trsm .Right .Lower .ConjTrans .NonUnit 1 ⟨sz k, sz k, F⟩ (m (i, k))⟩
  trail : ∀ j, k < j → ∀ i, j ≤ i → i < nt → (m' (i, j)).rows = sz i ∧ (m' (i, j)).cols = sz j ∧
    ∀ r c, (m' (i, j)).e r c = if i = j ∧ r < c then (m (i, j)).e r c else
      -1 * ∑ l ∈ Finset.range (sz k), (m' (i, k)).e r l * star ((m' (j, k)).e c l) + 1 * (m (i, j)).e r c
  rest : ∀ i j, (i < j ∨ j < k ∨ nt ≤ i) → (i, j) ≠ (k, k) → m' (i, j) = m (i, j)

theorem cholStepL_spec {lp : Lapack K} {sz : Nat → Nat} {nt k : Nat} {m : Tiles K} (hs : Shaped m sz sz nt nt)
    (hk : k < nt) {F : Nat → Nat → K} (hF : lp.potrf .Lower (m (k, k)) = some F) :
    ∃ m', cholStepL lp nt m k = some m' ∧ StepL lp sz nt k m m' F := by
  have hkk := hs k hk k hk
  have hp : potrfL lp (m (k, k)) = some ⟨sz k, sz k, F⟩ := by
    unfold potrfL Lapack.tilePotrf
    rw [if_pos (by rw [hkk.1, hkk.2]), hF, Option.map_some, hkk.1, hkk.2]
  -- after potrf
  obtain ⟨m1, hm1⟩ : ∃ m1 : Tiles K, m1 = fun z => if z = (k, k) then ⟨sz k, sz k, F⟩ else m z := ⟨_, rfl⟩
  have e11 : m1 (k, k) = ⟨sz k, sz k, F⟩ := by rw [hm1]; simp
  have e12 : ∀ z, z ≠ (k, k) → m1 z = m z := by intro z hz; rw [hm1]; simp [hz]
  -- after the panel
  obtain ⟨m2, h2, h2v, h2r⟩ := forM'_indep (upto (k + 1) nt) (fun i => (i, k))
    (fun i m => trsmL lp (m (k, k)) (m (i, k))) m1
    (fun i => ⟨sz i, sz k, lp.trsm .Right .Lower .ConjTrans .NonUnit 1 ⟨sz k, sz k, F⟩ (m (i, k))⟩)
    (upto_nodup _ _) (by intro x _ y _ h; exact (Prod.mk.inj h).1)
    (by
      intro i hi m' hm'
      rw [mem_upto] at hi
      have g1 : m' (k, k) = ⟨sz k, sz k, F⟩ := by
        rw [hm' (k, k) (by intro y hy _ h; rw [mem_upto] at hy; have := (Prod.mk.inj h).1; omega), e11]
      have g2 : m' (i, k) = m (i, k) := by
        rw [hm' (i, k) (by intro y _ hne h; exact hne (Prod.mk.inj h).1.symm),
          e12 _ (by intro h; have := (Prod.mk.inj h).1; omega)]
      have hd := hs i hi.2 k hk
      show trsmL lp (m' (k, k)) (m' (i, k)) = _
      rw [g1, g2]
      unfold trsmL Lapack.tileTrsm triSizes
      simp only [hd.1, hd.2, decide_true, Bool.and_self, if_true])
  -- trailing matrix
  have hbody : ∀ (m : Tiles K), ∀ j ∈ upto (k + 1) nt,
      ((m.write (j, j) (herkL (m (j, k)) (m (j, j)))).bind fun m =>
        forM' (upto (j + 1) nt) m fun m i => m.write (i, j) (gemmL (m (i, k)) (m (j, k)) (m (i, j)))) =
      forM' (upto j nt) m fun m i => m.write (i, j) (if i = j then herkL (m (j, k)) (m (j, j))
        else gemmL (m (i, k)) (m (j, k)) (m (i, j))) := by
    intro m j hj
    rw [mem_upto] at hj
    exact glue_loop hj.2 m (fun m => herkL (m (j, k)) (m (j, j)))
      (fun i m => gemmL (m (i, k)) (m (j, k)) (m (i, j))) (fun i => (i, j))
  have s2 : ∀ i, k < i → i < nt → m2 (i, k) =
      ⟨sz i, sz k, lp.trsm .Right .Lower .ConjTrans .NonUnit 1 ⟨sz k, sz k, F⟩ (m (i, k))⟩ := by
    intro i h1 h3; exact h2v i (by rw [mem_upto]; omega)
  have s2' : ∀ i j, j ≠ k → m2 (i, j) = m (i, j) := by
    intro i j hj
    rw [h2r (i, j) (by intro y _ h; exact hj (Prod.mk.inj h).2), e12 _ (by intro h; exact hj (Prod.mk.inj h).2)]
  obtain ⟨m3, h3, h3v, h3r⟩ := forM'_indep2 (upto (k + 1) nt) (fun j => upto j nt) (fun p => (p.2, p.1))
    (fun p m => if p.2 = p.1 then herkL (m (p.1, k)) (m (p.1, p.1))
      else gemmL (m (p.2, k)) (m (p.1, k)) (m (p.2, p.1))) m2
    (fun p => ⟨sz p.2, sz p.1, fun r c => if p.2 = p.1 ∧ r < c then (m (p.2, p.1)).e r c else
      -1 * ∑ l ∈ Finset.range (sz k), (m2 (p.2, k)).e r l * star ((m2 (p.1, k)).e c l) + 1 * (m (p.2, p.1)).e r c⟩)
    (upto_nodup _ _) (fun _ _ => upto_nodup _ _)
    (by intro x _ y _ x' _ y' _ h; exact ⟨(Prod.mk.inj h).2, (Prod.mk.inj h).1⟩)
    (by
      intro j hj i hi m' hm'
      rw [mem_upto] at hi hj
      have g1 : ∀ q, m' (q, k) = m2 (q, k) := by
        intro q
        refine hm' _ ?_
        intro x hx y _ _ h
        rw [mem_upto] at hx
        have := (Prod.mk.inj h).2
        simp only at this
        omega
      have g2 : m' (i, j) = m (i, j) := by
        rw [hm' (i, j) (by
          intro x _ y _ hne h
          exact hne (by rw [Prod.mk.injEq]; exact ⟨(Prod.mk.inj h).2.symm, (Prod.mk.inj h).1.symm⟩)), s2' i j (by omega)]
      have hd := hs i hi.2 j hj.2
      have hjk := s2 j (by omega) hj.2
      have hik := s2 i (by omega) hi.2
      by_cases hij : i = j
      · subst hij
        simp only [if_true, g1, g2]
        unfold herkL herk
        rw [if_pos (by rw [hd.1, hd.2, hik]; simp [Blk.op])]
        simp only [hd.1, hd.2, true_and]
        congr 2
        funext r c
        simp only [Blk.op, Blk.mul, hik]
        by_cases hrc : c ≤ r
        · simp [hrc, show ¬ r < c by omega]
        · simp [hrc, show r < c by omega]
      · simp only [hij, if_false, g1, g2]
        unfold gemmL gemm
        rw [if_pos (by rw [hd.1, hd.2, hik, hjk]; simp [Blk.op])]
        simp only [hd.1, hd.2, false_and, if_false]
        congr 2
        funext r c
        simp only [Blk.op, Blk.mul, hik])
  have h3k : ∀ i, m3 (i, k) = m2 (i, k) := by
    intro i
    refine h3r _ ?_
    intro x hx y _ h
    rw [mem_upto] at hx
    have := (Prod.mk.inj h).2
    simp only at this
    omega
  refine ⟨m3, ?_, ?_⟩
  · unfold cholStepL
    rw [hp, write_eq]
    show (forM' (upto (k + 1) nt) (fun z => if z = (k, k) then ⟨sz k, sz k, F⟩ else m z) _).bind _ = some m3
    rw [← hm1, h2]
    show forM' (upto (k + 1) nt) m2 _ = some m3
    rw [← h3]
    refine forM'_congr _ _ ?_
    intro s j hj
    exact hbody s j hj
  · constructor
    · rw [h3k, h2r (k, k) (by intro y hy h; rw [mem_upto] at hy; have := (Prod.mk.inj h).1; omega), e11]
    · intro i h1 h4
      rw [h3k, s2 i h1 h4]
    · intro j hj i hji hi
      have := h3v j (by rw [mem_upto]; omega) i (by rw [mem_upto]; omega)
      rw [show m3 (i, j) = _ from this]
      refine ⟨rfl, rfl, ?_⟩
      intro r c
      simp only [h3k]
    · intro i j hc hne
      have a1 : m3 (i, j) = m2 (i, j) := by
        refine h3r _ ?_
        intro x hx y hy h
        rw [mem_upto] at hx hy
        have h1 := (Prod.mk.inj h).1
        have h2 := (Prod.mk.inj h).2
        simp only at h1 h2
        omega
      have a2 : m2 (i, j) = m1 (i, j) := by
        refine h2r _ ?_
        intro y hy h
        rw [mem_upto] at hy
        have h1 := (Prod.mk.inj h).1
        have h2 := (Prod.mk.inj h).2
        omega
      rw [a1, a2, e12 _ hne]

/-- The sum in a `trsm` contract, for the conjugate transposed lower triangle. -/
theorem sum_tri {n c : Nat} (hc : c < n) (x : Nat → K) (a : Blk K) :
    ∑ l ∈ Finset.range n, x l * ((a.tri .Lower .NonUnit).op .ConjTrans).e l c =
      ∑ l ∈ Finset.range (c + 1), x l * star (a.e c l) := by
  have hsub : Finset.range (c + 1) ⊆ Finset.range n := by
    intro y hy; rw [Finset.mem_range] at *; omega
  rw [← Finset.sum_subset hsub]
  · refine Finset.sum_congr rfl ?_
    intro l hl
    rw [Finset.mem_range] at hl
    simp only [Blk.op, Blk.tri]
    by_cases h : c = l
    · simp [h]
    · simp [h, show l < c by omega]
  · intro l _ hl
    rw [Finset.mem_range] at hl
    simp only [Blk.op, Blk.tri]
    simp [show c ≠ l by omega, show ¬ l < c by omega]

/-- Invariant of `call_L`: columns of tiles before `k` hold the factor, the others the Schur complement. -/
structure InvL (pos : K → Prop) (sz : Nat → Nat) (nt : Nat) (m0 : Tiles K) (k : Nat) (m : Tiles K) : Prop where
  shape : Shaped m sz sz nt nt
  upper : ∀ i j, i < j → m (i, j) = m0 (i, j)
  udiag : ∀ i < nt, ∀ r < sz i, ∀ c < sz i, r < c → (m (i, i)).e r c = (m0 (i, i)).e r c
  done : ∀ j < k, ∀ i, j ≤ i → i < nt → ∀ r < sz i, ∀ c < sz j, (i = j → c ≤ r) →
    (m0 (i, j)).e r c = ∑ p ∈ Finset.range j, ∑ l ∈ Finset.range (sz p), (m (i, p)).e r l * star ((m (j, p)).e c l)
      + ∑ l ∈ Finset.range (c + 1), (m (i, j)).e r l * star ((m (j, j)).e c l)
  pos : ∀ j < k, ∀ r < sz j, pos ((m (j, j)).e r r)
  trail : ∀ j, k ≤ j → ∀ i, j ≤ i → i < nt → ∀ r < sz i, ∀ c < sz j, (i = j → c ≤ r) →
    (m (i, j)).e r c = (m0 (i, j)).e r c -
      ∑ p ∈ Finset.range k, ∑ l ∈ Finset.range (sz p), (m (i, p)).e r l * star ((m (j, p)).e c l)

theorem InvL.init {pos : K → Prop} {sz : Nat → Nat} {nt : Nat} {m : Tiles K} (hs : Shaped m sz sz nt nt) :
    InvL pos sz nt m 0 m :=
  ⟨hs, fun _ _ _ => rfl, fun _ _ _ _ _ _ _ => rfl, by simp, by simp, by simp⟩

theorem InvL.step {lp : Lapack K} {pos : K → Prop} (hl : LapackSpec lp pos) (hp : Positive pos) {sz : Nat → Nat}
    {nt k : Nat} {m0 m m' : Tiles K} (hk : k < nt) (inv : InvL pos sz nt m0 k m) {F : Nat → Nat → K}
    (hF : lp.potrf .Lower (m (k, k)) = some F) (st : StepL lp sz nt k m m' F) : InvL pos sz nt m0 (k + 1) m' := by
  have hkk := inv.shape k hk k hk
  have hch := hl.potrf_some .Lower (m (k, k)) F (by rw [hkk.1, hkk.2]) hF
  rw [hkk.1] at hch
  obtain ⟨⟨hpos, hfac⟩, hup⟩ := hch
  simp only at hfac
  -- tiles left of column k are not touched
  have hleft : ∀ i p, p < k → m' (i, p) = m (i, p) := by
    intro i p hpk
    exact st.rest i p (by omega) (by intro h; have := (Prod.mk.inj h).2; omega)
  have hsum : ∀ i j r c, ∑ p ∈ Finset.range k, ∑ l ∈ Finset.range (sz p), (m' (i, p)).e r l * star ((m' (j, p)).e c l) =
      ∑ p ∈ Finset.range k, ∑ l ∈ Finset.range (sz p), (m (i, p)).e r l * star ((m (j, p)).e c l) := by
    intro i j r c
    refine Finset.sum_congr rfl ?_
    intro p hpp
    rw [Finset.mem_range] at hpp
    rw [hleft i p hpp, hleft j p hpp]
  -- the panel solves the triangular systems
  have hpan : ∀ i, k < i → i < nt → ∀ r < sz i, ∀ c < sz k,
      ∑ l ∈ Finset.range (c + 1), (m' (i, k)).e r l * star (F c l) = (m (i, k)).e r c := by
    intro i h1 h2 r hr c hc
    have hd := inv.shape i h2 k hk
    have := hl.trsm_right .Lower .ConjTrans .NonUnit 1 ⟨sz k, sz k, F⟩ (m (i, k))
      ⟨rfl, Or.inr fun q hq => hp.ne_zero _ (hpos q hq)⟩ (by rw [hd.2]) r (by rw [hd.1]; exact hr) c (by rw [hd.2]; exact hc)
    rw [hd.2, sum_tri hc, one_mul] at this
    rw [st.panel i h1 h2]
    exact this
  refine ⟨?_, ?_, ?_, ?_, ?_, ?_⟩
  · intro i hi j hj
    rcases Nat.lt_trichotomy j k with h | h | h
    · rw [hleft i j h]; exact inv.shape i hi j hj
    · subst h
      rcases Nat.lt_trichotomy i j with h' | h' | h'
      · rw [st.rest i j (by omega) (by intro h; have := (Prod.mk.inj h).1; omega)]
        exact inv.shape i hi j hj
      · subst h'; rw [st.diag]; exact ⟨rfl, rfl⟩
      · rw [st.panel i h' hi]; exact ⟨rfl, rfl⟩
    · rcases Nat.lt_or_ge i j with h' | h'
      · rw [st.rest i j (by omega) (by intro h; have := (Prod.mk.inj h).1; have := (Prod.mk.inj h).2; omega)]
        exact inv.shape i hi j hj
      · have := st.trail j h i h' hi
        exact ⟨this.1, this.2.1⟩
  · intro i j hij
    rw [st.rest i j (by omega) (by intro h; have := (Prod.mk.inj h).1; have := (Prod.mk.inj h).2; omega)]
    exact inv.upper i j hij
  · intro i hi r hr c hc hrc
    rcases Nat.lt_trichotomy i k with h | h | h
    · rw [hleft i i h]; exact inv.udiag i hi r hr c hc hrc
    · subst h
      rw [st.diag]
      rw [← inv.udiag i hi r hr c hc hrc]
      exact hup r hr c hc (by simp only [inTri]; omega)
    · rw [(st.trail i h i (le_refl _) hi).2.2 r c, if_pos ⟨rfl, hrc⟩]
      exact inv.udiag i hi r hr c hc hrc
  · intro j hj i hji hi r hr c hc hd
    rcases Nat.lt_or_ge j k with h | h
    · rw [inv.done j h i hji hi r hr c hc hd, hleft i j h, hleft j j h]
      congr 1
      refine Finset.sum_congr rfl ?_
      intro p hpp
      rw [Finset.mem_range] at hpp
      rw [hleft i p (by omega), hleft j p (by omega)]
    · have hjk : j = k := by omega
      subst hjk
      have ht := inv.trail j (le_refl _) i hji hi r hr c hc hd
      rw [hsum]
      have hx : ∑ l ∈ Finset.range (c + 1), (m' (i, j)).e r l * star ((m' (j, j)).e c l) = (m (i, j)).e r c := by
        rw [st.diag]
        rcases Nat.lt_or_ge j i with h' | h'
        · exact hpan i h' hi r hr c hc
        · have : i = j := by omega
          subst this
          rw [st.diag]
          exact hfac r hr c (hd rfl)
      rw [hx, ht]
      ring
  · intro j hj r hr
    rcases Nat.lt_or_ge j k with h | h
    · rw [hleft j j h]; exact inv.pos j h r hr
    · have hjk : j = k := by omega
      subst hjk
      rw [st.diag]
      exact hpos r hr
  · intro j hj i hji hi r hr c hc hd
    have ht := inv.trail j (by omega) i hji hi r hr c hc hd
    have hnew := (st.trail j (by omega) i hji hi).2.2 r c
    rw [if_neg (by rintro ⟨h1, h2⟩; have := hd h1; omega)] at hnew
    rw [hnew, ht, Finset.sum_range_succ, hsum]
    ring

end DLAF
