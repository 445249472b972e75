import Verif.Model.Triangular
import Verif.Lemmas.Adjoint
import Mathlib.Algebra.BigOperators.Group.List.Basic
import Mathlib.Tactic.FieldSimp
/- Triangular solver and multiplication: one proof for all variants. -/
namespace DLAF
variable {K : Type*} [Field K] [StarRing K]

/-- Tasks that each work on a group of tiles of their own. -/
theorem forM'_groups {E X : Type*} (xs : List X) (g : Nat × Nat → X) (b : Tiles E → X → Option (Tiles E)) (m0 v : Tiles E)
    (hnd : xs.Nodup)
    (hb : ∀ x ∈ xs, ∀ m : Tiles E, (∀ z, g z = x → m z = m0 z) → ∃ m', b m x = some m' ∧ (∀ z, g z = x → m' z = v z) ∧
      ∀ z, g z ≠ x → m' z = m z) :
    ∃ m1, forM' xs m0 b = some m1 ∧ (∀ z, g z ∈ xs → m1 z = v z) ∧ ∀ z, g z ∉ xs → m1 z = m0 z := by
  suffices H : ∀ (done ys : List X) (m : Tiles E), done ++ ys = xs → (∀ z, g z ∈ done → m z = v z) →
      (∀ z, g z ∉ done → m z = m0 z) → ∃ m1, forM' ys m b = some m1 ∧ (∀ z, g z ∈ xs → m1 z = v z) ∧
        ∀ z, g z ∉ xs → m1 z = m0 z by
    exact H [] xs m0 rfl (by simp) (by simp)
  intro done ys
  induction ys generalizing done with
  | nil =>
    intro m hd h1 h2
    rw [List.append_nil] at hd
    subst hd
    exact ⟨m, rfl, h1, h2⟩
  | cons y ys ih =>
    intro m hd h1 h2
    have hyd : y ∉ done := by
      intro hh
      rw [← hd] at hnd
      exact (List.nodup_append.1 hnd).2.2 y hh y List.mem_cons_self rfl
    obtain ⟨m', e1, e2, e3⟩ := hb y (by rw [← hd]; simp) m (fun z hz => h2 z (by rw [hz]; exact hyd))
    rw [forM'_cons, e1, Option.bind_some]
    refine ih (done ++ [y]) m' (by rw [← hd]; simp) ?_ ?_
    · intro z hz
      rw [List.mem_append, List.mem_singleton] at hz
      by_cases h : g z = y
      · exact e2 z h
      · rw [e3 z h]
        exact h1 z (by rcases hz with hz | hz; exact hz; exact absurd hz h)
    · intro z hz
      rw [List.mem_append, List.mem_singleton, not_or] at hz
      rw [e3 z hz.2]
      exact h2 z hz.1

/-- A loop with an invariant on what is done. -/
theorem forM'_list_inv {S X : Type*} {b : S → X → Option S} (xs : List X) (I : List X → S → Prop)
    (hstep : ∀ done x rest s, xs = done ++ x :: rest → I done s → ∃ s', b s x = some s' ∧ I (done ++ [x]) s')
    {s : S} (h0 : I [] s) : ∃ s', forM' xs s b = some s' ∧ I xs s' := by
  suffices H : ∀ (ys done : List X) (s : S), xs = done ++ ys → I done s → ∃ s', forM' ys s b = some s' ∧ I xs s' by
    exact H xs [] s rfl h0
  intro ys
  induction ys with
  | nil =>
    intro done s hd hI
    rw [List.append_nil] at hd
    subst hd
    exact ⟨s, rfl, hI⟩
  | cons y ys ih =>
    intro done s hd hI
    obtain ⟨s', e1, e2⟩ := hstep done y ys s hd hI
    rw [forM'_cons, e1, Option.bind_some]
    exact ih (done ++ [y]) s' (by rw [hd]; simp) e2

/-- An order in which the rows of tiles are treated: `later k` are the rows treated after `k`. -/
structure Order (ks : List Nat) (later : Nat → List Nat) (nt : Nat) : Prop where
  nodup : ks.Nodup
  mem : ∀ k, k ∈ ks ↔ k < nt
  later_nodup : ∀ k ∈ ks, (later k).Nodup
  split : ∀ done k rest, ks = done ++ k :: rest → ∀ i, i ∈ later k ↔ i ∈ rest

theorem upto_sorted (a b : Nat) : (upto a b).Pairwise (· < ·) := List.pairwise_lt_range'

theorem Order.up (nt : Nat) (later : Nat → List Nat) (h1 : ∀ k, (later k).Nodup)
    (h2 : ∀ k i, i ∈ later k ↔ k < i ∧ i < nt) : Order (upto 0 nt) later nt := by
  refine ⟨upto_nodup _ _, by intro k; simp, fun k _ => h1 k, ?_⟩
  intro done k rest hs i
  have hp := upto_sorted 0 nt
  rw [hs, List.pairwise_append, List.pairwise_cons] at hp
  have hm : ∀ x, x ∈ done ++ k :: rest ↔ x < nt := by intro x; rw [← hs]; simp
  rw [h2]
  constructor
  · rintro ⟨h3, h4⟩
    have := (hm i).2 h4
    rw [List.mem_append, List.mem_cons] at this
    rcases this with h | h | h
    · have := hp.2.2 i h k List.mem_cons_self; omega
    · omega
    · exact h
  · intro h
    exact ⟨hp.2.1.1 i h, (hm i).1 (by simp [h])⟩

theorem Order.down (nt : Nat) (later : Nat → List Nat) (h1 : ∀ k, (later k).Nodup)
    (h2 : ∀ k i, i ∈ later k ↔ i < k) : Order (downto nt 0) later nt := by
  refine ⟨List.nodup_reverse.2 (upto_nodup _ _), by intro k; simp, fun k _ => h1 k, ?_⟩
  intro done k rest hs i
  have hp : (downto nt 0).Pairwise (fun a b => b < a) := List.pairwise_reverse.2 (upto_sorted 0 nt)
  rw [hs, List.pairwise_append, List.pairwise_cons] at hp
  have hm : ∀ x, x ∈ done ++ k :: rest ↔ x < nt := by intro x; rw [← hs]; simp
  rw [h2]
  constructor
  · intro h3
    have := (hm i).2 (by have := (hm k).1 (by simp); omega)
    rw [List.mem_append, List.mem_cons] at this
    rcases this with h | h | h
    · have := hp.2.2 i h k List.mem_cons_self; omega
    · omega
    · exact h
  · intro h
    exact hp.2.1.1 i h

/-- The loop of the left triangular solver. -/
def genSolve (ks js : List Nat) (later : Nat → List Nat) (T : Nat → Blk K → Option (Blk K))
    (G : Nat → Nat → Blk K → Blk K → Option (Blk K)) (b : Tiles K) : Option (Tiles K) :=
  forM' ks b fun b k => forM' js b fun b j => do
    let b ← b.write (k, j) (T k (b (k, j)))
    forM' (later k) b fun b i => b.write (i, j) (G i k (b (k, j)) (b (i, j)))

/-- The loop of the left triangular multiplication. -/
def genMult (ks js : List Nat) (later : Nat → List Nat) (T : Nat → Blk K → Option (Blk K))
    (G : Nat → Nat → Blk K → Blk K → Option (Blk K)) (b : Tiles K) : Option (Tiles K) :=
  forM' ks b fun b k => forM' js b fun b j => do
    let b ← forM' (later k) b fun b i => b.write (i, j) (G i k (b (k, j)) (b (i, j)))
    b.write (k, j) (T k (b (k, j)))

omit [Field K] [StarRing K] in
/-- One iteration over `k` of the solver. -/
theorem solve_step {js : List Nat} {k n : Nat} {lk : List Nat} (hjs : js.Nodup) (hj : ∀ j, j ∈ js ↔ j < n)
    (hlk : lk.Nodup) (hk : k ∉ lk) {T : Blk K → Option (Blk K)} {G : Nat → Blk K → Blk K → Option (Blk K)} {b : Tiles K}
    {X : Nat → Blk K} {Y : Nat → Nat → Blk K} (hT : ∀ j < n, T (b (k, j)) = some (X j))
    (hG : ∀ i ∈ lk, ∀ j < n, G i (X j) (b (i, j)) = some (Y i j)) :
    ∃ b', (forM' js b fun b j => do
        let b ← b.write (k, j) (T (b (k, j)))
        forM' lk b fun b i => b.write (i, j) (G i (b (k, j)) (b (i, j)))) = some b' ∧
      (∀ j < n, b' (k, j) = X j) ∧ (∀ i ∈ lk, ∀ j < n, b' (i, j) = Y i j) ∧
      ∀ i j, (n ≤ j ∨ (i ≠ k ∧ i ∉ lk)) → b' (i, j) = b (i, j) := by
  obtain ⟨v, hv⟩ : ∃ v : Tiles K, v = fun z => if z.1 = k then X z.2 else if z.1 ∈ lk then Y z.1 z.2 else b z := ⟨_, rfl⟩
  obtain ⟨b', h1, h2, h3⟩ := forM'_groups js (fun z => z.2) (fun b j => do
        let b ← b.write (k, j) (T (b (k, j)))
        forM' lk b fun b i => b.write (i, j) (G i (b (k, j)) (b (i, j)))) b v hjs (by
    intro j hjm m hm
    have hjn := (hj j).1 hjm
    have hTm : T (m (k, j)) = some (X j) := by rw [hm (k, j) rfl]; exact hT j hjn
    obtain ⟨m1, hm1⟩ : ∃ m1 : Tiles K, m1 = fun z => if z = (k, j) then X j else m z := ⟨_, rfl⟩
    obtain ⟨m2, e1, e2, e3⟩ := forM'_indep lk (fun i => (i, j)) (fun i b => G i (b (k, j)) (b (i, j))) m1
      (fun i => Y i j) hlk (by intro x _ y _ h; exact (Prod.mk.inj h).1) (by
        intro i hi m' hm'
        have g1 : m' (k, j) = X j := by
          rw [hm' (k, j) (by intro y hy _ h; exact hk ((Prod.mk.inj h).1 ▸ hy)), hm1]; simp
        have g2 : m' (i, j) = b (i, j) := by
          rw [hm' (i, j) (by intro y _ hne h; exact hne (Prod.mk.inj h).1.symm), hm1]
          have : i ≠ k := fun e => hk (e ▸ hi)
          simp only [Prod.mk.injEq, this, false_and, if_false]
          exact hm (i, j) rfl
        show G i (m' (k, j)) (m' (i, j)) = _
        rw [g1, g2]
        exact hG i hi j hjn)
    refine ⟨m2, ?_, ?_, ?_⟩
    · show (m.write (k, j) (T (m (k, j)))).bind _ = _
      rw [hTm, write_eq, Option.bind_some, ← hm1]
      exact e1
    · rintro ⟨i, j'⟩ rfl
      rw [hv]
      simp only
      by_cases hik : i = k
      · subst hik
        rw [if_pos rfl, e3 (i, j') (by intro y hy h; exact hk ((Prod.mk.inj h).1 ▸ hy)), hm1]
        simp
      · rw [if_neg hik]
        by_cases hil : i ∈ lk
        · rw [if_pos hil]; exact e2 i hil
        · rw [if_neg hil, e3 (i, j') (by intro y hy h; exact hil ((Prod.mk.inj h).1 ▸ hy)), hm1]
          simp only [Prod.mk.injEq, hik, false_and, if_false]
          exact hm (i, j') rfl
    · rintro ⟨i, j'⟩ hne
      rw [e3 (i, j') (by intro y hy h; exact hne (Prod.mk.inj h).2), hm1]
      have : j' ≠ j := hne
      simp [this])
  refine ⟨b', h1, ?_, ?_, ?_⟩
  · intro j hjn
    rw [h2 (k, j) ((hj j).2 hjn), hv]; simp
  · intro i hi j hjn
    have : i ≠ k := fun e => hk (e ▸ hi)
    rw [h2 (i, j) ((hj j).2 hjn), hv]; simp [this, hi]
  · intro i j hc
    by_cases hjn : j < n
    · rw [h2 (i, j) ((hj j).2 hjn), hv]
      have hc' : i ≠ k ∧ i ∉ lk := by rcases hc with h | h; omega; exact h
      simp [hc'.1, hc'.2]
    · exact h3 (i, j) (fun h => hjn ((hj j).1 h))

omit [Field K] [StarRing K] in
/-- One iteration over `k` of the multiplication. -/
theorem mult_step {js : List Nat} {k n : Nat} {lk : List Nat} (hjs : js.Nodup) (hj : ∀ j, j ∈ js ↔ j < n)
    (hlk : lk.Nodup) (hk : k ∉ lk) {T : Blk K → Option (Blk K)} {G : Nat → Blk K → Blk K → Option (Blk K)} {b : Tiles K}
    {X : Nat → Blk K} {Y : Nat → Nat → Blk K} (hT : ∀ j < n, T (b (k, j)) = some (X j))
    (hG : ∀ i ∈ lk, ∀ j < n, G i (b (k, j)) (b (i, j)) = some (Y i j)) :
    ∃ b', (forM' js b fun b j => do
        let b ← forM' lk b fun b i => b.write (i, j) (G i (b (k, j)) (b (i, j)))
        b.write (k, j) (T (b (k, j)))) = some b' ∧
      (∀ j < n, b' (k, j) = X j) ∧ (∀ i ∈ lk, ∀ j < n, b' (i, j) = Y i j) ∧
      ∀ i j, (n ≤ j ∨ (i ≠ k ∧ i ∉ lk)) → b' (i, j) = b (i, j) := by
  obtain ⟨v, hv⟩ : ∃ v : Tiles K, v = fun z => if z.1 = k then X z.2 else if z.1 ∈ lk then Y z.1 z.2 else b z := ⟨_, rfl⟩
  obtain ⟨b', h1, h2, h3⟩ := forM'_groups js (fun z => z.2) (fun b j => do
        let b ← forM' lk b fun b i => b.write (i, j) (G i (b (k, j)) (b (i, j)))
        b.write (k, j) (T (b (k, j)))) b v hjs (by
    intro j hjm m hm
    have hjn := (hj j).1 hjm
    obtain ⟨m2, e1, e2, e3⟩ := forM'_indep lk (fun i => (i, j)) (fun i b => G i (b (k, j)) (b (i, j))) m
      (fun i => Y i j) hlk (by intro x _ y _ h; exact (Prod.mk.inj h).1) (by
        intro i hi m' hm'
        have g1 : m' (k, j) = b (k, j) := by
          rw [hm' (k, j) (by intro y hy _ h; exact hk ((Prod.mk.inj h).1 ▸ hy))]; exact hm (k, j) rfl
        have g2 : m' (i, j) = b (i, j) := by
          rw [hm' (i, j) (by intro y _ hne h; exact hne (Prod.mk.inj h).1.symm)]
          exact hm (i, j) rfl
        show G i (m' (k, j)) (m' (i, j)) = _
        rw [g1, g2]
        exact hG i hi j hjn)
    have hkj : m2 (k, j) = b (k, j) := by
      rw [e3 (k, j) (by intro y hy h; exact hk ((Prod.mk.inj h).1 ▸ hy))]; exact hm (k, j) rfl
    refine ⟨fun z => if z = (k, j) then X j else m2 z, ?_, ?_, ?_⟩
    · show (forM' lk m fun b i => b.write (i, j) (G i (b (k, j)) (b (i, j)))).bind _ = _
      rw [e1, Option.bind_some, hkj, hT j hjn, write_eq]
    · rintro ⟨i, j'⟩ rfl
      rw [hv]
      simp only
      by_cases hik : i = k
      · subst hik; simp
      · rw [if_neg hik]
        simp only [Prod.mk.injEq, hik, false_and, if_false]
        by_cases hil : i ∈ lk
        · rw [if_pos hil]; exact e2 i hil
        · rw [if_neg hil, e3 (i, j') (by intro y hy h; exact hil ((Prod.mk.inj h).1 ▸ hy))]
          exact hm (i, j') rfl
    · rintro ⟨i, j'⟩ hne
      have : j' ≠ j := hne
      simp only [Prod.mk.injEq, this, and_false, if_false]
      rw [e3 (i, j') (by intro y hy h; exact hne (Prod.mk.inj h).2)])
  refine ⟨b', h1, ?_, ?_, ?_⟩
  · intro j hjn
    rw [h2 (k, j) ((hj j).2 hjn), hv]; simp
  · intro i hi j hjn
    have : i ≠ k := fun e => hk (e ▸ hi)
    rw [h2 (i, j) ((hj j).2 hjn), hv]; simp [this, hi]
  · intro i j hc
    by_cases hjn : j < n
    · rw [h2 (i, j) ((hj j).2 hjn), hv]
      have hc' : i ≠ k ∧ i ∉ lk := by rcases hc with h | h; omega; exact h
      simp [hc'.1, hc'.2]
    · exact h3 (i, j) (fun h => hjn ((hj j).1 h))

/-- The order of the multiplication: `upd k` are the rows treated before `k`. -/
structure OrderB (ks : List Nat) (upd : Nat → List Nat) (nt : Nat) : Prop where
  nodup : ks.Nodup
  mem : ∀ k, k ∈ ks ↔ k < nt
  upd_nodup : ∀ k ∈ ks, (upd k).Nodup
  split : ∀ done k rest, ks = done ++ k :: rest → ∀ i, i ∈ upd k ↔ i ∈ done

theorem OrderB.up (nt : Nat) (upd : Nat → List Nat) (h1 : ∀ k, (upd k).Nodup)
    (h2 : ∀ k i, i ∈ upd k ↔ i < k) : OrderB (upto 0 nt) upd nt := by
  refine ⟨upto_nodup _ _, by intro k; simp, fun k _ => h1 k, ?_⟩
  intro done k rest hs i
  have hp := upto_sorted 0 nt
  rw [hs, List.pairwise_append, List.pairwise_cons] at hp
  have hm : ∀ x, x ∈ done ++ k :: rest ↔ x < nt := by intro x; rw [← hs]; simp
  rw [h2]
  constructor
  · intro h3
    have := (hm i).2 (by have := (hm k).1 (by simp); omega)
    rw [List.mem_append, List.mem_cons] at this
    rcases this with h | h | h
    · exact h
    · omega
    · have := hp.2.1.1 i h; omega
  · intro h
    exact hp.2.2 i h k List.mem_cons_self

theorem OrderB.down (nt : Nat) (upd : Nat → List Nat) (h1 : ∀ k, (upd k).Nodup)
    (h2 : ∀ k i, i ∈ upd k ↔ k < i ∧ i < nt) : OrderB (downto nt 0) upd nt := by
  refine ⟨List.nodup_reverse.2 (upto_nodup _ _), by intro k; simp, fun k _ => h1 k, ?_⟩
  intro done k rest hs i
  have hp : (downto nt 0).Pairwise (fun a b => b < a) := List.pairwise_reverse.2 (upto_sorted 0 nt)
  rw [hs, List.pairwise_append, List.pairwise_cons] at hp
  have hm : ∀ x, x ∈ done ++ k :: rest ↔ x < nt := by intro x; rw [← hs]; simp
  rw [h2]
  constructor
  · rintro ⟨h3, h4⟩
    have := (hm i).2 h4
    rw [List.mem_append, List.mem_cons] at this
    rcases this with h | h | h
    · exact h
    · omega
    · have := hp.2.1.1 i h; omega
  · intro h
    exact ⟨hp.2.2 i h k List.mem_cons_self, (hm i).1 (by simp [h])⟩

/-- Row `r` of block `(i, l)` of `M` times column `c` of tile `(l, j)` of `b`. -/
def rowCol (M : Nat → Nat → Nat → Nat → K) (rs : Nat → Nat) (b : Tiles K) (i l j r c : Nat) : K :=
  ∑ e ∈ Finset.range (rs l), M i l r e * (b (l, j)).e e c

omit [StarRing K] in
theorem list_sum_all {ks : List Nat} {nt : Nat} (h1 : ks.Nodup) (h2 : ∀ k, k ∈ ks ↔ k < nt) (f : Nat → K) :
    (ks.map f).sum = ∑ l ∈ Finset.range nt, f l := by
  rw [← List.sum_toFinset f h1]
  refine Finset.sum_congr ?_ fun _ _ => rfl
  ext x
  simp [h2]

omit [StarRing K] in
theorem list_sum_congr {ks : List Nat} {f g : Nat → K} (h : ∀ k ∈ ks, f k = g k) : (ks.map f).sum = (ks.map g).sum := by
  rw [List.map_congr_left h]

omit [StarRing K] in
theorem list_sum_zero {ks : List Nat} {f : Nat → K} (h : ∀ k ∈ ks, f k = 0) : (ks.map f).sum = 0 := by
  rw [List.map_congr_left h]; simp

omit [StarRing K] in
/-- The solver solves `M X = alpha B`. -/
theorem genSolve_spec {ks js : List Nat} {later : Nat → List Nat} {T : Nat → Blk K → Option (Blk K)}
    {G : Nat → Nat → Blk K → Blk K → Option (Blk K)} {nt n : Nat} {rs cs : Nat → Nat}
    {M : Nat → Nat → Nat → Nat → K} {alpha beta : K} (ord : Order ks later nt) (hjs : js.Nodup)
    (hj : ∀ j, j ∈ js ↔ j < n) (hbeta : alpha ≠ 0 → beta = -1 / alpha)
    (hT : ∀ k < nt, ∀ x : Blk K, x.rows = rs k → ∃ f, T k x = some ⟨rs k, x.cols, f⟩ ∧
      (∀ r < rs k, ∀ c < x.cols, ∑ e ∈ Finset.range (rs k), M k k r e * f e c = alpha * x.e r c) ∧
      (alpha = 0 → ∀ r < rs k, ∀ c < x.cols, f r c = 0))
    (hG : ∀ k < nt, ∀ i ∈ later k, ∀ x y : Blk K, x.rows = rs k → y.rows = rs i → x.cols = y.cols →
      ∃ f, G i k x y = some ⟨rs i, y.cols, f⟩ ∧ ∀ r < rs i, ∀ c < y.cols,
        f r c = beta * ∑ e ∈ Finset.range (rs k), M i k r e * x.e e c + y.e r c)
    (hM : ∀ k < nt, ∀ l ∈ later k, ∀ r < rs k, ∀ e < rs l, M k l r e = 0)
    {b : Tiles K} (hs : Shaped b rs cs nt n) :
    ∃ b', genSolve ks js later T G b = some b' ∧ Shaped b' rs cs nt n ∧
      ∀ i < nt, ∀ j < n, ∀ r < rs i, ∀ c < cs j,
        ∑ l ∈ Finset.range nt, rowCol M rs b' i l j r c = alpha * (b (i, j)).e r c := by
  obtain ⟨b', h1, h2, h3, -, -⟩ := forM'_list_inv (b := fun b k => forM' js b fun b j => do
      let b ← b.write (k, j) (T k (b (k, j)))
      forM' (later k) b fun b i => b.write (i, j) (G i k (b (k, j)) (b (i, j)))) ks
    (fun done s => Shaped s rs cs nt n ∧
      (∀ i ∈ done, ∀ j < n, ∀ r < rs i, ∀ c < cs j,
        (done.map fun l => rowCol M rs s i l j r c).sum = alpha * (b (i, j)).e r c) ∧
      (alpha = 0 → ∀ i ∈ done, ∀ j < n, ∀ r < rs i, ∀ c < cs j, (s (i, j)).e r c = 0) ∧
      (∀ i < nt, i ∉ done → ∀ j < n, ∀ r < rs i, ∀ c < cs j,
        alpha * (s (i, j)).e r c = alpha * (b (i, j)).e r c - (done.map fun l => rowCol M rs s i l j r c).sum))
    (by
      rintro done k rest s hks ⟨i1, i2, i3, i4⟩
      have hnd := ord.nodup
      rw [hks] at hnd
      have hkm : k ∈ ks := by rw [hks]; simp
      have hk := (ord.mem k).1 hkm
      have hkd : k ∉ done := fun h => (List.nodup_append.1 hnd).2.2 k h k List.mem_cons_self rfl
      have hkr : k ∉ rest := (List.nodup_cons.1 (List.nodup_append.1 hnd).2.1).1
      have hl := ord.split done k rest hks
      have hdn : ∀ i ∈ done, i < nt := fun i hi => (ord.mem i).1 (by rw [hks]; simp [hi])
      have hrn : ∀ i ∈ rest, i < nt := fun i hi => (ord.mem i).1 (by rw [hks]; simp [hi])
      have hdr : ∀ i ∈ done, i ∉ rest := fun i h1 h2 =>
        (List.nodup_append.1 hnd).2.2 i h1 i (List.mem_cons_of_mem _ h2) rfl
      -- what the kernels compute
      have hX : ∀ j, ∃ f, j < n → T k (s (k, j)) = some ⟨rs k, cs j, f⟩ ∧
          (∀ r < rs k, ∀ c < cs j, ∑ e ∈ Finset.range (rs k), M k k r e * f e c = alpha * (s (k, j)).e r c) ∧
          (alpha = 0 → ∀ r < rs k, ∀ c < cs j, f r c = 0) := by
        intro j
        by_cases hjn : j < n
        · have hd := i1 k hk j hjn
          obtain ⟨f, a1, a2, a3⟩ := hT k hk (s (k, j)) hd.1
          rw [hd.2] at a1 a2 a3
          exact ⟨f, fun _ => ⟨a1, a2, a3⟩⟩
        · exact ⟨fun _ _ => 0, fun h => absurd h hjn⟩
      choose X hX using hX
      have hY : ∀ i j, ∃ f, i ∈ later k → j < n → G i k ⟨rs k, cs j, X j⟩ (s (i, j)) = some ⟨rs i, cs j, f⟩ ∧
          ∀ r < rs i, ∀ c < cs j, f r c = beta * ∑ e ∈ Finset.range (rs k), M i k r e * X j e c + (s (i, j)).e r c := by
        intro i j
        by_cases hc : i ∈ later k ∧ j < n
        · have hd := i1 i (hrn i ((hl i).1 hc.1)) j hc.2
          obtain ⟨f, a1, a2⟩ := hG k hk i hc.1 ⟨rs k, cs j, X j⟩ (s (i, j)) rfl hd.1 hd.2.symm
          rw [hd.2] at a1 a2
          exact ⟨f, fun _ _ => ⟨a1, a2⟩⟩
        · exact ⟨fun _ _ => 0, fun h1 h2 => absurd ⟨h1, h2⟩ hc⟩
      choose Y hY using hY
      obtain ⟨s', e1, e2, e3, e4⟩ := solve_step (b := s) hjs hj (ord.later_nodup k hkm)
        (fun h => hkr ((hl k).1 h)) (T := T k) (G := fun i => G i k)
        (X := fun j => ⟨rs k, cs j, X j⟩) (Y := fun i j => ⟨rs i, cs j, Y i j⟩)
        (fun j hjn => (hX j hjn).1) (fun i hi j hjn => (hY i j hi hjn).1)
      have hdone : ∀ i ∈ done, ∀ j, s' (i, j) = s (i, j) := by
        intro i hi j
        exact e4 i j (Or.inr ⟨fun e => hkd (e ▸ hi), fun h => hdr i hi ((hl i).1 h)⟩)
      have hrow : ∀ i j r c, (done.map fun l => rowCol M rs s' i l j r c).sum =
          (done.map fun l => rowCol M rs s i l j r c).sum := by
        intro i j r c
        refine list_sum_congr fun l hl => ?_
        unfold rowCol
        rw [hdone l hl]
      have hrowk : ∀ i j r c, j < n → rowCol M rs s' i k j r c = ∑ e ∈ Finset.range (rs k), M i k r e * X j e c := by
        intro i j r c hjn
        unfold rowCol
        rw [e2 j hjn]
      refine ⟨s', e1, ?_, ?_, ?_, ?_⟩
      · intro i hi j hjn
        by_cases h1 : i = k
        · subst h1; rw [e2 j hjn]; exact ⟨rfl, rfl⟩
        · by_cases h2 : i ∈ later k
          · rw [e3 i h2 j hjn]; exact ⟨rfl, rfl⟩
          · rw [e4 i j (Or.inr ⟨h1, h2⟩)]; exact i1 i hi j hjn
      · intro i hi j hjn r hr c hc
        rw [List.map_append, List.sum_append, hrow, List.map_singleton, List.sum_singleton, hrowk i j r c hjn]
        rw [List.mem_append, List.mem_singleton] at hi
        rcases hi with hi | hi
        · have hz : ∑ e ∈ Finset.range (rs k), M i k r e * X j e c = 0 := by
            refine Finset.sum_eq_zero fun e he => ?_
            rw [Finset.mem_range] at he
            obtain ⟨d1, d2, hd⟩ := List.append_of_mem hi
            have hki : k ∈ later i := by
              rw [ord.split d1 i (d2 ++ k :: rest) (by rw [hks, hd]; simp)]
              simp
            rw [hM i (hdn i hi) k hki r hr e he, zero_mul]
          rw [hz, add_zero]
          exact i2 i hi j hjn r hr c hc
        · subst hi
          rw [(hX j hjn).2.1 r hr c hc, i4 i hk hkd j hjn r hr c hc]
          ring
      · intro h0 i hi j hjn r hr c hc
        rw [List.mem_append, List.mem_singleton] at hi
        rcases hi with hi | hi
        · rw [hdone i hi]; exact i3 h0 i hi j hjn r hr c hc
        · subst hi
          rw [e2 j hjn]
          exact (hX j hjn).2.2 h0 r hr c hc
      · intro i hi hid j hjn r hr c hc
        rw [List.mem_append, List.mem_singleton, not_or] at hid
        have hil : i ∈ later k := by
          rw [hl]
          have := (ord.mem i).2 hi
          rw [hks, List.mem_append, List.mem_cons] at this
          rcases this with h | h | h
          · exact absurd h hid.1
          · exact absurd h hid.2
          · exact h
        rw [List.map_append, List.sum_append, hrow, List.map_singleton, List.sum_singleton, hrowk i j r c hjn,
          e3 i hil j hjn]
        show alpha * Y i j r c = _
        rw [(hY i j hil hjn).2 r hr c hc, mul_add, i4 i hi hid.1 j hjn r hr c hc]
        by_cases h0 : alpha = 0
        · have hz : ∑ e ∈ Finset.range (rs k), M i k r e * X j e c = 0 := by
            refine Finset.sum_eq_zero fun e he => ?_
            rw [Finset.mem_range] at he
            rw [(hX j hjn).2.2 h0 e he c hc, mul_zero]
          rw [hz]; ring
        · rw [hbeta h0]
          field_simp
          ring)
    ⟨hs, by simp, by simp, by simp⟩
  refine ⟨b', h1, h2, ?_⟩
  intro i hi j hjn r hr c hc
  rw [← h3 i ((ord.mem i).2 hi) j hjn r hr c hc, list_sum_all ord.nodup ord.mem]

omit [StarRing K] in
/-- The multiplication computes `alpha M B`. -/
theorem genMult_spec {ks js : List Nat} {upd : Nat → List Nat} {T : Nat → Blk K → Option (Blk K)}
    {G : Nat → Nat → Blk K → Blk K → Option (Blk K)} {nt n : Nat} {rs cs : Nat → Nat}
    {M : Nat → Nat → Nat → Nat → K} {alpha : K} (ord : OrderB ks upd nt) (hjs : js.Nodup)
    (hj : ∀ j, j ∈ js ↔ j < n)
    (hT : ∀ k < nt, ∀ x : Blk K, x.rows = rs k → ∃ f, T k x = some ⟨rs k, x.cols, f⟩ ∧
      ∀ r < rs k, ∀ c < x.cols, f r c = alpha * ∑ e ∈ Finset.range (rs k), M k k r e * x.e e c)
    (hG : ∀ k < nt, ∀ i ∈ upd k, ∀ x y : Blk K, x.rows = rs k → y.rows = rs i → x.cols = y.cols →
      ∃ f, G i k x y = some ⟨rs i, y.cols, f⟩ ∧ ∀ r < rs i, ∀ c < y.cols,
        f r c = alpha * ∑ e ∈ Finset.range (rs k), M i k r e * x.e e c + y.e r c)
    (hM : ∀ k < nt, ∀ l ∈ upd k, ∀ r < rs k, ∀ e < rs l, M k l r e = 0)
    {b : Tiles K} (hs : Shaped b rs cs nt n) :
    ∃ b', genMult ks js upd T G b = some b' ∧ Shaped b' rs cs nt n ∧
      ∀ i < nt, ∀ j < n, ∀ r < rs i, ∀ c < cs j,
        (b' (i, j)).e r c = alpha * ∑ l ∈ Finset.range nt, rowCol M rs b i l j r c := by
  obtain ⟨b', h1, h2, h3, -⟩ := forM'_list_inv (b := fun b k => forM' js b fun b j => do
      let b ← forM' (upd k) b fun b i => b.write (i, j) (G i k (b (k, j)) (b (i, j)))
      b.write (k, j) (T k (b (k, j)))) ks
    (fun done s => Shaped s rs cs nt n ∧
      (∀ i ∈ done, ∀ j < n, ∀ r < rs i, ∀ c < cs j,
        (s (i, j)).e r c = alpha * (done.map fun l => rowCol M rs b i l j r c).sum) ∧
      (∀ i < nt, i ∉ done → ∀ j < n, s (i, j) = b (i, j)))
    (by
      rintro done k rest s hks ⟨i1, i2, i3⟩
      have hnd := ord.nodup
      rw [hks] at hnd
      have hkm : k ∈ ks := by rw [hks]; simp
      have hk := (ord.mem k).1 hkm
      have hkd : k ∉ done := fun h => (List.nodup_append.1 hnd).2.2 k h k List.mem_cons_self rfl
      have hl := ord.split done k rest hks
      have hdn : ∀ i ∈ done, i < nt := fun i hi => (ord.mem i).1 (by rw [hks]; simp [hi])
      have hX : ∀ j, ∃ f, j < n → T k (s (k, j)) = some ⟨rs k, cs j, f⟩ ∧
          (∀ r < rs k, ∀ c < cs j, f r c = alpha * ∑ e ∈ Finset.range (rs k), M k k r e * (b (k, j)).e e c) := by
        intro j
        by_cases hjn : j < n
        · have hd := i1 k hk j hjn
          obtain ⟨f, a1, a2⟩ := hT k hk (s (k, j)) hd.1
          rw [hd.2] at a1 a2
          rw [i3 k hk hkd j hjn] at a2
          exact ⟨f, fun _ => ⟨a1, a2⟩⟩
        · exact ⟨fun _ _ => 0, fun h => absurd h hjn⟩
      choose X hX using hX
      have hY : ∀ i j, ∃ f, i ∈ upd k → j < n → G i k (s (k, j)) (s (i, j)) = some ⟨rs i, cs j, f⟩ ∧
          ∀ r < rs i, ∀ c < cs j,
            f r c = alpha * ∑ e ∈ Finset.range (rs k), M i k r e * (b (k, j)).e e c + (s (i, j)).e r c := by
        intro i j
        by_cases hc : i ∈ upd k ∧ j < n
        · have hd := i1 i (hdn i ((hl i).1 hc.1)) j hc.2
          have hdk := i1 k hk j hc.2
          obtain ⟨f, a1, a2⟩ := hG k hk i hc.1 (s (k, j)) (s (i, j)) hdk.1 hd.1 (by rw [hd.2, hdk.2])
          rw [hd.2] at a1 a2
          rw [i3 k hk hkd j hc.2] at a2
          exact ⟨f, fun _ _ => ⟨a1, a2⟩⟩
        · exact ⟨fun _ _ => 0, fun h1 h2 => absurd ⟨h1, h2⟩ hc⟩
      choose Y hY using hY
      obtain ⟨s', e1, e2, e3, e4⟩ := mult_step (b := s) hjs hj (ord.upd_nodup k hkm)
        (fun h => hkd ((hl k).1 h)) (T := T k) (G := fun i => G i k)
        (X := fun j => ⟨rs k, cs j, X j⟩) (Y := fun i j => ⟨rs i, cs j, Y i j⟩)
        (fun j hjn => (hX j hjn).1) (fun i hi j hjn => (hY i j hi hjn).1)
      refine ⟨s', e1, ?_, ?_, ?_⟩
      · intro i hi j hjn
        by_cases h1 : i = k
        · subst h1; rw [e2 j hjn]; exact ⟨rfl, rfl⟩
        · by_cases h2 : i ∈ upd k
          · rw [e3 i h2 j hjn]; exact ⟨rfl, rfl⟩
          · rw [e4 i j (Or.inr ⟨h1, h2⟩)]; exact i1 i hi j hjn
      · intro i hi j hjn r hr c hc
        rw [List.map_append, List.sum_append, List.map_singleton, List.sum_singleton]
        rw [List.mem_append, List.mem_singleton] at hi
        rcases hi with hi | hi
        · rw [e3 i ((hl i).2 hi) j hjn]
          show Y i j r c = _
          rw [(hY i j ((hl i).2 hi) hjn).2 r hr c hc, i2 i hi j hjn r hr c hc, rowCol]
          ring
        · subst hi
          rw [e2 j hjn]
          show X j r c = _
          rw [(hX j hjn).2 r hr c hc, list_sum_zero, zero_add, rowCol]
          intro l hld
          refine Finset.sum_eq_zero fun e he => ?_
          rw [Finset.mem_range] at he
          rw [hM i hk l ((hl l).2 hld) r hr e he, zero_mul]
      · intro i hi hid j hjn
        rw [List.mem_append, List.mem_singleton, not_or] at hid
        rw [e4 i j (Or.inr ⟨hid.2, fun h => hid.1 ((hl i).1 h)⟩)]
        exact i3 i hi hid.1 j hjn)
    ⟨hs, by simp, by intro i _ _ j _; rfl⟩
  refine ⟨b', h1, h2, ?_⟩
  intro i hi j hjn r hr c hc
  rw [h3 i ((ord.mem i).2 hi) j hjn r hr c hc, list_sum_all ord.nodup ord.mem]

end DLAF
