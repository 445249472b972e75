import Verif.Spec.Kernels
import Mathlib.Algebra.BigOperators.Intervals
import Mathlib.Tactic.Ring
/- Loops of independent tile tasks, and sums over tiles. -/
namespace DLAF
section
variable {K : Type*}

@[simp] theorem forM'_nil {S X : Type*} (s : S) (b : S → X → Option S) : forM' [] s b = some s := rfl

theorem forM'_cons {S X : Type*} (x : X) (xs : List X) (s : S) (b : S → X → Option S) :
    forM' (x :: xs) s b = (b s x).bind fun s' => forM' xs s' b := by
  unfold forM'
  rw [List.foldlM_cons]
  rfl

theorem forM'_append {S X : Type*} (xs ys : List X) (s : S) (b : S → X → Option S) :
    forM' (xs ++ ys) s b = (forM' xs s b).bind fun s' => forM' ys s' b := by
  unfold forM'
  rw [List.foldlM_append]
  rfl

theorem forM'_flatMap {S X Y : Type*} (g : X → List Y) (b : S → Y → Option S) : ∀ (xs : List X) (s : S),
    forM' (xs.flatMap g) s b = forM' xs s fun s x => forM' (g x) s b
  | [], s => rfl
  | x :: xs, s => by
    rw [List.flatMap_cons, forM'_append, forM'_cons]
    congr 1
    funext s'
    exact forM'_flatMap g b xs s'

theorem forM'_map {S X Y : Type*} (g : X → Y) (b : S → Y → Option S) : ∀ (xs : List X) (s : S),
    forM' (xs.map g) s b = forM' xs s fun s x => b s (g x)
  | [], s => rfl
  | x :: xs, s => by
    rw [List.map_cons, forM'_cons, forM'_cons]
    congr 1
    funext s'
    exact forM'_map g b xs s'

theorem forM'_congr {S X : Type*} {b b' : S → X → Option S} : ∀ (xs : List X) (s : S), (∀ s, ∀ x ∈ xs, b s x = b' s x) →
    forM' xs s b = forM' xs s b'
  | [], _, _ => rfl
  | x :: xs, s, h => by
    rw [forM'_cons, forM'_cons, h s x List.mem_cons_self]
    congr 1
    funext s'
    exact forM'_congr xs s' fun s y hy => h s y (List.mem_cons_of_mem _ hy)

@[simp] theorem mem_upto {a b x : Nat} : x ∈ upto a b ↔ a ≤ x ∧ x < b := by
  unfold upto
  simp only [List.mem_range'_1]
  omega

theorem upto_nodup (a b : Nat) : (upto a b).Nodup := List.nodup_range'

theorem upto_succ {a b : Nat} (h : a ≤ b) : upto a (b + 1) = upto a b ++ [b] := by
  unfold upto
  rw [show b + 1 - a = (b - a) + 1 by omega, List.range'_concat]
  simp
  omega

theorem upto_self (a : Nat) : upto a a = [] := by simp [upto]

theorem upto_cons {a b : Nat} (h : a < b) : upto a b = a :: upto (a + 1) b := by
  unfold upto
  rw [show b - a = (b - (a + 1)) + 1 by omega, List.range'_succ]

@[simp] theorem mem_downto {a b x : Nat} : x ∈ downto b a ↔ a ≤ x ∧ x < b := by
  simp [downto]

/-- A loop with an invariant. -/
theorem forM'_inv {S : Type*} {b : S → Nat → Option S} {n : Nat} (I : Nat → S → Prop)
    (hstep : ∀ k < n, ∀ s, I k s → ∃ s', b s k = some s' ∧ I (k + 1) s') {s : S} (h0 : I 0 s) :
    ∃ s', forM' (upto 0 n) s b = some s' ∧ I n s' := by
  have key : ∀ k ≤ n, ∃ s', forM' (upto 0 k) s b = some s' ∧ I k s' := by
    intro k
    induction k with
    | zero => intro _; exact ⟨s, rfl, h0⟩
    | succ k ih =>
      intro hk
      obtain ⟨s', h1, h2⟩ := ih (by omega)
      obtain ⟨s'', h3, h4⟩ := hstep k (by omega) s' h2
      refine ⟨s'', ?_, h4⟩
      rw [upto_succ (by omega), forM'_append, h1, Option.bind_some, forM'_cons, h3]
      rfl
  exact key n (le_refl n)

/-- A loop with an invariant, given that it does not abort. -/
theorem forM'_inv_some {S : Type*} {b : S → Nat → Option S} {n : Nat} (I : Nat → S → Prop)
    (hstep : ∀ k < n, ∀ s s', I k s → b s k = some s' → I (k + 1) s') {s s1 : S} (h0 : I 0 s)
    (h : forM' (upto 0 n) s b = some s1) : I n s1 := by
  have key : ∀ k ≤ n, ∀ s', forM' (upto 0 k) s b = some s' → I k s' := by
    intro k
    induction k with
    | zero =>
      intro _ s' h
      simp only [upto_self, forM'_nil, Option.some.injEq] at h
      exact h ▸ h0
    | succ k ih =>
      intro hk s' h
      rw [upto_succ (by omega), forM'_append, Option.bind_eq_some_iff] at h
      obtain ⟨s2, h1, h2⟩ := h
      rw [forM'_cons, Option.bind_eq_some_iff] at h2
      obtain ⟨s3, h3, h4⟩ := h2
      simp only [forM'_nil, Option.some.injEq] at h4
      exact h4 ▸ hstep k (by omega) s2 s3 (ih (by omega) s2 h1) h3
  exact key n (le_refl n) s1 h

/-- Independent tasks: task `x` overwrites tile `w x`, and what it computes does not depend on the tiles the other
tasks write.  Then each tile gets what its task computes from the initial state. -/
theorem forM'_indep {X : Type*} (xs : List X) (w : X → Nat × Nat) (f : X → Tiles K → Option (Blk K)) (m0 : Tiles K)
    (v : X → Blk K) (hnd : xs.Nodup) (hinj : ∀ x ∈ xs, ∀ y ∈ xs, w x = w y → x = y)
    (hf : ∀ x ∈ xs, ∀ m : Tiles K, (∀ z, (∀ y ∈ xs, y ≠ x → z ≠ w y) → m z = m0 z) → f x m = some (v x)) :
    ∃ m1, forM' xs m0 (fun m x => m.write (w x) (f x m)) = some m1 ∧ (∀ x ∈ xs, m1 (w x) = v x) ∧
      ∀ z, (∀ x ∈ xs, z ≠ w x) → m1 z = m0 z := by
  suffices H : ∀ (done ys : List X) (m : Tiles K), (done ++ ys) = xs →
      (∀ x ∈ done, m (w x) = v x) → (∀ z, (∀ x ∈ done, z ≠ w x) → m z = m0 z) →
      ∃ m1, forM' ys m (fun m x => m.write (w x) (f x m)) = some m1 ∧ (∀ x ∈ xs, m1 (w x) = v x) ∧
        ∀ z, (∀ x ∈ xs, z ≠ w x) → m1 z = m0 z by
    exact H [] xs m0 rfl (by simp) (by simp)
  intro done ys
  induction ys generalizing done with
  | nil =>
    intro m hd h1 h2
    simp only [List.append_nil] at hd
    subst hd
    exact ⟨m, rfl, h1, h2⟩
  | cons y ys ih =>
    intro m hd h1 h2
    have hy : y ∈ xs := by rw [← hd]; simp
    have hyd : y ∉ done := by
      intro hh
      rw [← hd] at hnd
      exact (List.nodup_append.1 hnd).2.2 y hh y List.mem_cons_self rfl
    have hfy : f y m = some (v y) := by
      apply hf y hy m
      intro z hz
      apply h2 z
      intro x hx
      exact hz x (by rw [← hd]; simp [hx]) (fun e => hyd (e ▸ hx))
    rw [forM'_cons]
    simp only [Tiles.write, hfy, Option.map_some, Option.bind_some]
    refine ih (done ++ [y]) _ (by rw [← hd]; simp) ?_ ?_
    · intro x hx
      rw [List.mem_append, List.mem_singleton] at hx
      by_cases hxy : w x = w y
      · rw [if_pos hxy]
        have : x = y := hinj x (by rw [← hd]; rcases hx with h | h <;> simp [h]) y hy hxy
        rw [this]
      · rw [if_neg hxy]
        rcases hx with h | h
        · exact h1 x h
        · exact absurd (by rw [h]) hxy
    · intro z hz
      have : z ≠ w y := hz y (by simp)
      rw [if_neg this]
      exact h2 z fun x hx => hz x (by simp [hx])

/-- The same for a double loop. -/
theorem forM'_indep2 {X Y : Type*} (xs : List X) (ys : X → List Y) (w : X × Y → Nat × Nat)
    (f : X × Y → Tiles K → Option (Blk K)) (m0 : Tiles K)
    (v : X × Y → Blk K) (hnd : xs.Nodup) (hnd2 : ∀ x ∈ xs, (ys x).Nodup)
    (hinj : ∀ x ∈ xs, ∀ y ∈ ys x, ∀ x' ∈ xs, ∀ y' ∈ ys x', w (x, y) = w (x', y') → x = x' ∧ y = y')
    (hf : ∀ x ∈ xs, ∀ y ∈ ys x, ∀ m : Tiles K,
      (∀ z, (∀ x' ∈ xs, ∀ y' ∈ ys x', (x', y') ≠ (x, y) → z ≠ w (x', y')) → m z = m0 z) → f (x, y) m = some (v (x, y))) :
    ∃ m1, forM' xs m0 (fun m x => forM' (ys x) m fun m y => m.write (w (x, y)) (f (x, y) m)) = some m1 ∧
      (∀ x ∈ xs, ∀ y ∈ ys x, m1 (w (x, y)) = v (x, y)) ∧
      ∀ z, (∀ x ∈ xs, ∀ y ∈ ys x, z ≠ w (x, y)) → m1 z = m0 z := by
  have hmem : ∀ p : X × Y, p ∈ xs.flatMap (fun x => (ys x).map fun y => (x, y)) ↔ p.1 ∈ xs ∧ p.2 ∈ ys p.1 := by
    rintro ⟨x, y⟩
    simp only [List.mem_flatMap, List.mem_map, Prod.mk.injEq]
    constructor
    · rintro ⟨a, ha, b, hb, rfl, rfl⟩; exact ⟨ha, hb⟩
    · rintro ⟨h1, h2⟩; exact ⟨x, h1, y, h2, rfl, rfl⟩
  have hnd3 : (xs.flatMap (fun x => (ys x).map fun y => (x, y))).Nodup := by
    rw [List.nodup_flatMap]
    refine ⟨fun x hx => (hnd2 x hx).map fun a b h => (Prod.mk.inj h).2, ?_⟩
    refine hnd.imp ?_
    intro a b hab
    simp only [Function.onFun, List.disjoint_left, List.mem_map]
    rintro p ⟨y, _, rfl⟩ ⟨y', _, h⟩
    exact hab (Prod.mk.inj h).1.symm
  obtain ⟨m1, h1, h2, h3⟩ := forM'_indep (xs.flatMap (fun x => (ys x).map fun y => (x, y))) w f m0 v hnd3
    (by
      intro p hp q hq hpq
      obtain ⟨a, b⟩ := p; obtain ⟨c, d⟩ := q
      rw [hmem] at hp hq
      obtain ⟨e1, e2⟩ := hinj a hp.1 b hp.2 c hq.1 d hq.2 hpq
      rw [e1, e2])
    (by
      rintro ⟨a, b⟩ hp m hm
      rw [hmem] at hp
      refine hf a hp.1 b hp.2 m fun z hz => hm z ?_
      rintro ⟨c, d⟩ hq hne
      rw [hmem] at hq
      exact hz c hq.1 d hq.2 hne)
  refine ⟨m1, ?_, ?_, ?_⟩
  · rw [forM'_flatMap] at h1
    rw [← h1]
    refine forM'_congr _ _ ?_
    intro s x _
    rw [forM'_map]
  · intro x hx y hy
    exact h2 (x, y) ((hmem (x, y)).2 ⟨hx, hy⟩)
  · intro z hz
    refine h3 z ?_
    rintro ⟨x, y⟩ hp
    rw [hmem] at hp
    exact hz x hp.1 y hp.2

@[simp] theorem write_eq {m : Tiles K} {w : Nat × Nat} {b : Blk K} :
    m.write w (some b) = some (fun z => if z = w then b else m z) := rfl

theorem write_some {m m' : Tiles K} {w : Nat × Nat} {t : Option (Blk K)} (h : m.write w t = some m') :
    ∃ b, t = some b ∧ m' = fun z => if z = w then b else m z := by
  unfold Tiles.write at h
  rw [Option.map_eq_some_iff] at h
  obtain ⟨b, h1, h2⟩ := h
  exact ⟨b, h1, h2.symm⟩

/-- Gluing the body "tile (j, j), then tiles (i, j), i > j" into one loop over `i ≥ j`. -/
theorem glue_loop {nt j : Nat} (hj : j < nt) (m : Tiles K) (h : Tiles K → Option (Blk K))
    (g : Nat → Tiles K → Option (Blk K)) (w : Nat → Nat × Nat) :
    ((m.write (w j) (h m)).bind fun m => forM' (upto (j + 1) nt) m fun m i => m.write (w i) (g i m)) =
      forM' (upto j nt) m fun m i => m.write (w i) (if i = j then h m else g i m) := by
  rw [upto_cons hj, forM'_cons, if_pos rfl]
  congr 1
  funext m'
  refine forM'_congr _ _ ?_
  intro s i hi
  rw [mem_upto] at hi
  rw [if_neg (by omega)]

end

section
variable {K : Type*} [AddCommMonoid K]

theorem tileStart_succ (sz : Nat → Nat) (i : Nat) : tileStart sz (i + 1) = tileStart sz i + sz i :=
  Finset.sum_range_succ _ _

theorem tileStart_mono (sz : Nat → Nat) {i j : Nat} (h : i ≤ j) : tileStart sz i ≤ tileStart sz j := by
  induction j with
  | zero => rw [show i = 0 by omega]
  | succ j ih =>
    rcases Nat.lt_or_ge i (j + 1) with h' | h'
    · rw [tileStart_succ]
      have := ih (by omega)
      omega
    · rw [show i = j + 1 by omega]

/-- A sum over elements is a sum over tiles of sums over the elements of the tile. -/
theorem sum_tiles (sz : Nat → Nat) (n : Nat) (f : Nat → K) :
    ∑ x ∈ Finset.range (tileStart sz n), f x =
      ∑ i ∈ Finset.range n, ∑ l ∈ Finset.range (sz i), f (tileStart sz i + l) := by
  induction n with
  | zero => simp [tileStart]
  | succ n ih => rw [tileStart_succ, Finset.sum_range_add, ih, Finset.sum_range_succ]

/-- Every element is in exactly one tile. -/
theorem exists_tile (sz : Nat → Nat) {n x : Nat} (h : x < tileStart sz n) :
    ∃ i < n, ∃ r < sz i, x = tileStart sz i + r := by
  induction n with
  | zero => simp [tileStart] at h
  | succ n ih =>
    rw [tileStart_succ] at h
    rcases Nat.lt_or_ge x (tileStart sz n) with h' | h'
    · obtain ⟨i, hi, r, hr, e⟩ := ih h'
      exact ⟨i, by omega, r, hr, e⟩
    · exact ⟨n, by omega, x - tileStart sz n, by omega, by omega⟩

theorem tile_lt (sz : Nat → Nat) {n i r : Nat} (hi : i < n) (hr : r < sz i) : tileStart sz i + r < tileStart sz n := by
  have := tileStart_mono sz (show i + 1 ≤ n by omega)
  rw [tileStart_succ] at this
  omega

theorem tile_le_iff (sz : Nat → Nat) {i j r c : Nat} (hr : r < sz i) (hc : c < sz j) :
    tileStart sz j + c ≤ tileStart sz i + r ↔ j < i ∨ (j = i ∧ c ≤ r) := by
  constructor
  · intro h
    rcases Nat.lt_trichotomy j i with h' | h' | h'
    · exact Or.inl h'
    · subst h'; exact Or.inr ⟨rfl, by omega⟩
    · have := tileStart_mono sz (show i + 1 ≤ j by omega)
      rw [tileStart_succ] at this
      omega
  · rintro (h | ⟨rfl, h⟩)
    · have := tileStart_mono sz (show j + 1 ≤ i by omega)
      rw [tileStart_succ] at this
      omega
    · omega

/-- The tile that contains element `x`. -/
def tileIdx (sz : Nat → Nat) (n x : Nat) : Nat := ((Finset.range n).filter fun t => tileStart sz (t + 1) ≤ x).card

theorem tileIdx_eq (sz : Nat → Nat) {n i r : Nat} (hi : i < n) (hr : r < sz i) : tileIdx sz n (tileStart sz i + r) = i := by
  have : (Finset.range n).filter (fun t => tileStart sz (t + 1) ≤ tileStart sz i + r) = Finset.range i := by
    ext t
    simp only [Finset.mem_filter, Finset.mem_range]
    constructor
    · rintro ⟨_, h⟩
      by_contra hc
      have h1 := tileStart_mono sz (show i + 1 ≤ t + 1 by omega)
      rw [tileStart_succ sz i] at h1
      omega
    · intro h
      have := tileStart_mono sz (show t + 1 ≤ i by omega)
      exact ⟨by omega, by omega⟩
  rw [tileIdx, this, Finset.card_range]

/-- The matrix of elements held by tiles. -/
def elemOf {E : Type*} (m : Tiles E) (rs cs : Nat → Nat) (nr nc : Nat) : Nat → Nat → E := fun x y =>
  (m (tileIdx rs nr x, tileIdx cs nc y)).e (x - tileStart rs (tileIdx rs nr x)) (y - tileStart cs (tileIdx cs nc y))

theorem elemOf_eq {E : Type*} (m : Tiles E) (rs cs : Nat → Nat) {nr nc i j r c : Nat} (hi : i < nr) (hj : j < nc)
    (hr : r < rs i) (hc : c < cs j) :
    elemOf m rs cs nr nc (tileStart rs i + r) (tileStart cs j + c) = (m (i, j)).e r c := by
  unfold elemOf
  rw [tileIdx_eq rs hi hr, tileIdx_eq cs hj hc]
  simp

theorem elemOf_holds {E : Type*} (m : Tiles E) (rs cs : Nat → Nat) (nr nc : Nat) (sel : Nat → Nat → Prop) :
    HoldsOn m rs cs nr nc (elemOf m rs cs nr nc) sel :=
  fun _ hi _ hj _ hr _ hc _ => (elemOf_eq m rs cs hi hj hr hc).symm

end
end DLAF
