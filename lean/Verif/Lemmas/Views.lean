import Verif.Model.Views
import Verif.Lemmas.Tasks
import Mathlib.Algebra.BigOperators.Intervals
import Mathlib.Tactic.Linarith
/- Loops over windows of a matrix. -/
namespace DLAF
variable {K : Type*}

/-! ### consecutive intervals -/

/-- The intervals `[p.1, p.1 + p.2)` follow each other from `a` to `e`. -/
def Chain : Nat → Nat → List (Nat × Nat) → Prop
  | a, e, [] => a = e
  | a, e, p :: ps => p.1 = a ∧ Chain (a + p.2) e ps

theorem Chain.le {a e : Nat} {ps : List (Nat × Nat)} (h : Chain a e ps) : a ≤ e := by
  induction ps generalizing a with
  | nil => exact Nat.le_of_eq h
  | cons p ps ih => have := ih h.2; omega

theorem Chain.mem {a e : Nat} {ps : List (Nat × Nat)} (h : Chain a e ps) {p : Nat × Nat} (hp : p ∈ ps) :
    a ≤ p.1 ∧ p.1 + p.2 ≤ e := by
  induction ps generalizing a with
  | nil => simp at hp
  | cons q ps ih =>
    rcases List.mem_cons.1 hp with rfl | hp
    · have := h.2.le; have := h.1; omega
    · have := ih h.2 hp; omega

theorem Chain.flatMap {a e : Nat} {ps : List (Nat × Nat)} (h : Chain a e ps) :
    (ps.flatMap fun p => List.range' p.1 p.2) = List.range' a (e - a) := by
  induction ps generalizing a with
  | nil => have h' : a = e := h; subst h'; simp
  | cons p ps ih =>
    have h2 := h.2.le
    rw [List.flatMap_cons, ih h.2, h.1, show e - a = p.2 + (e - (a + p.2)) by omega, ← List.range'_append_1]

/-- Sums over the intervals. -/
theorem Chain.sum [AddCommMonoid K] {a e : Nat} {ps : List (Nat × Nat)} (h : Chain a e ps) (f : Nat → K) :
    (ps.map fun p => ∑ r ∈ Finset.range p.2, f (p.1 + r)).sum = ∑ x ∈ Finset.Ico a e, f x := by
  induction ps generalizing a with
  | nil => have h' : a = e := h; subst h'; simp
  | cons p ps ih =>
    rw [List.map_cons, List.sum_cons, ih h.2, h.1, ← Finset.sum_Ico_consecutive f (show a ≤ a + p.2 by omega) h.2.le,
      Finset.sum_Ico_eq_sum_range f a (a + p.2), Nat.add_sub_cancel_left]

theorem plain_chain {nb n : Nat} (hb : 0 < nb) : ∀ d i : Nat, i + d = (n + nb - 1) / nb →
    Chain (min (i * nb) n) n ((upto i (i + d)).map fun i => (i * nb, min nb (n - i * nb))) := by
  intro d
  have hceil : ∀ i, i < (n + nb - 1) / nb ↔ i * nb < n := by
    intro i
    rw [Nat.lt_iff_add_one_le, Nat.le_div_iff_mul_le hb, Nat.add_mul]
    omega
  induction d with
  | zero =>
    intro i hi
    rw [Nat.add_zero, upto_self]
    have : ¬ i * nb < n := fun h => by have := (hceil i).2 h; omega
    show min _ _ = _
    omega
  | succ d ih =>
    intro i hi
    have hlt : i * nb < n := (hceil i).1 (by omega)
    rw [upto_cons (by omega), List.map_cons]
    refine ⟨by dsimp only; omega, ?_⟩
    have := ih (i + 1) (by omega)
    rw [show i + (d + 1) = i + 1 + d by omega]
    convert this using 1
    rw [Nat.add_mul]
    dsimp only
    omega

/-- The tiles from row `off` on follow each other from `off` to the end of the matrix. -/
theorem pieces_chain {nb n off : Nat} (hb : 0 < nb) (ho : off < n) : Chain off n (pieces nb n off) := by
  have hdm := Nat.div_add_mod off nb
  have hml := Nat.mod_lt off hb
  have h1 : off / nb < (n + nb - 1) / nb := by
    rw [Nat.lt_iff_add_one_le, Nat.le_div_iff_mul_le hb, Nat.add_mul, Nat.mul_comm]
    omega
  obtain ⟨d, hd⟩ : ∃ d, (n + nb - 1) / nb = off / nb + 1 + d := ⟨(n + nb - 1) / nb - (off / nb + 1), by omega⟩
  unfold pieces
  rw [upto_cons h1, List.map_cons, if_pos rfl]
  refine ⟨by dsimp only; rw [Nat.mul_comm]; exact hdm, ?_⟩
  have hc := plain_chain (n := n) hb d (off / nb + 1) hd.symm
  have e : (upto (off / nb + 1) ((n + nb - 1) / nb)).map (fun i =>
      (i * nb + (if i = off / nb then off % nb else 0), min nb (n - i * nb) - (if i = off / nb then off % nb else 0))) =
      (upto (off / nb + 1) (off / nb + 1 + d)).map fun i => (i * nb, min nb (n - i * nb)) := by
    rw [hd]
    refine List.map_congr_left fun i hi => ?_
    rw [mem_upto] at hi
    rw [if_neg (by omega), Nat.add_zero, Nat.sub_zero]
  rw [e]
  convert hc using 1
  dsimp only
  rw [Nat.add_mul, Nat.mul_comm (off / nb) nb]
  omega

/-- Tiles from row 0. -/
theorem pieces_zero (nb n : Nat) : pieces nb n 0 = (upto 0 ((n + nb - 1) / nb)).map fun i => (i * nb, min nb (n - i * nb)) := by
  unfold pieces
  simp

theorem pieces_zero_chain {nb n : Nat} (hb : 0 < nb) : Chain 0 n (pieces nb n 0) := by
  rw [pieces_zero]
  have := plain_chain (n := n) hb ((n + nb - 1) / nb) 0 (by omega)
  simpa using this

theorem pieces_pos {nb n off : Nat} (hb : 0 < nb) {p : Nat × Nat} (hp : p ∈ pieces nb n off) (ho : off < n) : 0 < p.2 := by
  have hdm := Nat.div_add_mod off nb
  have hml := Nat.mod_lt off hb
  unfold pieces at hp
  obtain ⟨i, hi, rfl⟩ := List.mem_map.1 hp
  rw [mem_upto] at hi
  have hlt : i * nb < n := by
    have := hi.2
    rw [Nat.lt_iff_add_one_le, Nat.le_div_iff_mul_le hb, Nat.add_mul] at this
    omega
  dsimp only
  split
  · rename_i h
    subst h
    rw [Nat.mul_comm] at hlt ⊢
    omega
  · omega

/-! ### windows -/

/-- The tile `b` holds the window of `M`. -/
def IsWin (b : Blk K) (M : Elems K) (r0 c0 rows cols : Nat) : Prop :=
  b.rows = rows ∧ b.cols = cols ∧ ∀ r < rows, ∀ c < cols, b.e r c = M (r0 + r) (c0 + c)

theorem getB_win (M : Elems K) (r0 c0 rows cols : Nat) : IsWin (getB M r0 c0 rows cols) M r0 c0 rows cols :=
  ⟨rfl, rfl, fun _ _ _ _ => rfl⟩

theorem IsWin.congr {b : Blk K} {M N : Elems K} {r0 c0 rows cols : Nat} (h : IsWin b M r0 c0 rows cols)
    (e : ∀ x, r0 ≤ x → x < r0 + rows → ∀ y, c0 ≤ y → y < c0 + cols → M x y = N x y) : IsWin b N r0 c0 rows cols :=
  ⟨h.1, h.2.1, fun r hr c hc => by rw [h.2.2 r hr c hc]; exact e _ (by omega) (by omega) _ (by omega) (by omega)⟩

theorem IsWin.shift {b : Blk K} {M : Elems K} {r0 c0 rows cols : Nat} (h : IsWin b M r0 c0 rows cols) (r1 c1 : Nat) :
    IsWin b (fun x y => M (x - r1 + r0) (y - c1 + c0)) r1 c1 rows cols :=
  ⟨h.1, h.2.1, fun r hr c hc => by
    rw [h.2.2 r hr c hc]
    beta_reduce
    congr 1 <;> omega⟩

theorem put_win {b : Blk K} {N : Elems K} {r0 c0 rows cols : Nat} (h : IsWin b N r0 c0 rows cols) (M : Elems K) :
    putB M r0 c0 b = fun x y => if (r0 ≤ x ∧ x < r0 + rows) ∧ (c0 ≤ y ∧ y < c0 + cols) then N x y else M x y := by
  funext x y
  unfold putB
  rw [h.1, h.2.1]
  by_cases hc : (r0 ≤ x ∧ x < r0 + rows) ∧ (c0 ≤ y ∧ y < c0 + cols)
  · rw [if_pos ⟨hc.1.1, hc.1.2, hc.2.1, hc.2.2⟩, if_pos hc, h.2.2 _ (by omega) _ (by omega)]
    congr 1 <;> omega
  · rw [if_neg hc, if_neg (by omega)]

/-- A loop over the windows of a block column: each task maps its window by `F`, which only depends on the position. -/
theorem rows_loop {X : Type*} {ps : List X} {g : X → Nat × Nat} {a e c0 cw : Nat} (hch : Chain a e (ps.map g)) (F : Nat → Nat → K → K)
    {body : Elems K → X → Option (Elems K)}
    (hb : ∀ M : Elems K, ∀ p ∈ ps, ∃ b, body M p = some (putB M (g p).1 c0 b) ∧
      IsWin b (fun x y => F x y (M x y)) (g p).1 c0 (g p).2 cw) (M : Elems K) :
    forM' ps M body = some fun x y =>
      if (a ≤ x ∧ x < e) ∧ (c0 ≤ y ∧ y < c0 + cw) then F x y (M x y) else M x y := by
  induction ps generalizing a M with
  | nil =>
    have h' : a = e := hch
    subst h'
    show some M = _
    congr 1
    funext x y
    rw [if_neg (by omega)]
  | cons p ps ih =>
    obtain ⟨b, h1, h2⟩ := hb M p List.mem_cons_self
    rw [List.map_cons] at hch
    have hle := hch.2.le
    have hp := hch.1
    rw [forM'_cons, h1, Option.bind_some, ih hch.2 (fun M q hq => hb M q (List.mem_cons_of_mem _ hq))]
    congr 1
    funext x y
    rw [put_win h2]
    beta_reduce
    by_cases hy : c0 ≤ y ∧ y < c0 + cw
    · by_cases hx : a + (g p).2 ≤ x ∧ x < e
      · rw [if_pos ⟨hx, hy⟩, if_neg (by omega), if_pos ⟨by omega, hy⟩]
      · rw [if_neg (by omega)]
        by_cases hx2 : (g p).1 ≤ x ∧ x < (g p).1 + (g p).2
        · rw [if_pos ⟨hx2, hy⟩, if_pos ⟨by omega, hy⟩]
        · rw [if_neg (by omega), if_neg (by omega)]
    · rw [if_neg (by omega), if_neg (by omega), if_neg (by omega)]

/-- The same over block rows. -/
theorem cols_loop {X : Type*} {qs : List X} {g : X → Nat × Nat} {a e r0 r1 : Nat} (hch : Chain a e (qs.map g))
    (F : Nat → Nat → K → K) {body : Elems K → X → Option (Elems K)}
    (hb : ∀ M : Elems K, ∀ q ∈ qs, body M q = some fun x y =>
      if (r0 ≤ x ∧ x < r1) ∧ ((g q).1 ≤ y ∧ y < (g q).1 + (g q).2) then F x y (M x y) else M x y) (M : Elems K) :
    forM' qs M body = some fun x y =>
      if (r0 ≤ x ∧ x < r1) ∧ (a ≤ y ∧ y < e) then F x y (M x y) else M x y := by
  induction qs generalizing a M with
  | nil =>
    have h' : a = e := hch
    subst h'
    show some M = _
    congr 1
    funext x y
    rw [if_neg (by omega)]
  | cons q qs ih =>
    have h1 := hb M q List.mem_cons_self
    rw [List.map_cons] at hch
    have hle := hch.2.le
    have hp := hch.1
    rw [forM'_cons, h1, Option.bind_some, ih hch.2 (fun M q hq => hb M q (List.mem_cons_of_mem _ hq))]
    congr 1
    funext x y
    by_cases hx : r0 ≤ x ∧ x < r1
    · by_cases hy : a + (g q).2 ≤ y ∧ y < e
      · rw [if_pos ⟨hx, hy⟩, if_neg (by omega), if_pos ⟨hx, by omega⟩]
      · rw [if_neg (by omega)]
        by_cases hy2 : (g q).1 ≤ y ∧ y < (g q).1 + (g q).2
        · rw [if_pos ⟨hx, hy2⟩, if_pos ⟨hx, by omega⟩]
        · rw [if_neg (by omega), if_neg (by omega)]
    · rw [if_neg (by omega), if_neg (by omega), if_neg (by omega)]

theorem mapM_ex {X Y : Type*} {f : X → Option Y} {P : X → Y → Prop} (l : List X)
    (h : ∀ x ∈ l, ∃ y, f x = some y ∧ P x y) :
    ∃ ys, l.mapM f = some ys ∧ List.Forall₂ P l ys := by
  induction l with
  | nil => exact ⟨[], rfl, .nil⟩
  | cons a l ih =>
    obtain ⟨y, h1, h2⟩ := h a List.mem_cons_self
    obtain ⟨ys, h3, h4⟩ := ih fun x hx => h x (List.mem_cons_of_mem _ hx)
    refine ⟨y :: ys, ?_, .cons h2 h4⟩
    rw [List.mapM_cons, h1, h3]
    rfl

section kernels
variable [Field K] [StarRing K]

theorem gemm_win (oa ob : BlasOp) (alpha beta : K) {a b c : Blk K} {A B C : Elems K} {r0 k0 k1 c0 rows kk cols : Nat}
    (ha : IsWin (a.op oa) A r0 k0 rows kk) (hb : IsWin (b.op ob) B k1 c0 kk cols) (hc : IsWin c C r0 c0 rows cols) :
    ∃ d, gemm oa ob alpha a b beta c = some d ∧ IsWin d (fun x y =>
      alpha * (∑ l ∈ Finset.range kk, A x (k0 + l) * B (k1 + l) y) + beta * C x y) r0 c0 rows cols := by
  unfold gemm
  rw [if_pos ⟨ha.1.trans hc.1.symm, hb.2.1.trans hc.2.1.symm, ha.2.1.trans hb.1.symm⟩]
  refine ⟨_, rfl, hc.1, hc.2.1, ?_⟩
  intro r hr q hq
  simp only [Blk.mul, ha.2.1, hc.2.2 r hr q hq]
  congr 2
  refine Finset.sum_congr rfl fun l hl => ?_
  rw [Finset.mem_range] at hl
  rw [ha.2.2 r hr l hl, hb.2.2 l hl q hq]

theorem conj_win {a : Blk K} {A : Elems K} {r0 c0 rows cols : Nat} (h : IsWin a A r0 c0 rows cols) :
    IsWin (a.op .ConjTrans) (fun x y => star (A y x)) c0 r0 cols rows :=
  ⟨h.2.1, h.1, fun r hr c hc => by simp only [Blk.op]; rw [h.2.2 c hc r hr]⟩

end kernels
end DLAF
