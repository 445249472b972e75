import Verif.Model.Index
import Verif.Lemmas.Cyclic
import Mathlib.Data.List.Nodup
import Mathlib.Data.List.ProdSigma
/- Properties C08 (linear index), C09 (2D iteration), C10 (interleaved splits). -/
namespace DLAF

/-! ### C08 -/

/-- Linear index of an in-range index is in range and converts back. -/
theorem C08_linear_then_coords (o : Ordering2) {i dims : Coord2} (h : i.isIn dims = true) :
    computeCoords o (computeLinearIndex o i dims) dims = i ∧
    0 ≤ computeLinearIndex o i dims ∧ computeLinearIndex o i dims < dims.row * dims.col := by
  simp only [Coord2.isIn, Bool.and_eq_true, decide_eq_true_eq] at h
  obtain ⟨⟨h1, h2⟩, h3, h4⟩ := h
  cases o
  · simp only [computeCoords, computeLinearIndex, computeCoordsRowMajor, computeLinearIndexRowMajor]
    obtain ⟨a, b⟩ := cdivmod_eq h1 h3 h4 (rfl : i.row * dims.col + i.col = _)
    have := Int.mul_nonneg h1 (show 0 ≤ dims.col by omega)
    have : (i.row + 1) * dims.col ≤ dims.row * dims.col :=
      Int.mul_le_mul_of_nonneg_right (by omega) (by omega)
    have e : (i.row + 1) * dims.col = i.row * dims.col + dims.col := by ring
    rw [a, b]
    exact ⟨rfl, by omega, by omega⟩
  · simp only [computeCoords, computeLinearIndex, computeCoordsColMajor, computeLinearIndexColMajor]
    obtain ⟨a, b⟩ := cdivmod_eq h3 h1 h2 (rfl : i.col * dims.row + i.row = _)
    have := Int.mul_nonneg h3 (show 0 ≤ dims.row by omega)
    have : (i.col + 1) * dims.row ≤ dims.col * dims.row :=
      Int.mul_le_mul_of_nonneg_right (by omega) (by omega)
    have e : (i.col + 1) * dims.row = i.col * dims.row + dims.row := by ring
    have e2 : dims.row * dims.col = dims.col * dims.row := by ring
    rw [a, b]
    exact ⟨rfl, by omega, by omega⟩

/-- Every linear index in range is the linear index of an in-range index: its coordinates. -/
theorem C08_coords_then_linear (o : Ordering2) {k : Int} {dims : Coord2} (h0 : 0 ≤ k)
    (h1 : k < dims.row * dims.col) (hd : 0 ≤ dims.row ∧ 0 ≤ dims.col) :
    (computeCoords o k dims).isIn dims = true ∧
    computeLinearIndex o (computeCoords o k dims) dims = k := by
  have hr : 0 < dims.row := by
    by_contra hc
    have : dims.row = 0 := by omega
    rw [this] at h1; simp at h1; omega
  have hc : 0 < dims.col := by
    by_contra hc
    have : dims.col = 0 := by omega
    rw [this] at h1; simp at h1; omega
  cases o
  · obtain ⟨q, r, hq, hr0, hr1, e⟩ := exists_divmod h0 hc
    simp only [computeCoords, computeLinearIndex, computeCoordsRowMajor, computeLinearIndexRowMajor,
      cdiv_eq hq hr0 hr1 e, cmod_eq hq hr0 hr1 e, Coord2.isIn, Bool.and_eq_true, decide_eq_true_eq]
    refine ⟨⟨⟨hq, ?_⟩, hr0, hr1⟩, e.symm⟩
    by_contra hh
    have := Int.mul_le_mul_of_nonneg_right (show dims.row ≤ q by omega) (Int.le_of_lt hc)
    omega
  · obtain ⟨q, r, hq, hr0, hr1, e⟩ := exists_divmod h0 hr
    simp only [computeCoords, computeLinearIndex, computeCoordsColMajor, computeLinearIndexColMajor,
      cdiv_eq hq hr0 hr1 e, cmod_eq hq hr0 hr1 e, Coord2.isIn, Bool.and_eq_true, decide_eq_true_eq]
    refine ⟨⟨⟨hr0, hr1⟩, hq, ?_⟩, e.symm⟩
    by_contra hh
    have := Int.mul_le_mul_of_nonneg_right (show dims.col ≤ q by omega) (Int.le_of_lt hr)
    have e2 : dims.row * dims.col = dims.col * dims.row := by ring
    omega

example : computeLinearIndex .ColumnMajor ⟨1, 2⟩ ⟨3, 4⟩ = 7 ∧
    computeCoords .RowMajor 7 ⟨3, 4⟩ = ⟨1, 3⟩ := by decide

/-! ### C09 -/

/-- Specification: the nested loop (columns outside, rows inside) over a `rows × cols` rectangle. -/
def rectColMajor (b : Coord2) (rows cols : Nat) : List Coord2 :=
  (List.range cols).flatMap fun j : Nat => (List.range rows).map fun i : Nat => ⟨b.row + i, b.col + j⟩

theorem forLoop_eq (e : Iter2D) (n : Nat) : ∀ (it : Iter2D) (fuel : Nat), it.i + n = e.i → n < fuel →
    Range2D.forLoop e fuel it =
      some ((List.range n).map fun k : Nat => ({ it with i := it.i + (k : Int) } : Iter2D).deref) := by
  induction n with
  | zero =>
    intro it fuel h hf
    obtain ⟨fuel, rfl⟩ : ∃ f, fuel = f + 1 := ⟨fuel - 1, by omega⟩
    have hne : it.ne e = false := by simp [Iter2D.ne]; simpa using h
    simp [Range2D.forLoop, hne]
  | succ n ih =>
    intro it fuel h hf
    obtain ⟨fuel, rfl⟩ : ∃ f, fuel = f + 1 := ⟨fuel - 1, by omega⟩
    have hne : it.ne e = true := by simp [Iter2D.ne]; push_cast at h; omega
    simp only [Range2D.forLoop, hne, if_true]
    rw [ih it.next fuel (by simp only [Iter2D.next]; push_cast at h; omega) (by omega),
      List.range_succ_eq_map]
    simp only [Option.map_some, List.map_cons, List.map_map, Option.some.injEq, List.cons.injEq]
    refine ⟨by simp, ?_⟩
    apply List.map_congr_left
    intro k _
    simp only [Iter2D.next, Function.comp, Nat.succ_eq_add_one]
    push_cast
    rw [show it.i + 1 + (k : Int) = it.i + ((k : Int) + 1) by ring]

theorem range_flat (rows cols : Nat) {α} (f : Nat → Nat → α) (h : 0 < rows) :
    (List.range (rows * cols)).map (fun k => f (k % rows) (k / rows)) =
      (List.range cols).flatMap fun j => (List.range rows).map fun i => f i j := by
  induction cols with
  | zero => simp
  | succ cols ih =>
    rw [Nat.mul_succ, List.range_add, List.map_append, ih, List.range_succ, List.flatMap_append]
    congr 1
    simp only [List.map_map, List.flatMap_cons, List.flatMap_nil, List.append_nil]
    apply List.map_congr_left
    intro i hi
    have hi : i < rows := by simpa using hi
    simp only [Function.comp]
    rw [Nat.mul_add_mod, Nat.mod_eq_of_lt hi, Nat.mul_add_div h, Nat.div_eq_of_lt hi, Nat.add_zero]

/-- Iterating over (begin, size) visits exactly what the nested loop visits, in the same order, and
ends. -/
theorem C09_iterate_size (b : Coord2) (rows cols : Nat) (fuel : Nat) (hf : rows * cols < fuel) :
    let r := Range2D.ofSize b ⟨rows, cols⟩
    Range2D.forLoop r.end_ fuel r.begin_ = some (rectColMajor b rows cols) := by
  intro r
  rw [forLoop_eq r.end_ (rows * cols) r.begin_ fuel
    (by show (0 : Int) + ((rows * cols : Nat) : Int) = (rows : Int) * cols; push_cast; omega) hf]
  congr 1
  unfold rectColMajor
  by_cases h : rows = 0
  · subst h; simp
  · rw [← range_flat rows cols (fun i j => (⟨b.row + i, b.col + j⟩ : Coord2)) (by omega)]
    apply List.map_congr_left
    intro k _
    show (⟨b.row + cmod (0 + (k : Int)) (max (rows : Int) 1),
      b.col + cdiv (0 + (k : Int)) (max (rows : Int) 1)⟩ : Coord2) = _
    rw [show max (rows : Int) 1 = rows by omega, Int.zero_add]
    unfold cmod cdiv
    rw [Int.tmod_eq_emod_of_nonneg (by omega), Int.tdiv_eq_ediv_of_nonneg (by omega)]
    simp

/-- The same for (begin, end) ranges; the constructor succeeds exactly when begin ≤ end. -/
theorem C09_iterate_end (b e : Coord2) :
    ((Range2D.ofEnd b e).isSome ↔ b.row ≤ e.row ∧ b.col ≤ e.col) ∧
    ∀ r, Range2D.ofEnd b e = some r → ∀ fuel,
      (e.row - b.row).toNat * (e.col - b.col).toNat < fuel →
      Range2D.forLoop r.end_ fuel r.begin_ =
        some (rectColMajor b (e.row - b.row).toNat (e.col - b.col).toNat) := by
  unfold Range2D.ofEnd
  constructor
  · split <;> simp_all
  · intro r hr fuel hf
    split at hr
    · rename_i h
      have := C09_iterate_size b (e.row - b.row).toNat (e.col - b.col).toNat fuel hf
      simp only [Option.some.injEq] at hr
      have e1 : (((e.row - b.row).toNat : Nat) : Int) = e.row - b.row := Int.toNat_of_nonneg (by omega)
      have e2 : (((e.col - b.col).toNat : Nat) : Int) = e.col - b.col := Int.toNat_of_nonneg (by omega)
      rw [e1, e2] at this
      rw [← hr]; exact this
    · cases hr

/-- The nested loop visits exactly the rectangle, each index once. -/
theorem C09_rectangle (b : Coord2) (rows cols : Nat) :
    (rectColMajor b rows cols).Nodup ∧
    ∀ x : Coord2, x ∈ rectColMajor b rows cols ↔
      b.row ≤ x.row ∧ x.row < b.row + rows ∧ b.col ≤ x.col ∧ x.col < b.col + cols := by
  constructor
  · unfold rectColMajor
    rw [List.nodup_flatMap]
    constructor
    · intro j _
      rw [List.nodup_map_iff_inj_on List.nodup_range]
      intro i _ i' _ h
      simp at h; exact h
    · apply List.Pairwise.imp _ (List.nodup_range (n := cols))
      intro j j' hne
      simp only [Function.onFun, List.disjoint_left, List.mem_map, not_exists, not_and,
        forall_exists_index, and_imp]
      intro x i _ hx i' _ hx'
      subst hx
      simp at hx'
      omega
  · intro x
    simp only [rectColMajor, List.mem_flatMap, List.mem_map, List.mem_range]
    constructor
    · rintro ⟨j, hj, i, hi, rfl⟩
      exact ⟨by simp, by simp; omega, by simp, by simp; omega⟩
    · rintro ⟨h1, h2, h3, h4⟩
      refine ⟨(x.col - b.col).toNat, by omega, (x.row - b.row).toNat, by omega, ?_⟩
      cases x; simp at *; omega

example : rectColMajor ⟨1, 2⟩ 2 2 = [⟨1, 2⟩, ⟨2, 2⟩, ⟨1, 3⟩, ⟨2, 3⟩] := by decide

/-! ### C10 -/

/-- Split point of the tiling of period `b` shifted by `o`. -/
def isSplit (b o x : Int) : Prop := ∃ k : Nat, x = o + k * b

theorem splitsLoop_spec (l b small big : Int) (hb : 0 < b) (h0 : 0 ≤ small) (hsb : small ≤ big)
    (hbb : big ≤ small + b) (n : Nat) : ∀ (k : Nat) (acc : List Int),
    (l - (small + k * b)).toNat + (l - (big + k * b)).toNat ≤ n →
    acc.Pairwise (· < ·) → acc.head? = some 0 → (∀ x ∈ acc, 0 ≤ x ∧ x ≤ small + k * b ∧ x < l) →
    (∀ x, 0 < x → (x ∈ acc ↔ (x < l ∧ ∃ m : Nat, m < k ∧ (x = small + m * b ∨ x = big + m * b)))) →
    0 < l →
    let res := splitsLoop l b (small + k * b) (big + k * b) acc
    res.Pairwise (· < ·) ∧ res.head? = some 0 ∧ (∀ x ∈ res, 0 ≤ x ∧ x < l) ∧
    (∀ x, 0 < x → (x ∈ res ↔ (x < l ∧ ((isSplit b small x) ∨ isSplit b big x)))) := by
  induction n with
  | zero =>
    intro k acc hn hp hh hx hm hl res
    have hres : res = acc := by
      show splitsLoop l b (small + k * b) (big + k * b) acc = acc
      unfold splitsLoop
      rw [dif_neg (by omega)]
    rw [hres]
    refine ⟨hp, hh, fun x h => ⟨(hx x h).1, (hx x h).2.2⟩, ?_⟩
    intro x h
    rw [hm x h]
    constructor
    · rintro ⟨a, m, _, h | h⟩
      · exact ⟨a, Or.inl ⟨m, h⟩⟩
      · exact ⟨a, Or.inr ⟨m, h⟩⟩
    · rintro ⟨a, ⟨m, h⟩ | ⟨m, h⟩⟩
      · refine ⟨a, m, ?_, Or.inl h⟩
        by_contra hc
        have := Int.mul_le_mul_of_nonneg_right (show (k : Int) ≤ m by omega) (Int.le_of_lt hb)
        omega
      · refine ⟨a, m, ?_, Or.inr h⟩
        by_contra hc
        have := Int.mul_le_mul_of_nonneg_right (show (k : Int) ≤ m by omega) (Int.le_of_lt hb)
        omega
  | succ n ih =>
    intro k acc hn hp hh hx hm hl res
    by_cases hc : 0 < b ∧ (small + k * b < l ∨ big + k * b < l)
    · have ek : ((k + 1 : Nat) : Int) * b = k * b + b := by push_cast; ring
      -- one push keeps order
      have push : ∀ (acc : List Int) (v : Int), acc.Pairwise (· < ·) → acc.head? = some 0 →
          (∀ x ∈ acc, x ≤ v) → 0 ≤ v →
          let acc' := if acc.getLast? ≠ some v ∧ v < l then acc ++ [v] else acc
          acc'.Pairwise (· < ·) ∧ acc'.head? = some 0 ∧ (∀ x ∈ acc', x ∈ acc ∨ (x = v ∧ v < l)) ∧
          (∀ x ∈ acc, x ∈ acc') ∧ (v < l → v ∈ acc') := by
        intro acc v hp hh hle hv acc'
        by_cases hcond : acc.getLast? ≠ some v ∧ v < l
        · have ha : acc' = acc ++ [v] := if_pos hcond
          rw [ha]
          refine ⟨?_, ?_, ?_, ?_, ?_⟩
          · rw [List.pairwise_append]
            refine ⟨hp, List.pairwise_singleton _ _, ?_⟩
            intro x hx y hy
            simp at hy; subst hy
            have h1 := hle x hx
            -- x is at most the last element, which differs from y
            obtain ⟨ys, z, rfl⟩ : ∃ ys z, acc = ys ++ [z] := by
              have : acc ≠ [] := by intro h; rw [h] at hx; simp at hx
              exact ⟨acc.dropLast, acc.getLast this, (List.dropLast_concat_getLast this).symm⟩
            have hz := hle z (by simp)
            have hzne : z ≠ y := by
              intro h; apply hcond.1; simp [h]
            rw [List.pairwise_append] at hp
            rw [List.mem_append] at hx
            rcases hx with hx | hx
            · have := hp.2.2 x hx z (by simp); omega
            · simp at hx; omega
          · cases acc with
            | nil => simp at hh
            | cons a as => simpa using hh
          · intro x hx
            simp at hx
            rcases hx with h | h
            · exact Or.inl h
            · exact Or.inr ⟨h, hcond.2⟩
          · intro x hx; simp [hx]
          · intro _; simp
        · have ha : acc' = acc := if_neg hcond
          rw [ha]
          refine ⟨hp, hh, fun x hx => Or.inl hx, fun x hx => hx, ?_⟩
          intro hvl
          have : acc.getLast? = some v := by
            by_contra hne; exact hcond ⟨hne, hvl⟩
          exact List.mem_of_getLast? this
      have hk0 : 0 ≤ (k : Int) * b := Int.mul_nonneg (by omega) (Int.le_of_lt hb)
      obtain ⟨p1, p2, p3, p4, p5⟩ := push acc (small + k * b) hp hh (fun x h => (hx x h).2.1) (by omega)
      generalize hacc1 : (if acc.getLast? ≠ some (small + k * b) ∧ small + k * b < l
        then acc ++ [small + k * b] else acc) = acc1 at p1 p2 p3 p4 p5
      obtain ⟨q1, q2, q3, q4, q5⟩ := push acc1 (big + k * b) p1 p2 (by
        intro x h
        rcases p3 x h with h | h
        · have := (hx x h).2.1; omega
        · omega) (by omega)
      generalize hacc2 : (if acc1.getLast? ≠ some (big + k * b) ∧ big + k * b < l
        then acc1 ++ [big + k * b] else acc1) = acc2 at q1 q2 q3 q4 q5
      have hstep : res = splitsLoop l b (small + ((k + 1 : Nat) : Int) * b)
          (big + ((k + 1 : Nat) : Int) * b) acc2 := by
        show splitsLoop l b (small + k * b) (big + k * b) acc = _
        rw [splitsLoop, dif_pos hc, ek, ← Int.add_assoc, ← Int.add_assoc]
        simp only
        rw [hacc1, hacc2]
      rw [hstep]
      refine ih (k + 1) acc2 ?_ q1 q2 ?_ ?_ hl
      · rw [ek]; omega
      · intro x h
        rw [ek]
        rcases q3 x h with h | h
        · rcases p3 x h with h | h
          · have := hx x h; omega
          · omega
        · omega
      · intro x hx0
        constructor
        · intro h
          rcases q3 x h with h | ⟨h, h'⟩
          · rcases p3 x h with h | ⟨h, h'⟩
            · obtain ⟨a, m, hm1, hm2⟩ := (hm x hx0).1 h
              exact ⟨a, m, by omega, hm2⟩
            · exact ⟨by omega, k, by omega, Or.inl h⟩
          · exact ⟨by omega, k, by omega, Or.inr h⟩
        · rintro ⟨a, m, hm1, hm2⟩
          by_cases hmk : m = k
          · subst hmk
            rcases hm2 with rfl | rfl
            · exact q4 _ (p5 a)
            · exact q5 a
          · exact q4 _ (p4 _ ((hm x hx0).2 ⟨a, m, by omega, hm2⟩))
    · have hres : res = acc := by
        show splitsLoop l b (small + k * b) (big + k * b) acc = acc
        unfold splitsLoop
        rw [dif_neg hc]
      rw [hres]
      refine ⟨hp, hh, fun x h => ⟨(hx x h).1, (hx x h).2.2⟩, ?_⟩
      intro x h
      rw [hm x h]
      constructor
      · rintro ⟨a, m, _, h | h⟩
        · exact ⟨a, Or.inl ⟨m, h⟩⟩
        · exact ⟨a, Or.inr ⟨m, h⟩⟩
      · rintro ⟨a, ⟨m, h⟩ | ⟨m, h⟩⟩
        · refine ⟨a, m, ?_, Or.inl h⟩
          by_contra hc
          have := Int.mul_le_mul_of_nonneg_right (show (k : Int) ≤ m by omega) (Int.le_of_lt hb)
          omega
        · refine ⟨a, m, ?_, Or.inr h⟩
          by_contra hc
          have := Int.mul_le_mul_of_nonneg_right (show (k : Int) ≤ m by omega) (Int.le_of_lt hb)
          omega

/-- `interleaveSplits` returns 0, then exactly the split points of the two tilings strictly inside
`(0, l)`, in increasing order without repetition, then `l`; it succeeds exactly on the documented
arguments. -/
theorem C10_interleave_splits (l b o1 o2 : Int) :
    ((interleaveSplits l b o1 o2).isSome ↔ 0 < l ∧ 0 < b ∧ (0 ≤ o1 ∧ o1 ≤ b) ∧ (0 ≤ o2 ∧ o2 ≤ b)) ∧
    ∀ s, interleaveSplits l b o1 o2 = some s →
      s.Pairwise (· < ·) ∧ s.head? = some 0 ∧ s.getLast? = some l ∧
      ∀ x, x ∈ s ↔ x = 0 ∨ x = l ∨ (0 < x ∧ x < l ∧ (isSplit b o1 x ∨ isSplit b o2 x)) := by
  unfold interleaveSplits
  constructor
  · split <;> simp_all
  · intro s hs
    split at hs
    · rename_i h
      obtain ⟨hl, hb, ⟨h1, h2⟩, h3, h4⟩ := h
      simp only [Option.some.injEq] at hs
      have key := splitsLoop_spec l b (if o1 > o2 then o2 else o1) (if o1 > o2 then o1 else o2) hb
        (by split <;> omega) (by split <;> omega) (by split <;> omega) _ 0 [0] (Nat.le_refl _)
        (by simp) (by simp) (by intro x hx; simp at hx; subst hx; split <;> simp <;> omega)
        (by intro x hx; simp; omega) hl
      simp only [Nat.cast_zero, Int.zero_mul, Int.add_zero] at key
      obtain ⟨k1, k2, k3, k4⟩ := key
      rw [← hs]
      refine ⟨?_, ?_, by simp, ?_⟩
      · rw [List.pairwise_append]
        refine ⟨k1, List.pairwise_singleton _ _, ?_⟩
        intro x hx y hy
        simp at hy; subst hy
        exact (k3 x hx).2
      · generalize splitsLoop l b _ _ [0] = r at k2 ⊢
        cases r with
        | nil => simp at k2
        | cons a as => simpa using k2
      · intro x
        rw [List.mem_append, List.mem_singleton]
        have hsplit : (isSplit b (if o1 > o2 then o2 else o1) x ∨ isSplit b (if o1 > o2 then o1 else o2) x)
            ↔ (isSplit b o1 x ∨ isSplit b o2 x) := by
          split
          · exact Or.comm
          · exact Iff.rfl
        constructor
        · rintro (h | h)
          · have hx := k3 x h
            by_cases h0 : x = 0
            · exact Or.inl h0
            · have := (k4 x (by omega)).1 h
              exact Or.inr (Or.inr ⟨by omega, this.1, hsplit.1 this.2⟩)
          · exact Or.inr (Or.inl h)
        · rintro (h | h | ⟨a, b', c⟩)
          · left; subst h; exact List.mem_of_head? k2
          · exact Or.inr h
          · left; exact (k4 x a).2 ⟨b', hsplit.2 c⟩
    · cases hs

example : interleaveSplits 10 4 1 3 = some [0, 1, 3, 5, 7, 9, 10] := by
  simp [interleaveSplits, splitsLoop]

end DLAF
