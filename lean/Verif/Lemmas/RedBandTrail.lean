import Verif.Lemmas.RedBandCol
import Verif.Lemmas.BtRedBand
/- The trailing update of the reduction to band: closed forms of its loops. -/
namespace DLAF
open scoped Classical
variable {K : Type*} [RCLike K]

/-! ### loops with a predicted state -/

theorem forM'_upto_st {S : Type*} {f : S → Nat → Option S} (st : Nat → S) :
    ∀ b, (∀ j < b, f (st j) j = some (st (j + 1))) → forM' (upto 0 b) (st 0) f = some (st b)
  | 0, _ => by rw [upto_self]; rfl
  | b + 1, h => by
    rw [upto_succ (Nat.zero_le b), forM'_append, forM'_upto_st st b (fun j hj => h j (by omega))]
    show forM' [b] (st b) f = _
    rw [forM'_cons, h b (by omega)]
    rfl

theorem forM'_downto_st {S : Type*} {f : S → Nat → Option S} (st : Nat → S) (b : Nat)
    (h : ∀ j < b, f (st (j + 1)) j = some (st j)) : forM' (downto b 0) (st b) f = some (st 0) := by
  suffices H : ∀ a ≤ b, forM' (downto b a) (st b) f = some (st a) from H 0 (Nat.zero_le b)
  intro a ha
  obtain ⟨d, rfl⟩ : ∃ d, b = a + d := ⟨b - a, by omega⟩
  clear ha
  induction d generalizing a with
  | zero => rw [downto, Nat.add_zero, upto_self]; rfl
  | succ d ih =>
    have := ih (a + 1) (by rw [show a + 1 + d = a + (d + 1) by omega]; exact h)
    rw [show a + 1 + d = a + (d + 1) by omega] at this
    rw [downto, upto_cons (by omega), List.reverse_cons, forM'_append, ← downto, this]
    show forM' [a] (st (a + 1)) f = _
    rw [forM'_cons, h a (by omega)]
    rfl

/-- The bounds of the tiles of a chain. -/
theorem Chain.bounds {a e : Nat} {ps : List (Nat × Nat)} (h : Chain a e ps) (hp : ∀ p ∈ ps, 0 < p.2) :
    ∃ s : Nat → Nat, s 0 = a ∧ s ps.length = e ∧
      ∀ j < ps.length, ps.getD j (0, 0) = (s j, s (j + 1) - s j) ∧ s j < s (j + 1) := by
  induction ps generalizing a with
  | nil => exact ⟨fun _ => a, rfl, h, fun j hj => by simp at hj⟩
  | cons p ps ih =>
    obtain ⟨s, h1, h2, h3⟩ := ih h.2 fun q hq => hp q (List.mem_cons_of_mem _ hq)
    refine ⟨fun j => if j = 0 then a else s (j - 1), if_pos rfl, ?_, ?_⟩
    · simp only [List.length_cons, Nat.add_sub_cancel]
      rw [if_neg (by omega), h2]
    · intro j hj
      have hp0 := hp p List.mem_cons_self
      have hp1 := h.1
      simp only [Nat.add_sub_cancel]
      rw [if_neg (show ¬ j + 1 = 0 by omega)]
      cases j with
      | zero =>
        rw [if_pos rfl, h1]
        refine ⟨?_, by omega⟩
        show p = _
        rw [Nat.add_sub_cancel_left, ← hp1]
      | succ j =>
        rw [if_neg (by omega), Nat.add_sub_cancel]
        have := h3 j (by simpa using hj)
        exact ⟨by simpa using this.1, this.2⟩

theorem bounds_mono {s : Nat → Nat} {n : Nat} (h : ∀ j < n, s j < s (j + 1)) : ∀ i j, i ≤ j → j ≤ n → s i ≤ s j := by
  intro i j hij hj
  induction j with
  | zero => rw [show i = 0 by omega]
  | succ j ih =>
    by_cases h1 : i = j + 1
    · rw [h1]
    · have := ih (by omega) (by omega)
      have := h j (by omega)
      omega

/-! ### `W = V T` -/

theorem trmm3_win {V : Elems K} {r0 rows k : Nat} {F : Nat → Nat → K} (hF : ∀ c < k, ∀ i < k, c < i → F i c = 0)
    {v w : Blk K} (hv : IsWin v V r0 0 rows k) (hw : w.rows = rows ∧ w.cols = k) :
    ∃ d, trmm3 .Right .Upper .NoTrans .NonUnit 1 ⟨k, k, F⟩ v w = some d ∧
      IsWin d (fun x c => ∑ l ∈ Finset.range k, V x l * F l c) r0 0 rows k := by
  unfold trmm3
  rw [if_pos ⟨hv.1.trans hw.1.symm, hv.2.1.trans hw.2.symm⟩]
  unfold trmm
  rw [if_pos (by simp [triSizes, hv.2.1])]
  refine ⟨_, rfl, hv.1, hv.2.1, ?_⟩
  intro r hr c hc
  simp only [one_mul, Blk.mul, hv.2.1, Nat.zero_add]
  refine Finset.sum_congr rfl fun l hl => ?_
  rw [Finset.mem_range] at hl
  rw [hv.2.2 r hr l hl, Nat.zero_add]
  congr 1
  simp only [Blk.op, Blk.tri]
  by_cases h1 : l = c
  · simp [h1]
  · rw [if_neg h1]
    by_cases h2 : l < c
    · simp [h2]
    · rw [if_neg (by simpa using h2), hF c hc l hl (by omega)]

theorem trmmComputeW_eq {ps : List (Nat × Nat)} {a n k : Nat} {F : Nat → Nat → K} (hc : Chain a n ps)
    (hF : ∀ c < k, ∀ i < k, c < i → F i c = 0) {V' : Elems K} (V W : Elems K)
    (hV : ∀ x, a ≤ x → x < n → ∀ c < k, V x c = V' x c) :
    trmmComputeW ps k ⟨k, k, F⟩ V W = some fun x y =>
      if (a ≤ x ∧ x < n) ∧ (0 ≤ y ∧ y < 0 + k) then ∑ l ∈ Finset.range k, V' x l * F l y else W x y := by
  unfold trmmComputeW
  refine rows_loop (g := fun p => p) (by simpa using hc) (fun x y _ => ∑ l ∈ Finset.range k, V' x l * F l y) ?_ W
  intro M p hp
  have hm := hc.mem hp
  obtain ⟨d, h1, h2⟩ := trmm3_win hF (getB_win V p.1 0 p.2 k) (w := getB M p.1 0 p.2 k) ⟨rfl, rfl⟩
  refine ⟨d, by rw [h1]; rfl, h2.congr ?_⟩
  intro x hx1 hx2 y _ _
  refine Finset.sum_congr rfl fun l hl => ?_
  rw [hV x (by omega) (by omega) l (Finset.mem_range.1 hl)]

/-! ### `X = A W` -/

theorem getB_zero_loop (k : Nat) : ∀ {ps : List (Nat × Nat)} {a e : Nat}, Chain a e ps → ∀ X : Elems K,
    ps.foldl (fun X p => putB X p.1 0 (Blk.zero p.2 k)) X = fun x y => if (a ≤ x ∧ x < e) ∧ y < k then 0 else X x y
  | [], a, e, h, X => by
    have : a = e := h
    funext x y
    rw [if_neg (by omega)]
    rfl
  | p :: ps, a, e, h, X => by
    have h1 := h.1
    have h2 := h.2.le
    rw [List.foldl_cons, getB_zero_loop k h.2]
    funext x y
    simp only [putB, Blk.zero, Nat.zero_le, true_and, Nat.zero_add]
    by_cases hx : (a + p.2 ≤ x ∧ x < e) ∧ y < k
    · rw [if_pos hx, if_pos (by omega)]
    · rw [if_neg hx]
      by_cases hy : p.1 ≤ x ∧ x < p.1 + p.2 ∧ y < k
      · rw [if_pos hy, if_pos (by omega)]
      · rw [if_neg hy, if_neg (by omega)]

theorem sum_range_Ico (f : Nat → K) {a b : Nat} (h : a ≤ b) :
    ∑ l ∈ Finset.range (b - a), f (a + l) = ∑ x ∈ Finset.Ico a b, f x := by
  rw [Finset.sum_Ico_eq_sum_range f a b]

/-- A diagonal task. -/
theorem hemmTask_diag {k s0 s1 : Nat} (hs : s0 < s1) (A W X : Elems K) :
    hemmTask k A W X (s0, s1 - s0) (s0, s1 - s0) = some fun x y =>
      if (s0 ≤ x ∧ x < s1) ∧ y < k then X x y + ∑ z ∈ Finset.Ico s0 s1, lowE A x z * W z y else X x y := by
  unfold hemmTask
  rw [if_pos rfl]
  unfold hemm
  rw [if_pos ⟨rfl, rfl, rfl⟩]
  simp only [putO, Option.map_some, Option.some.injEq]
  funext x y
  simp only [putB, Blk.mul, Blk.herm, getB, Nat.zero_add, Nat.sub_zero, one_mul, Nat.zero_le, true_and]
  by_cases h : (s0 ≤ x ∧ x < s1) ∧ y < k
  · rw [if_pos h, if_pos (by omega), ← sum_range_Ico _ hs.le, add_comm, show s0 + (x - s0) = x by omega]
    congr 1
    refine Finset.sum_congr rfl fun l _ => ?_
    congr 1
    unfold lowE
    by_cases h2 : s0 + l ≤ x
    · rw [if_pos h2, if_pos (by simpa using (show l ≤ x - s0 by omega))]
    · rw [if_neg h2, if_neg (by simpa using (show x - s0 < l by omega))]
  · rw [if_neg h, if_neg (by omega)]

/-- An off-diagonal task. -/
theorem hemmTask_off {k s0 s1 u0 u1 : Nat} (hs : s0 < s1) (hu : u0 < u1) (hsu : u1 ≤ s0) (A W X : Elems K) :
    hemmTask k A W X (s0, s1 - s0) (u0, u1 - u0) = some fun x y =>
      if (s0 ≤ x ∧ x < s1) ∧ y < k then X x y + ∑ z ∈ Finset.Ico u0 u1, lowE A x z * W z y
      else if (u0 ≤ x ∧ x < u1) ∧ y < k then X x y + ∑ z ∈ Finset.Ico s0 s1, lowE A x z * W z y else X x y := by
  unfold hemmTask
  rw [if_neg (by simp; omega)]
  unfold gemm
  rw [if_pos (by simp [Blk.op, getB])]
  simp only [putO, Option.map_some, Option.bind_eq_bind, Option.bind_some]
  rw [if_pos (by simp [Blk.op, getB])]
  simp only [Option.map_some, Option.some.injEq]
  funext x y
  simp only [putB, Blk.mul, Blk.op, getB, Nat.zero_add, Nat.sub_zero, one_mul, Nat.zero_le, true_and]
  by_cases h1 : (s0 ≤ x ∧ x < s1) ∧ y < k
  · rw [if_pos h1, if_neg (by omega), if_pos (by omega), ← sum_range_Ico _ hu.le, add_comm,
      show s0 + (x - s0) = x by omega]
    congr 1
    refine Finset.sum_congr rfl fun l hl => ?_
    rw [Finset.mem_range] at hl
    unfold lowE
    rw [if_pos (by omega)]
  · rw [if_neg h1]
    by_cases h2 : (u0 ≤ x ∧ x < u1) ∧ y < k
    · rw [if_pos h2, if_pos (by omega), if_neg (by omega), ← sum_range_Ico _ hs.le, add_comm,
        show u0 + (x - u0) = x by omega]
      congr 1
      refine Finset.sum_congr rfl fun l hl => ?_
      rw [Finset.mem_range] at hl
      unfold lowE
      rw [if_neg (by omega)]
    · rw [if_neg h2, if_neg (by omega), if_neg (by omega)]

theorem hemmComputeX_eq {ps : List (Nat × Nat)} {a n k : Nat} (hc : Chain a n ps) (hp : ∀ p ∈ ps, 0 < p.2)
    (A W X : Elems K) :
    hemmComputeX ps k A W X = some fun x y =>
      if (a ≤ x ∧ x < n) ∧ y < k then ∑ z ∈ Finset.Ico a n, lowE A x z * W z y else X x y := by
  obtain ⟨s, s1, s2, s3⟩ := hc.bounds hp
  have hmono := bounds_mono (s := s) (n := ps.length) fun j hj => (s3 j hj).2
  unfold hemmComputeX
  rw [getB_zero_loop k hc]
  have key := forM'_upto_st (f := fun X i =>
    forM' (downto (i + 1) 0) X fun X j => hemmTask k A W X (ps.getD i (0, 0)) (ps.getD j (0, 0)))
    (fun i x y => if (a ≤ x ∧ x < n) ∧ y < k then
      (if x < s i then ∑ z ∈ Finset.Ico a (s i), lowE A x z * W z y else 0) else X x y) ps.length ?_
  · rw [s1, s2] at key
    have e1 : (fun x y => if (a ≤ x ∧ x < n) ∧ y < k then
        (if x < a then ∑ z ∈ Finset.Ico a a, lowE A x z * W z y else 0) else X x y) =
        fun x y => if (a ≤ x ∧ x < n) ∧ y < k then (0 : K) else X x y := by
      funext x y
      by_cases h : (a ≤ x ∧ x < n) ∧ y < k
      · rw [if_pos h, if_pos h, if_neg (by omega)]
      · rw [if_neg h, if_neg h]
    rw [e1] at key
    rw [key]
    congr 1
    funext x y
    by_cases h : (a ≤ x ∧ x < n) ∧ y < k
    · rw [if_pos h, if_pos h, if_pos h.1.2]
    · rw [if_neg h, if_neg h]
  · intro i hi
    have hi1 := hmono 0 i (by omega) (by omega)
    have hi2 := hmono (i + 1) ps.length (by omega) (by omega)
    have hi3 := (s3 i hi).2
    rw [s1] at hi1
    rw [s2] at hi2
    have key := forM'_downto_st (f := fun X j => hemmTask k A W X (ps.getD i (0, 0)) (ps.getD j (0, 0)))
      (fun j x y => if (a ≤ x ∧ x < n) ∧ y < k then
        (if s i ≤ x ∧ x < s (i + 1) then ∑ z ∈ Finset.Ico (s j) (s (i + 1)), lowE A x z * W z y
         else if x < s j ∧ x < s i then ∑ z ∈ Finset.Ico a (s i), lowE A x z * W z y
         else if x < s i then ∑ z ∈ Finset.Ico a (s (i + 1)), lowE A x z * W z y else 0) else X x y) (i + 1) ?_
    · have e1 : (fun x y => if (a ≤ x ∧ x < n) ∧ y < k then
        (if s i ≤ x ∧ x < s (i + 1) then ∑ z ∈ Finset.Ico (s (i + 1)) (s (i + 1)), lowE A x z * W z y
         else if x < s (i + 1) ∧ x < s i then ∑ z ∈ Finset.Ico a (s i), lowE A x z * W z y
         else if x < s i then ∑ z ∈ Finset.Ico a (s (i + 1)), lowE A x z * W z y else 0) else X x y) =
         fun x y => if (a ≤ x ∧ x < n) ∧ y < k then
          (if x < s i then ∑ z ∈ Finset.Ico a (s i), lowE A x z * W z y else 0) else X x y := by
        funext x y
        by_cases h : (a ≤ x ∧ x < n) ∧ y < k
        · rw [if_pos h, if_pos h]
          by_cases h1 : x < s i
          · rw [if_pos h1, if_neg (by omega), if_pos (by omega), if_pos h1]
          · rw [if_neg h1]
            by_cases h2 : x < s (i + 1)
            · rw [if_pos (by omega), Finset.Ico_self, Finset.sum_empty, if_neg h1]
            · rw [if_neg (by omega), if_neg (by omega), if_neg (by omega)]
        · rw [if_neg h, if_neg h]
      rw [e1] at key
      rw [key]
      congr 1
      funext x y
      by_cases h : (a ≤ x ∧ x < n) ∧ y < k
      · rw [if_pos h, if_pos h, s1]
        by_cases h2 : x < s (i + 1)
        · rw [if_pos h2]
          by_cases h1 : x < s i
          · rw [if_neg (by omega), if_neg (by omega), if_pos h1]
          · rw [if_pos (by omega)]
        · rw [if_neg h2, if_neg (by omega), if_neg (by omega), if_neg (by omega)]
      · rw [if_neg h, if_neg h]
    · intro j hj
      have hj1 := hmono 0 j (by omega) (by omega)
      rw [s1] at hj1
      rw [(s3 i hi).1]
      by_cases hji : j = i
      · subst hji
        rw [(s3 j hi).1, hemmTask_diag hi3]
        congr 1
        funext x y
        by_cases h : (a ≤ x ∧ x < n) ∧ y < k
        · by_cases h1 : s j ≤ x ∧ x < s (j + 1)
          · rw [if_pos (by omega), if_pos h, if_pos h1, Finset.Ico_self, Finset.sum_empty, zero_add, if_pos h, if_pos h1]
          · rw [if_neg (by omega), if_pos h, if_neg h1, if_pos h, if_neg h1]
            by_cases h2 : x < s j
            · rw [if_pos (by omega), if_pos (by omega)]
            · rw [if_neg (show ¬ (x < s (j + 1) ∧ x < s j) by omega), if_neg (show ¬ (x < s j ∧ x < s j) by omega)]
        · rw [if_neg h, if_neg h, if_neg (by omega)]
      · have hji' : j + 1 ≤ i := by omega
        have hj2 := (s3 j (by omega)).2
        have hj3 := hmono (j + 1) i hji' (by omega)
        rw [(s3 j (by omega)).1, hemmTask_off hi3 hj2 hj3]
        congr 1
        funext x y
        by_cases h : (a ≤ x ∧ x < n) ∧ y < k
        · by_cases h1 : s i ≤ x ∧ x < s (i + 1)
          · rw [if_pos (by omega), if_pos h, if_pos h1, if_pos h, if_pos h1, add_comm,
              Finset.sum_Ico_consecutive _ hj2.le (by omega)]
          · rw [if_neg (by omega), if_pos h, if_neg h1, if_pos h, if_neg h1]
            by_cases h2 : s j ≤ x ∧ x < s (j + 1)
            · rw [if_pos (by omega), if_pos (by omega), if_neg (by omega), if_pos (by omega),
                Finset.sum_Ico_consecutive _ (by omega) hi3.le]
            · rw [if_neg (by omega)]
              by_cases h3 : x < s j
              · rw [if_pos (by omega), if_pos (by omega)]
              · rw [if_neg (show ¬ (x < s (j + 1) ∧ x < s i) by omega), if_neg (show ¬ (x < s j ∧ x < s i) by omega)]
        · rw [if_neg h, if_neg h, if_neg (by omega), if_neg (by omega)]

/-! ### `W2` and the update of `X` -/

theorem gemmComputeW2_eq {ps : List (Nat × Nat)} {a n k : Nat} (hc : Chain a n ps) (W X : Elems K) :
    ∃ d, gemmComputeW2 ps k W X = some d ∧
      IsWin d (fun l y => ∑ x ∈ Finset.Ico a n, star (W x l) * X x y) 0 0 k k := by
  obtain ⟨d, h1, h2⟩ := gemm_acc (g := fun p => p) (t := fun p => getB W p.1 0 p.2 k) (C := X) (k := k) (q0 := 0) (qw := k)
    (ps := ps) (a := a) (e := n) (by simpa using hc) (fun p _ => getB_win W p.1 0 p.2 k) (w2 := Blk.zero k k)
    (Z := fun _ _ => 0) ⟨rfl, rfl, fun _ _ _ _ => rfl⟩
  refine ⟨d, h1, h2.congr fun x _ _ y _ _ => by simp⟩

theorem gemmUpdateX_eq {ps : List (Nat × Nat)} {a n k : Nat} (hc : Chain a n ps) {w2 : Blk K} {Z V' : Elems K}
    (hw : IsWin w2 Z 0 0 k k) (V X : Elems K) (hV : ∀ x, a ≤ x → x < n → ∀ c < k, V x c = V' x c) :
    gemmUpdateX ps k w2 V X = some fun x y =>
      if (a ≤ x ∧ x < n) ∧ (0 ≤ y ∧ y < 0 + k) then
        -(1 / 2) * (∑ l ∈ Finset.range k, V' x l * Z l y) + X x y else X x y := by
  unfold gemmUpdateX
  refine rows_loop (g := fun p => p) (by simpa using hc)
    (fun x y v => -(1 / 2) * (∑ l ∈ Finset.range k, V' x l * Z l y) + v) ?_ X
  intro M p hp
  have hm := hc.mem hp
  obtain ⟨d, h1, h2⟩ := gemm_win .NoTrans .NoTrans (-(1 / 2) : K) 1 (a := getB V p.1 0 p.2 k) (getB_win V p.1 0 p.2 k) hw (getB_win M p.1 0 p.2 k)
  refine ⟨d, by rw [h1]; rfl, h2.congr ?_⟩
  intro x hx1 hx2 y _ _
  simp only [Nat.zero_add, one_mul]
  congr 2
  refine Finset.sum_congr rfl fun l hl => ?_
  rw [hV x (by omega) (by omega) l (Finset.mem_range.1 hl)]

/-! ### `A -= X Vᴴ + V Xᴴ` -/

/-- The updated element. -/
noncomputable def her2kE (k : Nat) (V X A : Elems K) (x y : Nat) : K :=
  A x y - ∑ l ∈ Finset.range k, (X x l * star (V y l) + V x l * star (X y l))

theorem her2kTask_eq {k s0 s1 u0 u1 : Nat} (hs : s0 < s1) (hu : u0 < u1) (hsu : u1 ≤ s0 ∨ (s0 = u0 ∧ s1 = u1))
    (V X A : Elems K) :
    her2kTask k V X A (s0, s1 - s0) (u0, u1 - u0) = some fun x y =>
      if (s0 ≤ x ∧ x < s1) ∧ (u0 ≤ y ∧ y < u1) ∧ y ≤ x then her2kE k V X A x y else A x y := by
  unfold her2kTask
  rcases hsu with hsu | ⟨rfl, rfl⟩
  · rw [if_neg (by simp; omega)]
    unfold gemm
    rw [if_pos (by simp [Blk.op, getB])]
    simp only [putO, Option.map_some, Option.bind_eq_bind, Option.bind_some]
    rw [if_pos (by simp [Blk.op, getB])]
    simp only [Option.map_some, Option.some.injEq]
    funext x y
    simp only [putB, Blk.mul, Blk.op, getB, Nat.zero_add, Nat.sub_zero, one_mul]
    by_cases h1 : (s0 ≤ x ∧ x < s1) ∧ (u0 ≤ y ∧ y < u1) ∧ y ≤ x
    · rw [if_pos h1, if_pos (by omega), if_pos (by omega)]
      unfold her2kE
      have ex : s0 + (x - s0) = x := by omega
      have ey : u0 + (y - u0) = y := by omega
      simp only [Finset.sum_add_distrib, ex, ey]
      ring
    · rw [if_neg h1, if_neg (by omega), if_neg (by omega)]
  · rw [if_pos rfl]
    unfold her2k
    rw [if_pos (by simp [Blk.op, getB])]
    simp only [putO, Option.map_some, Option.some.injEq]
    funext x y
    simp only [putB, Blk.mul, Blk.op, getB, Nat.zero_add, Nat.sub_zero, one_mul]
    by_cases h1 : (s0 ≤ x ∧ x < s1) ∧ (s0 ≤ y ∧ y < s1) ∧ y ≤ x
    · rw [if_pos h1, if_pos (by omega), if_pos (by simp; omega)]
      unfold her2kE
      rw [Finset.sum_add_distrib, show s0 + (x - s0) = x by omega, show s0 + (y - s0) = y by omega, star_neg, star_one]
      ring
    · rw [if_neg h1]
      by_cases h2 : s0 ≤ x ∧ x < s0 + (s1 - s0) ∧ s0 ≤ y ∧ y < s0 + (s1 - s0)
      · rw [if_pos h2, if_neg (by simp; omega), show s0 + (x - s0) = x by omega, show s0 + (y - s0) = y by omega]
      · rw [if_neg h2]

theorem her2kUpdate_eq {ps : List (Nat × Nat)} {a n k : Nat} (hc : Chain a n ps) (hp : ∀ p ∈ ps, 0 < p.2)
    (V X A : Elems K) :
    her2kUpdate ps k V X A = some fun x y =>
      if (a ≤ y ∧ y ≤ x) ∧ x < n then her2kE k V X A x y else A x y := by
  obtain ⟨s, s1, s2, s3⟩ := hc.bounds hp
  have hmono := bounds_mono (s := s) (n := ps.length) fun j hj => (s3 j hj).2
  unfold her2kUpdate
  have key := forM'_upto_st (f := fun A i =>
    forM' (upto 0 (i + 1)) A fun A j => her2kTask k V X A (ps.getD i (0, 0)) (ps.getD j (0, 0)))
    (fun i x y => if (a ≤ y ∧ y ≤ x) ∧ x < s i then her2kE k V X A x y else A x y) ps.length ?_
  · rw [s1, s2] at key
    have e1 : (fun x y => if (a ≤ y ∧ y ≤ x) ∧ x < a then her2kE k V X A x y else A x y) = A := by
      funext x y
      rw [if_neg (by omega)]
    rw [e1] at key
    exact key
  · intro i hi
    have hi1 := hmono 0 i (by omega) (by omega)
    have hi3 := (s3 i hi).2
    rw [s1] at hi1
    have key := forM'_upto_st (f := fun A j => her2kTask k V X A (ps.getD i (0, 0)) (ps.getD j (0, 0)))
      (fun j x y => if (a ≤ y ∧ y ≤ x) ∧ (x < s i ∨ (x < s (i + 1) ∧ y < s j)) then her2kE k V X A x y else A x y) (i + 1) ?_
    · rw [s1] at key
      have e1 : (fun x y => if (a ≤ y ∧ y ≤ x) ∧ (x < s i ∨ (x < s (i + 1) ∧ y < a)) then her2kE k V X A x y else A x y) =
          fun x y => if (a ≤ y ∧ y ≤ x) ∧ x < s i then her2kE k V X A x y else A x y := by
        funext x y
        by_cases h : (a ≤ y ∧ y ≤ x) ∧ x < s i
        · rw [if_pos h, if_pos (by omega)]
        · rw [if_neg h, if_neg (by omega)]
      rw [e1] at key
      rw [key]
      congr 1
      funext x y
      by_cases h : (a ≤ y ∧ y ≤ x) ∧ x < s (i + 1)
      · rw [if_pos h, if_pos (by omega)]
      · rw [if_neg h, if_neg (by omega)]
    · intro j hj
      have hj1 := hmono 0 j (by omega) (by omega)
      rw [s1] at hj1
      have hj2 := (s3 j (by omega)).2
      have hj3 : s (j + 1) ≤ s i ∨ (s i = s j ∧ s (i + 1) = s (j + 1)) := by
        by_cases h : j = i
        · exact .inr ⟨by rw [h], by rw [h]⟩
        · exact .inl (hmono (j + 1) i (by omega) (by omega))
      rw [(s3 i hi).1, (s3 j (by omega)).1, her2kTask_eq hi3 hj2 hj3]
      congr 1
      funext x y
      by_cases h : (s i ≤ x ∧ x < s (i + 1)) ∧ (s j ≤ y ∧ y < s (j + 1)) ∧ y ≤ x
      · rw [if_pos h, if_pos (by omega)]
        unfold her2kE
        beta_reduce
        rw [if_neg (by omega)]
      · rw [if_neg h]
        by_cases h2 : (a ≤ y ∧ y ≤ x) ∧ (x < s i ∨ (x < s (i + 1) ∧ y < s j))
        · rw [if_pos h2, if_pos (by omega)]
        · rw [if_neg h2, if_neg (by omega)]

end DLAF
