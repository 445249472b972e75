import Verif.Lemmas.TriangularVariants
/- Tiles as blocks of a matrix of elements: what each kernel does to the elements. -/
namespace DLAF
variable {K : Type*} [Field K] [StarRing K]

/-- Sum over the indices of tile `k`. -/
def tsum (sz : Nat → Nat) (k : Nat) (f : Nat → K) : K := ∑ e ∈ Finset.range (sz k), f (tileStart sz k + e)

/-- `x` is an index of tile `i`. -/
def inTile (sz : Nat → Nat) (i x : Nat) : Prop := tileStart sz i ≤ x ∧ x < tileStart sz (i + 1)

theorem inTile_off {sz : Nat → Nat} {i r : Nat} (h : r < sz i) : inTile sz i (tileStart sz i + r) := by
  refine ⟨by omega, ?_⟩
  rw [tileStart_succ]
  omega

theorem inTile_exists {sz : Nat → Nat} {i x : Nat} (h : inTile sz i x) : ∃ r < sz i, x = tileStart sz i + r := by
  obtain ⟨h1, h2⟩ := h
  rw [tileStart_succ] at h2
  exact ⟨x - tileStart sz i, by omega, by omega⟩

theorem inTile_lt {sz : Nat → Nat} {i n x : Nat} (h : inTile sz i x) (hi : i < n) : x < tileStart sz n := by
  have := tileStart_mono sz (show i + 1 ≤ n by omega)
  exact lt_of_lt_of_le h.2 this

theorem inTile_ge {sz : Nat → Nat} {i n x : Nat} (h : inTile sz i x) (hi : n ≤ i) : tileStart sz n ≤ x :=
  le_trans (tileStart_mono sz hi) h.1

theorem inTile_lt_of {sz : Nat → Nat} {i j x y : Nat} (hx : inTile sz i x) (hy : inTile sz j y) (h : i < j) : x < y :=
  lt_of_lt_of_le (inTile_lt hx h) hy.1

omit [StarRing K] in
theorem tsum_congr {sz : Nat → Nat} {k : Nat} {f g : Nat → K} (h : ∀ z, inTile sz k z → f z = g z) :
    tsum sz k f = tsum sz k g :=
  Finset.sum_congr rfl fun _ he => h _ (inTile_off (Finset.mem_range.1 he))

omit [StarRing K] in
theorem tsum_eq_Ico (sz : Nat → Nat) (k : Nat) (f : Nat → K) :
    tsum sz k f = ∑ z ∈ Finset.Ico (tileStart sz k) (tileStart sz (k + 1)), f z := by
  rw [Finset.sum_Ico_eq_sum_range, tileStart_succ, Nat.add_sub_cancel_left]
  rfl

omit [StarRing K] in
/-- Split off the first tile of a trailing sum. -/
theorem trail_split (sz : Nat → Nat) {k nt : Nat} (hk : k < nt) (f : Nat → K) :
    ∑ z ∈ Finset.Ico (tileStart sz k) (tileStart sz nt), f z =
      tsum sz k f + ∑ z ∈ Finset.Ico (tileStart sz (k + 1)) (tileStart sz nt), f z := by
  rw [tsum_eq_Ico, Finset.sum_Ico_consecutive _ (tileStart_mono sz (by omega)) (tileStart_mono sz (by omega))]

omit [StarRing K] in
/-- Add the last tile to a leading sum. -/
theorem lead_split (sz : Nat → Nat) (k : Nat) (f : Nat → K) :
    ∑ z ∈ Finset.range (tileStart sz (k + 1)), f z = ∑ z ∈ Finset.range (tileStart sz k), f z + tsum sz k f := by
  rw [tileStart_succ, Finset.sum_range_add]
  rfl

omit [StarRing K] in
/-- A sum all of whose nonzero terms are in tile `k`. -/
theorem sum_one_tile (sz : Nat → Nat) {k nt : Nat} (hk : k < nt) {f : Nat → K} (h0 : ∀ z < tileStart sz k, f z = 0)
    (h1 : ∀ z, tileStart sz (k + 1) ≤ z → z < tileStart sz nt → f z = 0) :
    ∑ z ∈ Finset.range (tileStart sz nt), f z = tsum sz k f := by
  have hm := tileStart_mono sz (show k ≤ nt by omega)
  rw [← Finset.sum_range_add_sum_Ico f hm, trail_split sz hk,
    Finset.sum_eq_zero (fun z hz => h0 z (Finset.mem_range.1 hz)),
    Finset.sum_eq_zero (s := Finset.Ico _ _) (fun z hz => h1 z (Finset.mem_Ico.1 hz).1 (Finset.mem_Ico.1 hz).2)]
  ring

omit [StarRing K] in
/-- A sum whose first nonzero terms are in tile `k`. -/
theorem sum_from_tile (sz : Nat → Nat) {k nt : Nat} (hk : k ≤ nt) {f : Nat → K} (h0 : ∀ z < tileStart sz k, f z = 0) :
    ∑ z ∈ Finset.range (tileStart sz nt), f z = ∑ z ∈ Finset.Ico (tileStart sz k) (tileStart sz nt), f z := by
  have hm := tileStart_mono sz hk
  rw [← Finset.sum_range_add_sum_Ico f hm,
    Finset.sum_eq_zero (fun z hz => h0 z (Finset.mem_range.1 hz)), zero_add]

/-- The tile `b` is block `(i, j)` of the matrix `F`. -/
structure IsBlk (rs cs : Nat → Nat) (i j : Nat) (b : Blk K) (F : Nat → Nat → K) : Prop where
  rows : b.rows = rs i
  cols : b.cols = cs j
  e : ∀ r < rs i, ∀ c < cs j, b.e r c = F (tileStart rs i + r) (tileStart cs j + c)

omit [Field K] [StarRing K] in
theorem IsBlk.congr {rs cs : Nat → Nat} {i j : Nat} {b : Blk K} {F G : Nat → Nat → K} (h : IsBlk rs cs i j b F)
    (hFG : ∀ x y, inTile rs i x → inTile cs j y → F x y = G x y) : IsBlk rs cs i j b G :=
  ⟨h.rows, h.cols, fun r hr c hc => by rw [h.e r hr c hc, hFG _ _ (inTile_off hr) (inTile_off hc)]⟩

theorem IsBlk.op {rs cs : Nat → Nat} {i j : Nat} {b : Blk K} {F : Nat → Nat → K} (h : IsBlk rs cs i j b F) :
    IsBlk cs rs j i (b.op .ConjTrans) (adjE F) :=
  ⟨h.cols, h.rows, fun r hr c hc => by simp only [Blk.op, adjE]; rw [h.e c hc r hr]⟩

theorem IsBlk.adj {rs cs : Nat → Nat} {i j : Nat} {b : Blk K} {F : Nat → Nat → K} (h : IsBlk rs cs i j b F) :
    IsBlk cs rs j i b.adj (adjE F) := h.op

/-- `m` holds the matrix `F`. -/
def Has (m : Tiles K) (rs cs : Nat → Nat) (nr nc : Nat) (F : Nat → Nat → K) : Prop :=
  ∀ i < nr, ∀ j < nc, IsBlk rs cs i j (m (i, j)) F

omit [Field K] [StarRing K] in
theorem Has.of {m : Tiles K} {rs cs : Nat → Nat} {nr nc : Nat} {F : Nat → Nat → K} (hs : Shaped m rs cs nr nc)
    (h : HoldsOn m rs cs nr nc F fun _ _ => True) : Has m rs cs nr nc F :=
  fun i hi j hj => ⟨(hs i hi j hj).1, (hs i hi j hj).2, fun r hr c hc => h i hi j hj r hr c hc trivial⟩

omit [Field K] [StarRing K] in
theorem Has.shaped {m : Tiles K} {rs cs : Nat → Nat} {nr nc : Nat} {F : Nat → Nat → K} (h : Has m rs cs nr nc F) :
    Shaped m rs cs nr nc := fun i hi j hj => ⟨(h i hi j hj).rows, (h i hi j hj).cols⟩

omit [Field K] [StarRing K] in
theorem Has.holds {m : Tiles K} {rs cs : Nat → Nat} {nr nc : Nat} {F : Nat → Nat → K} (h : Has m rs cs nr nc F)
    (sel) : HoldsOn m rs cs nr nc F sel := fun i hi j hj r hr c hc _ => (h i hi j hj).e r hr c hc

theorem Has.adj {m : Tiles K} {rs cs : Nat → Nat} {nr nc : Nat} {F : Nat → Nat → K} (h : Has m rs cs nr nc F) :
    Has (adjT m) cs rs nc nr (adjE F) := fun i hi j hj => (h j hj i hi).adj

/-- A write with a known value. -/
theorem write_of {E : Type*} {m : Tiles E} {w : Nat × Nat} {t : Option (Blk E)} {b : Blk E} (h : t = some b) :
    ∃ m', m.write w t = some m' ∧ m' w = b ∧ ∀ z, z ≠ w → m' z = m z := by
  subst h
  refine ⟨_, rfl, by simp, ?_⟩
  intro z hz
  simp [hz]

/-- Iterations that each work on a group of tiles of their own, and read besides only tiles that the loop does not
write. -/
theorem forM'_own {E X : Type*} (xs : List X) (g : Nat × Nat → Option X) (b : Tiles E → X → Option (Tiles E))
    (m0 : Tiles E) (Q : Nat × Nat → Blk E → Prop) (hnd : xs.Nodup)
    (hb : ∀ x ∈ xs, ∀ m : Tiles E, (∀ z, (g z = some x ∨ ∀ y ∈ xs, g z ≠ some y) → m z = m0 z) →
      ∃ m', b m x = some m' ∧ (∀ z, g z = some x → Q z (m' z)) ∧ ∀ z, g z ≠ some x → m' z = m z) :
    ∃ m1, forM' xs m0 b = some m1 ∧ (∀ z, ∀ x ∈ xs, g z = some x → Q z (m1 z)) ∧
      ∀ z, (∀ y ∈ xs, g z ≠ some y) → m1 z = m0 z := by
  obtain ⟨m1, h1, h2, h3⟩ := forM'_list_inv (b := b) xs
    (fun done s => (∀ z, ∀ x ∈ done, g z = some x → Q z (s z)) ∧ ∀ z, (∀ y ∈ done, g z ≠ some y) → s z = m0 z) (by
      rintro done x rest s hs ⟨i1, i2⟩
      have hx : x ∉ done := by
        rw [hs] at hnd
        intro hh
        exact (List.nodup_append.1 hnd).2.2 x hh x List.mem_cons_self rfl
      have hxm : x ∈ xs := by rw [hs]; simp
      have hsub : ∀ y ∈ done, y ∈ xs := by intro y hy; rw [hs]; simp [hy]
      obtain ⟨s', g1, g2, g3⟩ := hb x hxm s (by
        rintro z (hz | hz)
        · refine i2 z ?_
          intro y hy hzy
          rw [hz] at hzy
          exact hx (Option.some.inj hzy ▸ hy)
        · exact i2 z fun y hy => hz y (hsub y hy))
      refine ⟨s', g1, ?_, ?_⟩
      · intro z y hy hz
        rw [List.mem_append, List.mem_singleton] at hy
        by_cases h : y = x
        · subst h; exact g2 z hz
        · rw [g3 z (by rw [hz]; intro h'; exact h (Option.some.inj h'))]
          exact i1 z y (hy.resolve_right h) hz
      · intro z hz
        rw [g3 z (hz x (by simp))]
        exact i2 z fun y hy => hz y (by simp [hy])) (s := m0) ⟨by simp, fun _ _ => rfl⟩
  exact ⟨m1, h1, h2, h3⟩

/-! Kernels on blocks. -/
section kernels
variable {rs cs ks sz : Nat → Nat} {i j k : Nat} {a b c : Blk K} {F G H : Nat → Nat → K}

theorem blk_gemm (oa ob : BlasOp) (alpha beta : K) (ha : IsBlk rs ks i k (a.op oa) F) (hb : IsBlk ks cs k j (b.op ob) G)
    (hc : IsBlk rs cs i j c H) :
    ∃ c', gemm oa ob alpha a b beta c = some c' ∧
      IsBlk rs cs i j c' fun x y => alpha * tsum ks k (fun z => F x z * G z y) + beta * H x y := by
  refine ⟨_, if_pos ⟨ha.rows.trans hc.rows.symm, hb.cols.trans hc.cols.symm, ha.cols.trans hb.rows.symm⟩, hc.rows, hc.cols, ?_⟩
  intro r hr q hq
  simp only [Blk.mul, ha.cols]
  rw [hc.e r hr q hq]
  congr 2
  refine Finset.sum_congr rfl fun e he => ?_
  rw [Finset.mem_range] at he
  rw [ha.e r hr e he, hb.e e he q hq]

omit [StarRing K] in
/-- Block `(k, k)` of a triangular matrix. -/
theorem blk_tri (u : Uplo) (d : Diag) (ha : IsBlk sz sz k k a F) : IsBlk sz sz k k (a.tri u d) (triE u d F) := by
  refine ⟨ha.rows, ha.cols, ?_⟩
  intro r hr c hc
  simp only [Blk.tri, triE, Nat.add_left_cancel_iff]
  rw [ha.e r hr c hc]
  cases u <;> simp only [decide_eq_true_eq, Nat.add_lt_add_iff_left]

theorem blk_op (o : BlasOp) (ha : IsBlk sz sz k k a F) : IsBlk sz sz k k (a.op o) (opE o F) := by
  cases o
  · exact ha
  · exact ⟨ha.cols, ha.rows, fun r hr c hc => ha.e c hc r hr⟩
  · exact ha.op

omit [StarRing K] in
theorem blk_nonsing {d : Diag} (ha : IsBlk sz sz k k a F) (h : d = .Unit ∨ ∀ x, inTile sz k x → F x x ≠ 0) :
    Nonsing d a := by
  refine ⟨ha.rows.trans ha.cols.symm, h.imp id fun h i hi => ?_⟩
  rw [ha.rows] at hi
  rw [ha.e i hi i hi]
  exact h _ (inTile_off hi)

omit [StarRing K] in
theorem cancel_left {n m : Nat} {T X Y : Nat → Nat → K} (hdet : (toM n n T).det ≠ 0)
    (h : ∀ r < n, ∀ c < m, ∑ l ∈ Finset.range n, T r l * X l c = ∑ l ∈ Finset.range n, T r l * Y l c) :
    ∀ r < n, ∀ c < m, X r c = Y r c := by
  have hM : toM n n T * toM n m X = toM n n T * toM n m Y := by
    ext r c
    rw [← sum_mul_eq, ← sum_mul_eq]
    exact h r r.2 c c.2
  have hXY : toM n m X = toM n m Y := by
    have := congrArg (fun M => (toM n n T)⁻¹ * M) hM
    simpa only [← Matrix.mul_assoc, Matrix.nonsing_inv_mul _ (isUnit_iff_ne_zero.2 hdet), Matrix.one_mul] using this
  intro r hr c hc
  exact congrFun (congrFun hXY ⟨r, hr⟩) ⟨c, hc⟩

omit [StarRing K] in
theorem cancel_right {n m : Nat} {T X Y : Nat → Nat → K} (hdet : (toM n n T).det ≠ 0)
    (h : ∀ r < m, ∀ c < n, ∑ l ∈ Finset.range n, X r l * T l c = ∑ l ∈ Finset.range n, Y r l * T l c) :
    ∀ r < m, ∀ c < n, X r c = Y r c := by
  have hM : toM m n X * toM n n T = toM m n Y * toM n n T := by
    ext r c
    rw [← sum_mul_eq, ← sum_mul_eq]
    exact h r r.2 c c.2
  have hXY : toM m n X = toM m n Y := by
    have := congrArg (fun M => M * (toM n n T)⁻¹) hM
    simpa only [Matrix.mul_assoc, Matrix.mul_nonsing_inv _ (isUnit_iff_ne_zero.2 hdet), Matrix.mul_one] using this
  intro r hr c hc
  exact congrFun (congrFun hXY ⟨r, hr⟩) ⟨c, hc⟩

/-- `trsm` from the left finds the `G` that solves the system. -/
theorem blk_trsm_left {lp : Lapack K} {pos : K → Prop} (hl : LapackSpec lp pos) (u : Uplo) (o : BlasOp) (d : Diag) (alpha : K)
    (ha : IsBlk sz sz k k a F) (hn : d = .Unit ∨ ∀ x, inTile sz k x → F x x ≠ 0) (hb : IsBlk sz cs k j b H)
    (hG : ∀ x y, inTile sz k x → inTile cs j y → tsum sz k (fun z => opE o (triE u d F) x z * G z y) = alpha * H x y) :
    ∃ b', lp.tileTrsm .Left u o d alpha a b = some b' ∧ IsBlk sz cs k j b' G := by
  have hns := blk_nonsing ha hn
  have hsz : triSizes .Left a b = true := by rw [triSizes_left, ha.rows, ha.cols, hb.rows]; exact ⟨rfl, rfl⟩
  have hT := blk_op o (blk_tri u d ha)
  refine ⟨_, if_pos hsz, hb.rows, hb.cols, ?_⟩
  have hdet := tri_op_det (u := u) (o := o) hns
  rw [ha.rows] at hdet
  refine cancel_left (n := sz k) (m := cs j) (Y := fun r c => G (tileStart sz k + r) (tileStart cs j + c)) hdet ?_
  intro r hr c hc
  have h1 := hl.trsm_left u o d alpha a b hns (ha.rows.trans hb.rows.symm) r (by rw [hb.rows]; exact hr) c
    (by rw [hb.cols]; exact hc)
  rw [hb.rows] at h1
  rw [h1, hb.e r hr c hc, ← hG _ _ (inTile_off hr) (inTile_off hc)]
  refine Finset.sum_congr rfl fun e he => ?_
  rw [hT.e r hr e (Finset.mem_range.1 he)]

/-- `trsm` from the right finds the `G` that solves the system. -/
theorem blk_trsm_right {lp : Lapack K} {pos : K → Prop} (hl : LapackSpec lp pos) (u : Uplo) (o : BlasOp) (d : Diag)
    (alpha : K) (ha : IsBlk sz sz k k a F) (hn : d = .Unit ∨ ∀ x, inTile sz k x → F x x ≠ 0) (hb : IsBlk rs sz i k b H)
    (hG : ∀ x y, inTile rs i x → inTile sz k y → tsum sz k (fun z => G x z * opE o (triE u d F) z y) = alpha * H x y) :
    ∃ b', lp.tileTrsm .Right u o d alpha a b = some b' ∧ IsBlk rs sz i k b' G := by
  have hns := blk_nonsing ha hn
  have hsz : triSizes .Right a b = true := by rw [triSizes_right, ha.rows, ha.cols, hb.cols]; exact ⟨rfl, rfl⟩
  have hT := blk_op o (blk_tri u d ha)
  refine ⟨_, if_pos hsz, hb.rows, hb.cols, ?_⟩
  have hdet := tri_op_det (u := u) (o := o) hns
  rw [ha.rows] at hdet
  have := cancel_right (n := sz k) (m := rs i) (X := lp.trsm .Right u o d alpha a b)
    (Y := fun r c => G (tileStart rs i + r) (tileStart sz k + c)) hdet (by
    intro r hr c hc
    have h1 := hl.trsm_right u o d alpha a b hns (ha.rows.trans hb.cols.symm) r (by rw [hb.rows]; exact hr) c
      (by rw [hb.cols]; exact hc)
    rw [hb.cols] at h1
    rw [h1, hb.e r hr c hc, ← hG _ _ (inTile_off hr) (inTile_off hc)]
    refine Finset.sum_congr rfl fun e he => ?_
    rw [hT.e e (Finset.mem_range.1 he) c hc])
  exact this

theorem blk_trmm_left (u : Uplo) (o : BlasOp) (d : Diag) (alpha : K) (ha : IsBlk sz sz k k a F) (hb : IsBlk sz cs k j b H) :
    ∃ b', trmm .Left u o d alpha a b = some b' ∧
      IsBlk sz cs k j b' fun x y => alpha * tsum sz k fun z => opE o (triE u d F) x z * H z y := by
  have hsz : triSizes .Left a b = true := by rw [triSizes_left, ha.rows, ha.cols, hb.rows]; exact ⟨rfl, rfl⟩
  have hT := blk_op o (blk_tri u d ha)
  refine ⟨_, if_pos hsz, hb.rows, hb.cols, ?_⟩
  intro r hr q hq
  simp only [Blk.mul, hT.cols]
  congr 1
  refine Finset.sum_congr rfl fun e he => ?_
  rw [Finset.mem_range] at he
  rw [hT.e r hr e he, hb.e e he q hq]

/-- `herk` on a diagonal block. -/
theorem blk_herk_lower (o : BlasOp) (alpha beta : K) (ha : IsBlk sz ks i k (a.op o) F) (hc : IsBlk sz sz i i c H) :
    ∃ c', herk .Lower o alpha a beta c = some c' ∧ IsBlk sz sz i i c' fun x y =>
      if y ≤ x then alpha * tsum ks k (fun z => F x z * star (F y z)) + beta * H x y else H x y := by
  refine ⟨_, if_pos ⟨hc.rows.trans hc.cols.symm, hc.rows.trans ha.rows.symm⟩, hc.rows, hc.cols, ?_⟩
  intro r hr q hq
  simp only [Blk.mul, ha.cols, decide_eq_true_eq, Nat.add_le_add_iff_left]
  rw [hc.e r hr q hq]
  split
  · congr 2
    refine Finset.sum_congr rfl fun e he => ?_
    rw [Finset.mem_range] at he
    rw [ha.e r hr e he, ha.op.e e he q hq]
    rfl
  · rfl

/-- `her2k` on a diagonal block. -/
theorem blk_her2k_lower (alpha beta : K) (ha : IsBlk sz ks i k a F) (hb : IsBlk sz ks i k b G) (hc : IsBlk sz sz i i c H) :
    ∃ c', her2k .Lower .NoTrans alpha a b beta c = some c' ∧ IsBlk sz sz i i c' fun x y =>
      if y ≤ x then alpha * tsum ks k (fun z => F x z * star (G y z)) + star alpha * tsum ks k (fun z => G x z * star (F y z))
        + beta * H x y else H x y := by
  refine ⟨_, if_pos ⟨hc.rows.trans hc.cols.symm, ha.rows.trans hb.rows.symm, ha.cols.trans hb.cols.symm,
    hc.rows.trans ha.rows.symm⟩, hc.rows, hc.cols, ?_⟩
  intro r hr q hq
  have e1 : ∀ (a : Blk K), a.op .NoTrans = a := fun _ => rfl
  simp only [e1, Blk.mul, ha.cols, hb.cols, decide_eq_true_eq, Nat.add_le_add_iff_left]
  rw [hc.e r hr q hq]
  split
  · congr 3
    · refine Finset.sum_congr rfl fun e he => ?_
      rw [Finset.mem_range] at he
      rw [ha.e r hr e he, hb.op.e e he q hq]
      rfl
    · refine Finset.sum_congr rfl fun e he => ?_
      rw [Finset.mem_range] at he
      rw [hb.e r hr e he, ha.op.e e he q hq]
      rfl
  · rfl

/-- `hemm` from the right with a Hermitian diagonal block. -/
theorem blk_hemm_right (alpha beta : K) (ha : IsBlk sz sz k k a F) (hb : IsBlk rs sz i k b G) (hc : IsBlk rs sz i k c H) :
    ∃ c', hemm .Right .Lower alpha a b beta c = some c' ∧ IsBlk rs sz i k c' fun x y =>
      alpha * tsum sz k (fun z => G x z * if y ≤ z then F z y else star (F y z)) + beta * H x y := by
  refine ⟨_, if_pos ⟨hc.rows.trans hb.rows.symm, hc.cols.trans ha.cols.symm, ha.rows.trans hb.cols.symm⟩, hc.rows,
    hc.cols, ?_⟩
  intro r hr q hq
  simp only [Blk.mul, hb.cols, Blk.herm, decide_eq_true_eq]
  rw [hc.e r hr q hq]
  congr 2
  refine Finset.sum_congr rfl fun e he => ?_
  rw [Finset.mem_range] at he
  rw [hb.e r hr e he]
  simp only [Nat.add_le_add_iff_left]
  split
  · rw [ha.e e he q hq]
  · rw [ha.e q hq e he]

/-- `trtri` finds the inverse `W`. -/
theorem blk_trtri {lp : Lapack K} {pos : K → Prop} (hl : LapackSpec lp pos) (u : Uplo) (d : Diag)
    (ha : IsBlk sz sz k k a F) (hn : d = .Unit ∨ ∀ x, inTile sz k x → F x x ≠ 0)
    (hG : ∀ x y, inTile sz k x → inTile sz k y →
      tsum sz k (fun z => triE u d F x z * G z y) = if x = y then 1 else 0) :
    ∃ a', lp.tileTrtri u d a = some a' ∧ a'.rows = sz k ∧ a'.cols = sz k ∧
      (∀ r < sz k, ∀ c < sz k, inTri u d r c → a'.e r c = G (tileStart sz k + r) (tileStart sz k + c)) ∧
      ∀ r < sz k, ∀ c < sz k, ¬ inTri u d r c → a'.e r c = F (tileStart sz k + r) (tileStart sz k + c) := by
  have hns := blk_nonsing ha hn
  obtain ⟨f, h1, h2, h3⟩ := hl.trtri u d a hns
  have hsq : a.rows = a.cols := ha.rows.trans ha.cols.symm
  have hT := blk_tri u d ha
  rw [ha.rows] at h2 h3
  have hdet := tri_det (u := u) hns
  rw [ha.rows] at hdet
  have hcan := cancel_left (n := sz k) (m := sz k) (X := ((⟨sz k, sz k, f⟩ : Blk K).tri u d).e)
    (Y := fun r c => G (tileStart sz k + r) (tileStart sz k + c)) hdet (by
      intro r hr c hc
      rw [h2 r hr c hc]
      have := hG _ _ (inTile_off hr) (inTile_off hc)
      simp only [Nat.add_left_cancel_iff] at this
      rw [← this]
      refine Finset.sum_congr rfl fun e he => ?_
      rw [hT.e r hr e (Finset.mem_range.1 he)])
  refine ⟨⟨a.rows, a.cols, f⟩, ?_, ha.rows, ha.cols, ?_, ?_⟩
  · unfold Lapack.tileTrtri
    rw [if_pos hsq, h1]
    rfl
  · intro r hr c hc ht
    rw [← hcan r hr c hc]
    show f r c = _
    simp only [Blk.tri]
    cases u
    · rcases ht with h | ⟨h, hd⟩
      · rw [if_neg (by omega), if_pos (by simpa using h)]
      · rw [if_pos h.symm, if_neg (by rw [hd]; simp)]
    · rcases ht with h | ⟨h, hd⟩
      · rw [if_neg (by omega), if_pos (by simpa using h)]
      · rw [if_pos h, if_neg (by rw [hd]; simp)]
  · intro r hr c hc ht
    rw [← ha.e r hr c hc]
    exact h3 r hr c hc ht

/-- `lauum` on the lower triangle. -/
theorem blk_lauum_lower {lp : Lapack K} {pos : K → Prop} (hl : LapackSpec lp pos) (ha : IsBlk sz sz k k a F) :
    ∃ a', lp.tileLauum .Lower a = some a' ∧ IsBlk sz sz k k a' fun x y =>
      if y ≤ x then tsum sz k (fun z => star (triE .Lower .NonUnit F z x) * triE .Lower .NonUnit F z y) else F x y := by
  have hsq : a.rows = a.cols := ha.rows.trans ha.cols.symm
  obtain ⟨f, h1, h2, h3⟩ := hl.lauum .Lower a hsq
  have hT := blk_tri .Lower .NonUnit ha
  rw [ha.rows] at h2 h3
  refine ⟨⟨a.rows, a.cols, f⟩, ?_, ha.rows, ha.cols, ?_⟩
  · unfold Lapack.tileLauum
    rw [if_pos hsq, h1]
    rfl
  · intro r hr c hc
    simp only [Nat.add_le_add_iff_left]
    by_cases h : c ≤ r
    · rw [if_pos h, h2 r hr c hc (by simp only [inTri]; rcases Nat.lt_or_eq_of_le h with h | h; exact Or.inl h; exact Or.inr ⟨h, trivial⟩)]
      refine Finset.sum_congr rfl fun e he => ?_
      rw [hT.e e (Finset.mem_range.1 he) r hr, hT.e e (Finset.mem_range.1 he) c hc]
    · rw [if_neg h, ← ha.e r hr c hc]
      exact h3 r hr c hc (by simp only [inTri]; omega)

end kernels
end DLAF
