import Verif.Model.Multiplication
import Verif.Props.Triangular
/- C32: Hermitian and general multiplication. -/
namespace DLAF
variable {K : Type*} [Field K] [StarRing K]

/-- The Hermitian matrix given by the `u` triangle of `A`. -/
def hermE (u : Uplo) (A : Nat → Nat → K) (r c : Nat) : K :=
  match u with
  | .Lower => if c ≤ r then A r c else star (A c r)
  | .Upper => if r ≤ c then A r c else star (A c r)

theorem gemm_some {oa ob : BlasOp} {alpha beta : K} {a b c : Blk K}
    (h : (a.op oa).rows = c.rows ∧ (b.op ob).cols = c.cols ∧ (a.op oa).cols = (b.op ob).rows) :
    gemm oa ob alpha a b beta c =
      some ⟨c.rows, c.cols, fun r q => alpha * ((a.op oa).mul (b.op ob)).e r q + beta * c.e r q⟩ := by
  unfold gemm
  exact if_pos h

omit [StarRing K] in
/-- A sequence of updates of one tile. -/
theorem accumulate_loop (w : Nat × Nat) (alpha : K) (t : Nat → K → Blk K → Option (Blk K)) (P : Nat → Nat → Nat → K)
    (R C : Nat) (ls : List Nat)
    (ht : ∀ l ∈ ls, ∀ bt (x : Blk K), x.rows = R → x.cols = C →
      ∃ f, t l bt x = some ⟨R, C, f⟩ ∧ ∀ r < R, ∀ c < C, f r c = alpha * P l r c + bt * x.e r c)
    (c : Tiles K) (bt : K) (hr : (c w).rows = R) (hc : (c w).cols = C) :
    ∃ c' bt', forM' ls (c, bt) (fun s l => accumulate w (t l) s) = some (c', bt') ∧ (c' w).rows = R ∧ (c' w).cols = C ∧
      (∀ r < R, ∀ q < C, bt' * (c' w).e r q = alpha * (ls.map fun l => P l r q).sum + bt * (c w).e r q) ∧
      (∀ z, z ≠ w → c' z = c z) ∧ (ls = [] → bt' = bt) ∧ (bt = 1 ∨ ls ≠ [] → bt' = 1) := by
  induction ls generalizing c bt with
  | nil => exact ⟨c, bt, rfl, hr, hc, by simp, fun _ _ => rfl, fun _ => rfl, by simp⟩
  | cons l ls ih =>
    obtain ⟨f, e1, e2⟩ := ht l List.mem_cons_self bt (c w) hr hc
    obtain ⟨c1, hc1⟩ : ∃ c1 : Tiles K, c1 = fun z => if z = w then ⟨R, C, f⟩ else c z := ⟨_, rfl⟩
    have hacc : accumulate w (t l) (c, bt) = some (c1, 1) := by
      unfold accumulate Tiles.write
      rw [e1, hc1]
      rfl
    have hw : c1 w = ⟨R, C, f⟩ := by rw [hc1]; simp
    obtain ⟨c', bt', g1, g2, g3, g4, g5, g6, g7⟩ := ih (fun l' hl' => ht l' (List.mem_cons_of_mem _ hl')) c1 1
      (by rw [hw]) (by rw [hw])
    refine ⟨c', bt', ?_, g2, g3, ?_, ?_, by simp, fun _ => g7 (Or.inl rfl)⟩
    · rw [forM'_cons, hacc]; exact g1
    · intro r hr' q hq
      rw [g4 r hr' q hq, hw, List.map_cons, List.sum_cons]
      simp only
      rw [e2 r hr' q hq]
      ring
    · intro z hz
      rw [g5 z hz, hc1]
      simp [hz]

theorem tiles2d_nodup (m n : Nat) : (tiles2d m n).Nodup := by
  unfold tiles2d
  rw [List.nodup_flatMap]
  refine ⟨fun j _ => (upto_nodup 0 m).map fun a b h => (Prod.mk.inj h).1, ?_⟩
  refine (upto_nodup 0 n).imp ?_
  intro i j hij z h1 h2
  rw [List.mem_map] at h1 h2
  obtain ⟨x, _, rfl⟩ := h1
  obtain ⟨y, _, h⟩ := h2
  exact hij (Prod.mk.inj h).2.symm

theorem mem_tiles2d {m n : Nat} {z : Nat × Nat} : z ∈ tiles2d m n ↔ z.1 < m ∧ z.2 < n := by
  unfold tiles2d
  simp only [List.mem_flatMap, List.mem_map, mem_upto]
  constructor
  · rintro ⟨j, hj, i, hi, rfl⟩
    exact ⟨hi.2, hj.2⟩
  · rintro ⟨h1, h2⟩
    exact ⟨z.2, ⟨Nat.zero_le _, h2⟩, z.1, ⟨Nat.zero_le _, h1⟩, rfl⟩

/-- A loop over the tiles in which each iteration updates its own tile. -/
theorem tiles2d_loop {E : Type*} {m n : Nat} {b : Tiles E → Nat × Nat → Option (Tiles E)} {c0 : Tiles E}
    {Q : Nat × Nat → Blk E → Prop}
    (hb : ∀ z ∈ tiles2d m n, ∀ c : Tiles E, c z = c0 z →
      ∃ c', b c z = some c' ∧ Q z (c' z) ∧ ∀ y, y ≠ z → c' y = c y) :
    ∃ c1, forM' (tiles2d m n) c0 b = some c1 ∧ (∀ i < m, ∀ j < n, Q (i, j) (c1 (i, j))) ∧
      ∀ i j, m ≤ i ∨ n ≤ j → c1 (i, j) = c0 (i, j) := by
  obtain ⟨c1, h1, h2, h3⟩ := forM'_list_inv (b := b) (tiles2d m n)
    (fun done s => (∀ z ∈ done, Q z (s z)) ∧ ∀ z, z ∉ done → s z = c0 z) (by
      rintro done x rest s hs ⟨i1, i2⟩
      have hx : x ∉ done := by
        have := tiles2d_nodup m n
        rw [hs] at this
        intro hh
        exact (List.nodup_append.1 this).2.2 x hh x List.mem_cons_self rfl
      obtain ⟨s', g1, g2, g3⟩ := hb x (by rw [hs]; simp) s (i2 x hx)
      refine ⟨s', g1, ?_, ?_⟩
      · intro z hz
        rw [List.mem_append, List.mem_singleton] at hz
        by_cases h : z = x
        · subst h; exact g2
        · rw [g3 z h]; exact i1 z (hz.resolve_right h)
      · intro z hz
        rw [List.mem_append, List.mem_singleton, not_or] at hz
        rw [g3 z hz.2]; exact i2 z hz.1) (s := c0) ⟨by simp, fun _ _ => rfl⟩
  refine ⟨c1, h1, fun i hi j hj => h2 _ (mem_tiles2d.2 ⟨hi, hj⟩), fun i j hij => h3 _ ?_⟩
  rw [mem_tiles2d]
  rintro ⟨g1, g2⟩
  simp only at g1 g2
  omega

omit [Field K] [StarRing K] in
theorem tiles2d_nested {m n : Nat} (c : Tiles K) (b : Tiles K → Nat × Nat → Option (Tiles K)) :
    (forM' (upto 0 n) c fun c j => forM' (upto 0 m) c fun c i => b c (i, j)) = forM' (tiles2d m n) c b := by
  unfold tiles2d
  rw [forM'_flatMap]
  congr 1
  funext c j
  rw [forM'_map]

omit [StarRing K] in
theorem herm_split {i k : Nat} (hi : i < k) (f : Nat → K) :
    ∑ l ∈ Finset.range k, f l = ((upto 0 i).map f).sum + f i + ((upto (i + 1) k).map f).sum := by
  have h1 : (upto 0 k).map f = (upto 0 i).map f ++ f i :: (upto (i + 1) k).map f := by
    rw [← List.map_cons, ← upto_cons hi, ← List.map_append]
    congr 1
    unfold upto
    have := List.range'_append (s := 0) (m := i - 0) (n := k - i) (step := 1)
    rw [show 0 + 1 * (i - 0) = i by omega, show i - 0 + (k - i) = k - 0 by omega] at this
    exact this.symm
  rw [← list_sum_all (upto_nodup 0 k) (fun x => by simp) f, h1, List.sum_append, List.sum_cons]
  ring

/-- C32, Hermitian: `C` is overwritten with `alpha A B + beta C`, where only the lower triangle of `A` is referenced and
`A` is the Hermitian matrix with that triangle. -/
theorem C32_hermitian {rs cs : Nat → Nat} {m n : Nat} {a b c : Tiles K} (alpha beta : K)
    (ha : Shaped a rs rs m m) (hb : Shaped b rs cs m n) (hc : Shaped c rs cs m n) {A B C : Nat → Nat → K}
    (hA : HoldsOn a rs rs m m A fun r c => c ≤ r) (hB : HoldsOn b rs cs m n B fun _ _ => True)
    (hC : HoldsOn c rs cs m n C fun _ _ => True) :
    ∃ c', hermitian_multiplication .Left .Lower alpha m n m a b beta c = some c' ∧ Shaped c' rs cs m n ∧
      HoldsOn c' rs cs m n
        (fun x y => alpha * ∑ l ∈ Finset.range (tileStart rs m), hermE .Lower A x l * B l y + beta * C x y)
        (fun _ _ => True) := by
  obtain ⟨c1, h1, h2, -⟩ := tiles2d_loop (m := m) (n := n) (c0 := c)
    (b := fun c ij => hermTileLL alpha m a b beta c ij)
    (Q := fun z x => x.rows = rs z.1 ∧ x.cols = cs z.2 ∧ ∀ r < rs z.1, ∀ q < cs z.2, x.e r q =
      alpha * ∑ l ∈ Finset.range m, ∑ e ∈ Finset.range (rs l),
        hermE .Lower A (tileStart rs z.1 + r) (tileStart rs l + e) * (b (l, z.2)).e e q + beta * (c z).e r q) (by
    rintro ⟨i, j⟩ hz s hs
    rw [mem_tiles2d] at hz
    obtain ⟨hi, hj⟩ := hz
    simp only at hi hj
    obtain ⟨P, hP⟩ : ∃ P : Nat → Nat → Nat → K, P = fun l r q => ∑ e ∈ Finset.range (rs l),
      hermE .Lower A (tileStart rs i + r) (tileStart rs l + e) * (b (l, j)).e e q := ⟨_, rfl⟩
    have hcij := hc i hi j hj
    -- tiles on the left of the diagonal
    obtain ⟨s1, b1, e1, r1, q1, f1, o1, -, -⟩ := accumulate_loop (i, j) alpha
      (fun l bt x => gemm .NoTrans .NoTrans alpha (a (i, l)) (b (l, j)) bt x) P (rs i) (cs j) (upto 0 i) (by
        intro l hl bt x hx1 hx2
        rw [mem_upto] at hl
        have hal := ha i hi l (by omega)
        have hbl := hb l (by omega) j hj
        rw [gemm_some, hx1, hx2]
        swap
        · exact ⟨hal.1.trans hx1.symm, hbl.2.trans hx2.symm, hal.2.trans hbl.1.symm⟩
        refine ⟨_, rfl, ?_⟩
        intro r hr q hq
        simp only [Blk.mul, Blk.op, hal.2, hP]
        congr 2
        refine Finset.sum_congr rfl fun e he => ?_
        rw [Finset.mem_range] at he
        have := tile_lt_of rs (r := e) (c := r) hl.2 he
        rw [hA i hi l (by omega) r hr e he (by omega)]
        simp only [hermE]
        rw [if_pos (by omega)]) s beta (by rw [hs]; exact hcij.1) (by rw [hs]; exact hcij.2)
    -- the diagonal tile
    obtain ⟨s2, b2, e2, r2, q2, f2, o2, -, z2⟩ := accumulate_loop (i, j) alpha
      (fun _ bt x => hemm .Left .Lower alpha (a (i, i)) (b (i, j)) bt x) P (rs i) (cs j) [i] (by
        intro l hl bt x hx1 hx2
        rw [List.mem_singleton] at hl
        subst hl
        have hal := ha l hi l hi
        have hbl := hb l hi j hj
        unfold hemm
        simp only
        rw [if_pos ⟨hx1.trans hal.1.symm, hx2.trans hbl.2.symm, hal.2.trans hbl.1.symm⟩, hx1, hx2]
        refine ⟨_, rfl, ?_⟩
        intro r hr q hq
        simp only [Blk.mul, hP, Blk.herm, hal.2]
        congr 2
        refine Finset.sum_congr rfl fun e he => ?_
        rw [Finset.mem_range] at he
        simp only [hermE, decide_eq_true_eq, Nat.add_le_add_iff_left]
        by_cases h : e ≤ r
        · rw [if_pos h, if_pos h, hA l hi l hi r hr e he (by omega)]
        · rw [if_neg h, if_neg h, hA l hi l hi e he r hr (by omega)]) s1 b1 r1 q1
    have b2one : b2 = 1 := z2 (Or.inr (by simp))
    -- tiles on the right of the diagonal
    obtain ⟨s3, b3, e3, r3, q3, f3, o3, -, z3⟩ := accumulate_loop (i, j) alpha
      (fun l bt x => gemm .ConjTrans .NoTrans alpha (a (l, i)) (b (l, j)) bt x) P (rs i) (cs j) (upto (i + 1) m) (by
        intro l hl bt x hx1 hx2
        rw [mem_upto] at hl
        have hal := ha l (by omega) i hi
        have hbl := hb l (by omega) j hj
        rw [gemm_some, hx1, hx2]
        swap
        · exact ⟨hal.2.trans hx1.symm, hbl.2.trans hx2.symm, hal.1.trans hbl.1.symm⟩
        refine ⟨_, rfl, ?_⟩
        intro r hr q hq
        simp only [Blk.mul, Blk.op, hal.1, hP]
        congr 2
        refine Finset.sum_congr rfl fun e he => ?_
        rw [Finset.mem_range] at he
        have := tile_lt_of rs (r := r) (c := e) (show i < l by omega) hr
        rw [hA l (by omega) i hi e he r hr (by omega)]
        simp only [hermE]
        rw [if_neg (by omega)]) s2 b2 r2 q2
    have b3one : b3 = 1 := z3 (Or.inl b2one)
    refine ⟨s3, ?_, ⟨r3, q3, ?_⟩, ?_⟩
    · unfold hermTileLL
      rw [forM'_cons] at e2
      simp only at e1 e2 e3 ⊢
      rw [e1, Option.bind_eq_bind, Option.bind_some]
      cases hacc : accumulate (i, j) (fun bt x => hemm .Left .Lower alpha (a (i, i)) (b (i, j)) bt x) (s1, b1) with
      | none => rw [hacc] at e2; cases e2
      | some s' =>
        rw [hacc, Option.bind_some] at e2
        cases e2
        rw [Option.bind_some, e3]
        rfl
    · intro r hr q hq
      have g1 := f1 r hr q hq
      have g2 := f2 r hr q hq
      have g3 := f3 r hr q hq
      rw [b3one, one_mul, g2, g1, hs] at g3
      rw [g3]
      have hsplit := herm_split hi fun l => P l r q
      have : ∑ l ∈ Finset.range m, P l r q = ∑ l ∈ Finset.range m, ∑ e ∈ Finset.range (rs l),
        hermE .Lower A (tileStart rs i + r) (tileStart rs l + e) * (b (l, j)).e e q := by rw [hP]
      simp only [← this, hsplit, List.map_cons, List.map_nil, List.sum_cons, List.sum_nil]
      ring
    · intro y hy
      rw [o3 y hy, o2 y hy, o1 y hy])
  refine ⟨c1, h1, fun i hi j hj => ⟨(h2 i hi j hj).1, (h2 i hi j hj).2.1⟩, ?_⟩
  intro i hi j hj r hr q hq _
  rw [(h2 i hi j hj).2.2 r hr q hq, hC i hi j hj r hr q hq trivial]
  beta_reduce
  rw [sum_tiles]
  congr 2
  refine Finset.sum_congr rfl fun l hl => ?_
  rw [Finset.mem_range] at hl
  refine Finset.sum_congr rfl fun e he => ?_
  rw [Finset.mem_range] at he
  rw [hB l hl j hj e he q hq trivial]

/-- The other variants abort. -/
theorem C32_hermitian_unimplemented (s : Side) (u : Uplo) (h : ¬ (s = .Left ∧ u = .Lower)) (alpha beta : K) (m n k : Nat)
    (a b c : Tiles K) : hermitian_multiplication s u alpha m n k a b beta c = none := by
  cases s <;> cases u <;> simp_all [hermitian_multiplication]

section
variable [DecidableEq K]

/-- C32, general: `C` is overwritten with `alpha A B + beta C`, also if the inner dimension is empty. -/
theorem C32_general {rs cs ks : Nat → Nat} {m n k : Nat} {a b c : Tiles K} (alpha beta : K)
    (ha : Shaped a rs ks m k) (hb : Shaped b ks cs k n) (hc : Shaped c rs cs m n) {A B C : Nat → Nat → K}
    (hA : HoldsOn a rs ks m k A fun _ _ => True) (hB : HoldsOn b ks cs k n B fun _ _ => True)
    (hC : HoldsOn c rs cs m n C fun _ _ => True) :
    ∃ c', generalMatrix .NoTrans .NoTrans alpha m n k a b beta c = some c' ∧ Shaped c' rs cs m n ∧
      HoldsOn c' rs cs m n
        (fun x y => alpha * ∑ l ∈ Finset.range (tileStart ks k), A x l * B l y + beta * C x y) (fun _ _ => True) := by
  simp only [generalMatrix]
  unfold genNN
  by_cases hk : k = 0
  · subst hk
    rw [if_pos rfl]
    by_cases hbeta : beta = 1
    · rw [if_neg (not_not.2 hbeta)]
      refine ⟨c, rfl, hc, ?_⟩
      intro i hi j hj r hr q hq _
      rw [hC i hi j hj r hr q hq trivial]
      simp [tileStart, hbeta]
    · rw [if_pos hbeta]
      rw [tiles2d_nested (m := m) c fun c z => c.write z (some (blkScal beta (c z)))]
      obtain ⟨c1, h1, h2, -⟩ := tiles2d_loop (m := m) (n := n) (c0 := c)
        (b := fun c z => c.write z (some (blkScal beta (c z)))) (Q := fun z x => x = blkScal beta (c z)) (by
          intro z _ s hs
          refine ⟨_, rfl, ?_, ?_⟩
          · simp [hs]
          · intro y hy; simp [hy])
      refine ⟨c1, h1, fun i hi j hj => by rw [h2 i hi j hj]; exact hc i hi j hj, ?_⟩
      intro i hi j hj r hr q hq _
      rw [h2 i hi j hj]
      simp [blkScal, tileStart, hC i hi j hj r hr q hq trivial]
  · rw [if_neg hk]
    rw [tiles2d_nested (m := m) c fun c z => forM' (upto 0 k) c fun c l =>
      c.write z (gemm .NoTrans .NoTrans alpha (a (z.1, l)) (b (l, z.2)) (if l = 0 then beta else 1) (c z))]
    obtain ⟨c1, h1, h2, -⟩ := tiles2d_loop (m := m) (n := n) (c0 := c)
      (b := fun c z => forM' (upto 0 k) c fun c l =>
        c.write z (gemm .NoTrans .NoTrans alpha (a (z.1, l)) (b (l, z.2)) (if l = 0 then beta else 1) (c z)))
      (Q := fun z x => x.rows = rs z.1 ∧ x.cols = cs z.2 ∧ ∀ r < rs z.1, ∀ q < cs z.2, x.e r q =
        alpha * ∑ l ∈ Finset.range k, ∑ e ∈ Finset.range (ks l), (a (z.1, l)).e r e * (b (l, z.2)).e e q
          + beta * (c z).e r q) (by
      rintro ⟨i, j⟩ hz s hs
      rw [mem_tiles2d] at hz
      obtain ⟨hi, hj⟩ := hz
      simp only at hi hj ⊢
      obtain ⟨s', g1, g2, g3, g4, g5⟩ := forM'_inv (n := k) (b := fun c l =>
          c.write (i, j) (gemm .NoTrans .NoTrans alpha (a (i, l)) (b (l, j)) (if l = 0 then beta else 1) (c (i, j))))
        (fun l s' => (s' (i, j)).rows = rs i ∧ (s' (i, j)).cols = cs j ∧ (∀ r < rs i, ∀ q < cs j,
          (if l = 0 then beta else 1) * (s' (i, j)).e r q =
          alpha * ∑ l ∈ Finset.range l, ∑ e ∈ Finset.range (ks l), (a (i, l)).e r e * (b (l, j)).e e q
            + beta * (c (i, j)).e r q) ∧ ∀ y, y ≠ (i, j) → s' y = s y) (by
          rintro l hl s' ⟨g1, g2, g3, g4⟩
          have hal := ha i hi l hl
          have hbl := hb l hl j hj
          rw [gemm_some]
          swap
          · exact ⟨hal.1.trans g1.symm, hbl.2.trans g2.symm, hal.2.trans hbl.1.symm⟩
          refine ⟨_, rfl, by simp [g1], by simp [g2], ?_, ?_⟩
          · intro r hr q hq
            rw [if_neg (Nat.succ_ne_zero l), one_mul]
            beta_reduce
            rw [if_pos rfl]
            dsimp only
            rw [g3 r hr q hq, Finset.sum_range_succ]
            simp only [Blk.mul, Blk.op, hal.2]
            ring
          · intro y hy
            simp only [hy, if_false]
            exact g4 y hy) (s := s)
        ⟨by rw [hs]; exact (hc i hi j hj).1, by rw [hs]; exact (hc i hi j hj).2, by
          intro r _ q _; simp [hs], fun _ _ => rfl⟩
      refine ⟨s', g1, ⟨g2, g3, ?_⟩, g5⟩
      intro r hr q hq
      have := g4 r hr q hq
      rw [if_neg hk, one_mul] at this
      exact this)
    refine ⟨c1, h1, fun i hi j hj => ⟨(h2 i hi j hj).1, (h2 i hi j hj).2.1⟩, ?_⟩
    intro i hi j hj r hr q hq _
    rw [(h2 i hi j hj).2.2 r hr q hq, hC i hi j hj r hr q hq trivial]
    beta_reduce
    rw [sum_tiles]
    congr 2
    refine Finset.sum_congr rfl fun l hl => ?_
    rw [Finset.mem_range] at hl
    refine Finset.sum_congr rfl fun e he => ?_
    rw [Finset.mem_range] at he
    rw [hA i hi l hl r hr e he trivial, hB l hl j hj e he q hq trivial]

/-- The other variants abort. -/
theorem C32_general_unimplemented (oa ob : BlasOp) (h : ¬ (oa = .NoTrans ∧ ob = .NoTrans)) (alpha beta : K) (m n k : Nat)
    (a b c : Tiles K) : generalMatrix oa ob alpha m n k a b beta c = none := by
  cases oa <;> cases ob <;> simp_all [generalMatrix]

end

/- Non-vacuity: tiles of sizes 2 and 1 over `ℚ`, and an empty inner dimension. -/
section example_
private def exSz : Nat → Nat := fun i => if i = 0 then 2 else 1
private def exM : Tiles ℚ := fun z => ⟨exSz z.1, exSz z.2, fun r c => (tileStart exSz z.1 + r + 2 * (tileStart exSz z.2 + c) : Nat)⟩
private def exE : Nat → Nat → ℚ := fun r c => (r + 2 * c : Nat)

example : ∃ c', hermitian_multiplication .Left .Lower (3 : ℚ) 2 2 2 exM exM 5 exM = some c' ∧
    HoldsOn c' exSz exSz 2 2
      (fun x y => 3 * ∑ l ∈ Finset.range 3, hermE .Lower exE x l * exE l y + 5 * exE x y) (fun _ _ => True) := by
  have hs : Shaped exM exSz exSz 2 2 := fun _ _ _ _ => ⟨rfl, rfl⟩
  have hA : ∀ sel, HoldsOn exM exSz exSz 2 2 exE sel := fun _ _ _ _ _ _ _ _ _ _ => rfl
  obtain ⟨c', h1, _, h2⟩ := C32_hermitian (3 : ℚ) 5 hs hs hs (hA _) (hA _) (hA _)
  exact ⟨c', h1, h2⟩

example : ∃ c', generalMatrix .NoTrans .NoTrans (3 : ℚ) 2 2 2 exM exM 5 exM = some c' ∧
    HoldsOn c' exSz exSz 2 2 (fun x y => 3 * ∑ l ∈ Finset.range 3, exE x l * exE l y + 5 * exE x y) (fun _ _ => True) := by
  have hs : Shaped exM exSz exSz 2 2 := fun _ _ _ _ => ⟨rfl, rfl⟩
  have hA : ∀ sel, HoldsOn exM exSz exSz 2 2 exE sel := fun _ _ _ _ _ _ _ _ _ _ => rfl
  obtain ⟨c', h1, _, h2⟩ := C32_general (3 : ℚ) 5 hs hs hs (hA _) (hA _) (hA _)
  exact ⟨c', h1, h2⟩

/-- Empty inner dimension. -/
example : ∃ c', generalMatrix .NoTrans .NoTrans (3 : ℚ) 2 2 0 exM exM 5 exM = some c' ∧
    HoldsOn c' exSz exSz 2 2 (fun x y => 3 * ∑ l ∈ Finset.range 0, exE x l * exE l y + 5 * exE x y) (fun _ _ => True) := by
  have hs : Shaped exM exSz exSz 2 2 := fun _ _ _ _ => ⟨rfl, rfl⟩
  have hA : ∀ sel, HoldsOn exM exSz exSz 2 2 exE sel := fun _ _ _ _ _ _ _ _ _ _ => rfl
  obtain ⟨c', h1, _, h2⟩ := C32_general (k := 0) (ks := exSz) (3 : ℚ) 5
    (fun _ _ _ h => absurd h (Nat.not_lt_zero _)) (fun _ h => absurd h (Nat.not_lt_zero _)) hs
    (fun _ _ _ h => absurd h (Nat.not_lt_zero _)) (fun _ h => absurd h (Nat.not_lt_zero _)) (hA _)
  exact ⟨c', h1, h2⟩
end example_

end DLAF
