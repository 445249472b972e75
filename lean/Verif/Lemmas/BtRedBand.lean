import Verif.Model.BtRedBand
import Verif.Lemmas.Views
import Verif.Lemmas.TFactor
import Verif.Props.TFactor
import Mathlib.Algebra.Star.BigOperators
/- Back-transformation of the reduction to band: one block of reflectors. -/
namespace DLAF
variable {K : Type*} [Field K] [StarRing K]

/-- Tiles that hold the rows `[a, e)` of the columns of `V` have the inner products of these rows. -/
theorem gram_win {V : Elems K} {k : Nat} {X : Type*} {g : X → Nat × Nat} {t : X → Blk K} : ∀ {ps : List X} {a e : Nat},
    Chain a e (ps.map g) → (∀ p ∈ ps, IsWin (t p) V (g p).1 0 (g p).2 k) → ∀ i < k, ∀ j < k,
      gram (ps.map t) i j = ∑ x ∈ Finset.Ico a e, star (V x i) * V x j := by
  intro ps a e hc hw i hi j hj
  rw [← hc.sum]
  clear hc
  induction ps with
  | nil => rfl
  | cons p ps ih =>
    rw [List.map_cons, gram_cons, ih fun q hq => hw q (List.mem_cons_of_mem _ hq), List.map_cons, List.map_cons,
      List.sum_cons]
    congr 1
    have h := hw p List.mem_cons_self
    rw [h.1]
    refine Finset.sum_congr rfl fun r hr => ?_
    rw [Finset.mem_range] at hr
    rw [h.2.2 r hr i hi, h.2.2 r hr j hj, Nat.zero_add, Nat.zero_add]

/-- T factor of tiles that hold the columns of `V` from row `a`; `V` is zero above. -/
theorem tfactor_win {avail k n a : Nat} (ha : 0 < avail) (hk : 0 < k) {V : Elems K} {X : Type*} {g : X → Nat × Nat}
    {t : X → Blk K} {ps : List X} (hne : ps ≠ []) (hc : Chain a n (ps.map g))
    (hw : ∀ p ∈ ps, IsWin (t p) V (g p).1 0 (g p).2 k) (hz : ∀ x < a, ∀ j < k, V x j = 0)
    {taus t0 : Blk K} {ws : List (Blk K)} (ht : t0.rows = k ∧ t0.cols = k) (htau : taus.rows = k)
    (hws : avail - 1 ≤ ws.length) (hsz : ∀ b ∈ ws, k ≤ b.rows ∧ k ≤ b.cols) :
    ∃ F, computeTFactor avail k (ps.map t) taus t0 ws = some ⟨k, k, F⟩ ∧
      (∀ c < k, ∀ i < k, c < i → F i c = 0) ∧
      1 - toM n k V * toM k k F * (toM n k V).conjTranspose = reflectorProd n V (fun j => taus.e j 0) k := by
  obtain ⟨f, h1, h2, h3⟩ := stepGemv_spec (taus := taus) (t := t0) (ws := ws) ha (tiles := ps.map t)
    (by simpa using hne) (by rw [ht.1, ht.2]) (by rw [htau, ht.2]) (by
      intro v hv
      obtain ⟨p, hp, rfl⟩ := List.mem_map.1 hv
      rw [ht.2]; exact (hw p hp).2.1) hws (by rw [ht.2]; exact hsz)
  rw [ht.2] at h1 h2 h3
  have hg : ∀ c < k, ∀ i < c, f i c = -(taus.e c 0) * ∑ x ∈ Finset.range n, star (V x i) * V x c := by
    intro c hc' i hi
    rw [h2 c hc' i hi, gram_win hc hw i (by omega) c hc', Finset.range_eq_Ico,
      ← Finset.sum_Ico_consecutive _ (Nat.zero_le a) hc.le]
    congr 1
    rw [Finset.sum_eq_zero (s := Finset.Ico 0 a), zero_add]
    intro x hx
    rw [Finset.mem_Ico] at hx
    rw [hz x hx.2 c hc', mul_zero]
  obtain ⟨F, h4, h5⟩ := copyDiagTrmv_spec (taus := taus) (t := ⟨k, k, f⟩)
    (G := fun i c => ∑ x ∈ Finset.range n, star (V x i) * V x c) hg h3
  refine ⟨F, ?_, h5.low, tfactor_matrix h5⟩
  unfold computeTFactor
  rw [if_neg (by omega), h1, Option.map_some, h4]

theorem forall₂_of_map {X Y : Type*} {P : X → Y → Prop} : ∀ {l : List X} {m : List Y},
    List.Forall₂ P l m → ∀ y ∈ m, ∃ x ∈ l, P x y
  | _, _, .cons h hs, y, hy => by
    rcases List.mem_cons.1 hy with rfl | hy
    · exact ⟨_, List.mem_cons_self, h⟩
    · obtain ⟨x, hx, h⟩ := forall₂_of_map hs y hy
      exact ⟨x, List.mem_cons_of_mem _ hx, h⟩

theorem forall₂_map_eq {X Y Z : Type*} {f : X → Z} {g : Y → Z} : ∀ {l : List X} {m : List Y},
    List.Forall₂ (fun x y => f x = g y) l m → l.map f = m.map g
  | _, _, .nil => rfl
  | _, _, .cons h hs => by rw [List.map_cons, List.map_cons, h, forall₂_map_eq hs]

theorem Forall₂.imp' {X Y : Type*} {P Q : X → Y → Prop} (h : ∀ x y, P x y → Q x y) : ∀ {l : List X} {m : List Y},
    List.Forall₂ P l m → List.Forall₂ Q l m
  | _, _, .nil => .nil
  | _, _, .cons h1 hs => .cons (h _ _ h1) (Forall₂.imp' h hs)

/-- `V Tᴴ` with `T` upper triangular. -/
theorem trmm3_conj_win {V : Elems K} {r0 rows k : Nat} {F : Nat → Nat → K} (hF : ∀ c < k, ∀ i < k, c < i → F i c = 0)
    {v w : Blk K} (hv : IsWin v V r0 0 rows k) (hw : w.rows = rows ∧ w.cols = k) :
    ∃ d, trmm3 .Right .Upper .ConjTrans .NonUnit 1 ⟨k, k, F⟩ v w = some d ∧
      IsWin d (fun x c => ∑ l ∈ Finset.range k, V x l * star (F c l)) r0 0 rows k := by
  unfold trmm3
  rw [if_pos ⟨hv.1.trans hw.1.symm, hv.2.1.trans hw.2.symm⟩]
  unfold trmm
  rw [if_pos (by simp [triSizes, hv.2.1])]
  refine ⟨_, rfl, hv.1, hv.2.1, ?_⟩
  intro r hr c hc
  simp only [one_mul, Blk.mul, hv.2.1, Nat.zero_add]
  refine Finset.sum_congr rfl fun l hl => ?_
  rw [Finset.mem_range] at hl
  rw [hv.2.2 r hr l hl, Nat.zero_add]
  congr 1
  simp only [Blk.op, Blk.tri]
  by_cases h1 : c = l
  · simp [h1]
  · rw [if_neg h1]
    by_cases h2 : c < l
    · simp [h2]
    · rw [if_neg (by simpa using h2), hF l hl c hc (by omega)]

/-- Accumulation of `Wᴴ C` over the tiles. -/
theorem gemm_acc {W C : Elems K} {k q0 qw : Nat} {X : Type*} {g : X → Nat × Nat} {t : X → Blk K} :
    ∀ {ps : List X} {a e : Nat}, Chain a e (ps.map g) → (∀ p ∈ ps, IsWin (t p) W (g p).1 0 (g p).2 k) →
    ∀ {w2 : Blk K} {Z : Elems K}, IsWin w2 Z 0 q0 k qw →
    ∃ d, forM' ps w2 (fun w2 p => gemm .ConjTrans .NoTrans 1 (t p) (getB C (g p).1 q0 (g p).2 qw) 1 w2) = some d ∧
      IsWin d (fun l y => ∑ x ∈ Finset.Ico a e, star (W x l) * C x y + Z l y) 0 q0 k qw := by
  intro ps
  induction ps with
  | nil =>
    intro a e hc _ w2 Z hw2
    have h' : a = e := hc
    subst h'
    exact ⟨w2, rfl, hw2.congr fun x _ _ y _ _ => by simp⟩
  | cons p ps ih =>
    intro a e hc hw w2 Z hw2
    obtain ⟨d, h1, h2⟩ := gemm_win .ConjTrans .NoTrans 1 1 (b := getB C (g p).1 q0 (g p).2 qw)
      (conj_win (hw p List.mem_cons_self)) (getB_win C (g p).1 q0 (g p).2 qw) hw2
    rw [List.map_cons] at hc
    obtain ⟨d', h3, h4⟩ := ih hc.2 (fun q hq => hw q (List.mem_cons_of_mem _ hq)) h2
    refine ⟨d', by rw [forM'_cons, h1, Option.bind_some, h3], h4.congr ?_⟩
    intro l _ _ y _ _
    rw [← Finset.sum_Ico_consecutive _ (show a ≤ a + (g p).2 by omega) hc.2.le,
      Finset.sum_Ico_eq_sum_range _ a (a + (g p).2), Nat.add_sub_cancel_left, hc.1]
    ring

/-- Tiles of a panel with `t`: the computed products `V Tᴴ`. -/
theorem trmm3_all {V : Elems K} {k : Nat} {F : Nat → Nat → K} (hF : ∀ c < k, ∀ i < k, c < i → F i c = 0)
    {vs : List ((Nat × Nat) × Blk K)} (hv : ∀ v ∈ vs, IsWin v.2 V v.1.1 0 v.1.2 k) (J : Elems K) :
    ∃ ws : List ((Nat × Nat) × Blk K), (vs.mapM fun v =>
      (trmm3 .Right .Upper .ConjTrans .NonUnit 1 ⟨k, k, F⟩ v.2 (getB J v.1.1 0 v.1.2 k)).map fun w => (v.1, w)) = some ws ∧
      ws.map (fun w => w.1) = vs.map (fun v => v.1) ∧
      ∀ w ∈ ws, IsWin w.2 (fun x c => ∑ l ∈ Finset.range k, V x l * star (F c l)) w.1.1 0 w.1.2 k := by
  obtain ⟨ws, h1, h2⟩ := mapM_ex (P := fun v w : (Nat × Nat) × Blk K => v.1 = w.1 ∧
    IsWin w.2 (fun x c => ∑ l ∈ Finset.range k, V x l * star (F c l)) w.1.1 0 w.1.2 k) vs (f := fun v =>
      (trmm3 .Right .Upper .ConjTrans .NonUnit 1 ⟨k, k, F⟩ v.2 (getB J v.1.1 0 v.1.2 k)).map fun w => (v.1, w)) (by
    intro v hv'
    obtain ⟨d, h3, h4⟩ := trmm3_conj_win hF (hv v hv') (w := getB J v.1.1 0 v.1.2 k) ⟨rfl, rfl⟩
    exact ⟨(v.1, d), by rw [h3]; rfl, rfl, h4⟩)
  refine ⟨ws, h1, (forall₂_map_eq (Forall₂.imp' (fun x y h => h.1) h2)).symm, ?_⟩
  intro w hw
  obtain ⟨v, _, h⟩ := forall₂_of_map h2 w hw
  exact h.2

/-- Applying a block reflector to a block of rows: `W = V Tᴴ`, `W2 = Wᴴ C`, `C - V W2`. -/
theorem bt_apply {V : Elems K} {n ncols k nbc a : Nat} {F : Nat → Nat → K} (hF : ∀ c < k, ∀ i < k, c < i → F i c = 0)
    (hnb : 0 < nbc) {vs : List ((Nat × Nat) × Blk K)} (hc : Chain a n (vs.map fun v => v.1))
    (hv : ∀ v ∈ vs, IsWin v.2 V v.1.1 0 v.1.2 k) (hz : ∀ x < a, ∀ j < k, V x j = 0) (J C : Elems K) :
    ∃ C', (do
      let ws ← vs.mapM fun v =>
        (trmm3 .Right .Upper .ConjTrans .NonUnit 1 ⟨k, k, F⟩ v.2 (getB J v.1.1 0 v.1.2 k)).map fun w => (v.1, w)
      let w2 ← (pieces nbc ncols 0).mapM fun q =>
        (forM' ws (Blk.zero k q.2) fun w2 w => gemm .ConjTrans .NoTrans 1 w.2 (getB C w.1.1 q.1 w.1.2 q.2) 1 w2).map
          fun b => (q, b)
      forM' w2 C fun C q => forM' vs C fun C v =>
        putO C v.1.1 q.1.1 (gemm .NoTrans .NoTrans (-1) v.2 q.2 1 (getB C v.1.1 q.1.1 v.1.2 q.1.2))) = some C' ∧
      toM n ncols C' = (1 - toM n k V * toM k k F * (toM n k V).conjTranspose) * toM n ncols C ∧
      ∀ x y, ¬ (x < n ∧ y < ncols) → C' x y = C x y := by
  obtain ⟨ws, h1, h2, h3⟩ := trmm3_all hF hv J
  let W2 : Elems K := fun l y => ∑ x ∈ Finset.Ico a n, star (∑ i ∈ Finset.range k, V x i * star (F l i)) * C x y
  obtain ⟨w2, h4, h5⟩ := mapM_ex (P := fun (q : Nat × Nat) (w : (Nat × Nat) × Blk K) => q = w.1 ∧
    IsWin w.2 W2 0 w.1.1 k w.1.2) (pieces nbc ncols 0) (f := fun q =>
        (forM' ws (Blk.zero k q.2) fun w2 w => gemm .ConjTrans .NoTrans 1 w.2 (getB C w.1.1 q.1 w.1.2 q.2) 1 w2).map
          fun b => (q, b)) (by
    intro q _
    obtain ⟨d, h6, h7⟩ := gemm_acc (C := C) (k := k) (q0 := q.1) (qw := q.2) (g := fun w : (Nat × Nat) × Blk K => w.1)
      (t := fun w => w.2) (ps := ws) (a := a) (e := n) (by rw [h2]; exact hc) h3 (w2 := Blk.zero k q.2) (Z := fun _ _ => 0)
      ⟨rfl, rfl, fun _ _ _ _ => rfl⟩
    refine ⟨(q, d), by rw [h6]; rfl, rfl, h7.congr fun x _ _ y _ _ => ?_⟩
    rw [add_zero])
  have hq : (pieces nbc ncols 0) = w2.map fun w => w.1 := by
    have := forall₂_map_eq (f := fun q : Nat × Nat => q) (Forall₂.imp' (fun x y h => h.1) h5)
    simpa using this
  have hrow : ∀ q ∈ w2, ∀ M : Elems K, forM' vs M (fun C v =>
      putO C v.1.1 q.1.1 (gemm .NoTrans .NoTrans (-1) v.2 q.2 1 (getB C v.1.1 q.1.1 v.1.2 q.1.2))) = some fun x y =>
      if (a ≤ x ∧ x < n) ∧ (q.1.1 ≤ y ∧ y < q.1.1 + q.1.2) then
        M x y - ∑ l ∈ Finset.range k, V x l * W2 l y else M x y := by
    intro q hq' M
    obtain ⟨_, _, hw⟩ := forall₂_of_map h5 q hq'
    refine rows_loop (g := fun v : (Nat × Nat) × Blk K => v.1) hc (fun x y m => m - ∑ l ∈ Finset.range k, V x l * W2 l y) ?_ M
    intro M v hv'
    obtain ⟨d, h6, h7⟩ := gemm_win .NoTrans .NoTrans (-1) 1 (a := v.2) (b := q.2) (hv v hv') hw.2
      (getB_win M v.1.1 q.1.1 v.1.2 q.1.2)
    refine ⟨d, by rw [h6]; rfl, h7.congr fun x _ _ y _ _ => ?_⟩
    simp only [Nat.zero_add]
    ring
  have hall := cols_loop (g := fun w : (Nat × Nat) × Blk K => w.1) (qs := w2) (a := 0) (e := ncols) (r0 := a) (r1 := n)
    (by rw [← hq]; exact pieces_zero_chain hnb) (fun x y m => m - ∑ l ∈ Finset.range k, V x l * W2 l y)
    (fun M q hq' => hrow q hq' M) C
  refine ⟨fun x y => if (a ≤ x ∧ x < n) ∧ (0 ≤ y ∧ y < ncols) then C x y - ∑ l ∈ Finset.range k, V x l * W2 l y else C x y,
    ?_, ?_, ?_⟩
  · simp only [Option.bind_eq_bind]
    rw [h1, Option.bind_some, h4, Option.bind_some]
    exact hall
  · ext x y
    rw [Matrix.sub_mul, Matrix.one_mul, Matrix.sub_apply, Matrix.mul_assoc, Matrix.mul_assoc]
    have e2 : ∀ l < k, W2 l y = ∑ b ∈ Finset.range k, F l b * ∑ x ∈ Finset.range n, star (V x b) * C x y := by
      intro l hl
      simp only [W2]
      have : ∀ b ∈ Finset.range k, F l b * ∑ x ∈ Finset.range n, star (V x b) * C x y =
          ∑ x ∈ Finset.Ico a n, F l b * (star (V x b) * C x y) := by
        intro b hb
        rw [Finset.mem_range] at hb
        rw [Finset.range_eq_Ico, ← Finset.sum_Ico_consecutive _ (Nat.zero_le a) hc.le,
          Finset.sum_eq_zero (s := Finset.Ico 0 a), zero_add, Finset.mul_sum]
        intro x hx
        rw [Finset.mem_Ico] at hx
        rw [hz x hx.2 b hb, star_zero, zero_mul]
      rw [Finset.sum_congr rfl this, Finset.sum_comm]
      refine Finset.sum_congr rfl fun x _ => ?_
      rw [star_sum, Finset.sum_mul]
      refine Finset.sum_congr rfl fun b _ => ?_
      rw [star_mul', star_star]
      ring
    have e3 : (toM n k V * (toM k k F * ((toM n k V).conjTranspose * toM n ncols C))) x y =
        ∑ l ∈ Finset.range k, V x l * W2 l y := by
      rw [Matrix.mul_apply, Finset.sum_range]
      refine Finset.sum_congr rfl fun l _ => ?_
      rw [e2 l l.2, Matrix.mul_apply, Finset.sum_range]
      congr 1
      refine Finset.sum_congr rfl fun b _ => ?_
      rw [Matrix.mul_apply, Finset.sum_range]
      rfl
    rw [e3]
    simp only [toM]
    by_cases hx : a ≤ (x : Nat)
    · rw [if_pos ⟨⟨hx, x.2⟩, Nat.zero_le _, y.2⟩]
    · rw [if_neg (by omega), Finset.sum_eq_zero, sub_zero]
      intro l hl
      rw [Finset.mem_range] at hl
      rw [hz x (by omega) l hl, zero_mul]
  · intro x y hxy
    exact if_neg (by omega)

theorem reflectorProd_add (m : Nat) (V : Nat → Nat → K) (tau : Nat → K) (a c : Nat) :
    reflectorProd m V tau (a + c) =
      reflectorProd m V tau a * reflectorProd m (fun x j => V x (a + j)) (fun j => tau (a + j)) c := by
  unfold reflectorProd
  rw [List.range_add, List.map_append, List.prod_append, List.map_map]
  rfl

theorem reflectorProd_congr {m k : Nat} {V W : Nat → Nat → K} {tau sig : Nat → K}
    (h : ∀ j < k, (∀ x < m, V x j = W x j) ∧ tau j = sig j) : reflectorProd m V tau k = reflectorProd m W sig k := by
  unfold reflectorProd
  congr 1
  refine List.map_congr_left fun j hj => ?_
  rw [List.mem_range] at hj
  obtain ⟨h1, h2⟩ := h j hj
  unfold reflector
  rw [h2]
  congr 2
  ext x y
  simp only [Matrix.vecMulVec_apply]
  rw [h1 x x.2, h1 y y.2]

end DLAF
