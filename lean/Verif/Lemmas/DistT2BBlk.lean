import Verif.Lemmas.DistT2BOrder
import Verif.Lemmas.DistBtTasks
/- A block of reflectors in the distributed back-transformation from tridiagonal to band form: what the kernels compute. -/
namespace DLAF
namespace DistT2B
variable {K : Type*} [RCLike K]

/-- Number of reflectors of block `(i, j)`. -/
def rk (cplx : Bool) (n b i j : Nat) : Nat := t2bRefls cplx n b ((t2bSweeps cplx n - 1) / b) (t2bSteps (j * b) n b) j (i - j)

/-- What a block does, by elements. -/
noncomputable def blkF (cplx : Bool) (n b m : Nat) (V : Elems K) (z : Nat × Nat) (D : Elems K) : Elems K := fun x y =>
  if h : x < n ∧ y < m then (blkM cplx n b V z * toM n m D) ⟨x, h.1⟩ ⟨y, h.2⟩ else D x y

theorem blkF_mat (cplx : Bool) (n b m : Nat) (V : Elems K) (z : Nat × Nat) (D : Elems K) :
    toM n m (blkF cplx n b m V z D) = blkM cplx n b V z * toM n m D := by
  ext x y
  show blkF cplx n b m V z D x y = _
  unfold blkF
  rw [dif_pos ⟨x.2, y.2⟩]

theorem prod_row {n : Nat} {x : Fin n} : ∀ {l : List (Matrix (Fin n) (Fin n) K)}, (∀ P ∈ l, ∀ z, P x z = (1 : Matrix (Fin n) (Fin n) K) x z) →
    ∀ z, l.prod x z = (1 : Matrix (Fin n) (Fin n) K) x z
  | [], _, z => rfl
  | P :: l, h, z => by
    have ih := prod_row (fun Q hQ => h Q (List.mem_cons_of_mem _ hQ))
    have hP := h P List.mem_cons_self
    rw [List.prod_cons, Matrix.mul_apply, Finset.sum_congr rfl fun y _ => by rw [hP y], ← Matrix.mul_apply, Matrix.one_mul, ih]

section
variable {cplx : Bool} {n b m : Nat} {V : Elems K}

theorem blkF_row (hb : 2 ≤ b) (hn : (if cplx then 1 else 2) < n) {z : Nat × Nat} (hz : IsBlock cplx n b z) {D : Elems K} {x y : Nat}
    (h : x ≤ z.1 * b ∨ min n (z.1 * b + 2 * b) ≤ x) : blkF cplx n b m V z D x y = D x y := by
  unfold blkF
  by_cases hxy : x < n ∧ y < m
  · rw [dif_pos hxy]
    have ok := block_ok hb hn hz
    have hr : ∀ w, blkM cplx n b V z ⟨x, hxy.1⟩ w = (1 : Matrix (Fin n) (Fin n) K) ⟨x, hxy.1⟩ w := by
      refine prod_row fun P hP w => ?_
      obtain ⟨c, hc, rfl⟩ := List.mem_map.1 hP
      rw [List.mem_range] at hc
      have hc' : c < b := lt_of_lt_of_le hc ok.hkb
      have h0 : blkV n b V z.2 (z.1 - z.2) x c = 0 := by
        refine blkV_out hc' V ?_
        rw [Nat.add_sub_cancel' hz.2.1]
        omega
      unfold reflector
      rw [Matrix.sub_apply, Matrix.smul_apply, Matrix.vecMulVec_apply]
      dsimp only
      rw [h0, zero_mul, smul_zero, sub_zero]
    rw [Matrix.mul_apply, Finset.sum_congr rfl fun w _ => by rw [hr w], ← Matrix.mul_apply, Matrix.one_mul]
    rfl
  · rw [dif_neg hxy]

section
variable {j st k : Nat} (ok : BlkOK n b (j + st) j k)
include ok

/-- The reflectors of a block depend on the block only. -/
theorem blkV_congr {V' : Elems K} (h : ∀ r < min b (n - (j + st) * b), ∀ c < min b (n - j * b), V' ((j + st) * b + r) (j * b + c) = V ((j + st) * b + r) (j * b + c)) :
    (∀ c < k, ∀ x, blkV n b V' j st x c = blkV n b V j st x c) ∧ ∀ c < k, blkTau b V' j st c = blkTau b V j st c := by
  obtain ⟨hb, hj, hk1, hkb, hkn, hk2⟩ := ok
  have hjb : j * b ≤ (j + st) * b := Nat.mul_le_mul_right _ (by omega)
  constructor
  · intro c hc x
    rw [blkV_val (by omega), blkV_val (by omega)]
    split
    · rfl
    · split
      · rfl
      · split
        · exact h _ (by omega) _ (by omega)
        · rfl
  · intro c hc
    have := h 0 (by omega) c (by omega)
    rw [Nat.add_zero] at this
    exact this

end

/-- The panels `V` and `W` of a block on one process. -/
def VWAt (n b : Nat) (V : Elems K) (j st k group : Nat) (v w : Blk K) : Prop :=
  ∃ (V' : Elems K) (T : Nat → Nat → Nat → K),
    ((∀ c < k, ∀ x, blkV n b V' j st x c = blkV n b V j st x c) ∧ ∀ c < k, blkTau b V' j st c = blkTau b V j st c) ∧
    IsWin v (blkV n b V' j st) ((j + st) * b + 1) 0 (min (2 * b) (n - (j + st) * b) - 1) k ∧
    (w.rows = min (2 * b) (n - (j + st) * b) - 1 ∧ w.cols = k) ∧
    ∀ g < ceilDivN k group, GrpT n b V' j st (g * group) (grpW k group g) (T g) ∧
      ∀ r < grpRows n b (j + st) (g * group) (grpW k group g), ∀ c < grpW k group g,
        w.e (g * group + r) (g * group + c) = grpWM n b V' j st (g * group) (grpW k group g) (T g) ((j + st) * b + 1 + g * group + r) c

theorem computeVW_win {E : T2BEnv K} (hl : LarftSpec E.larft) (hG : 0 < E.group) {j st k : Nat} (ok : BlkOK n b (j + st) j k) {hh v t w : Blk K}
    (hhh : IsWin hh V ((j + st) * b) (j * b) (min b (n - (j + st) * b)) (min b (n - j * b)))
    (hv : v.rows = min (2 * b) (n - (j + st) * b) - 1 ∧ v.cols = k) (ht : t.rows = k ∧ t.cols = k)
    (hw : w.rows = min (2 * b) (n - (j + st) * b) - 1 ∧ w.cols = k) :
    ∃ v' w', computeVW E b hh v t w = some (v', w') ∧ VWAt n b V j st k E.group v' w' := by
  let V' : Elems K := fun x y => hh.e (x - (j + st) * b) (y - j * b)
  have e : hh = getB V' ((j + st) * b) (j * b) (min b (n - (j + st) * b)) (min b (n - j * b)) := by
    obtain ⟨r, c, f⟩ := hh
    obtain ⟨h1, h2, h3⟩ := hhh
    dsimp only at h1 h2
    subst h1 h2
    unfold getB
    congr 1
    funext x y
    dsimp only [V']
    rw [Nat.add_sub_cancel_left, Nat.add_sub_cancel_left]
  obtain ⟨v', w', T, s1, s2, s3, s4, s5⟩ := computeVW_spec hl hG ok V' hv ht hw
  rw [← e] at s1
  refine ⟨v', w', s1, V', T, blkV_congr ok ?_, s2, ⟨s3, s4⟩, s5⟩
  intro r hr c hc
  dsimp only [V']
  rw [Nat.add_sub_cancel_left, Nat.add_sub_cancel_left]
  exact hhh.2.2 r hr c hc

section
variable {j st : Nat} (ok : BlkOK n b (j + st) j (rk cplx n b (j + st) j))

theorem blkM_def : blkM cplx n b V (j + st, j) = reflectorProd n (blkV n b V j st) (blkTau b V j st) (rk cplx n b (j + st) j) := by
  unfold blkM rk
  dsimp only
  rw [Nat.add_sub_cancel_left]

include ok

theorem grps_blkF {group : Nat} (hG : 0 < group) {V' : Elems K} {T : Nat → Nat → Nat → K}
    (hV : (∀ c < rk cplx n b (j + st) j, ∀ x, blkV n b V' j st x c = blkV n b V j st x c) ∧
      ∀ c < rk cplx n b (j + st) j, blkTau b V' j st c = blkTau b V j st c)
    (hT : ∀ g < ceilDivN (rk cplx n b (j + st) j) group, GrpT n b V' j st (g * group) (grpW (rk cplx n b (j + st) j) group g) (T g))
    {D : Elems K} {x y : Nat} (hx : x < n) (hy : y < m) :
    grpsF n b V' j st (rk cplx n b (j + st) j) group T D x y = blkF cplx n b m V (j + st, j) D x y := by
  have h1 := grpsF_mat (m := m) hG ok hT D
  have h2 := blkF_mat cplx n b m V (j + st, j) D
  rw [blkM_def, ← reflectorProd_congr (V := blkV n b V' j st) (tau := blkTau b V' j st) (fun c hc => ⟨fun x _ => hV.1 c hc x, hV.2 c hc⟩), ← h1] at h2
  exact (congrFun (congrFun h2 ⟨x, hx⟩) ⟨y, hy⟩).symm

theorem single_win {E : T2BEnv K} (hG : 0 < E.group) {q0 qw : Nat} (hlast : n ≤ (j + st) * b + b) (hq : q0 + qw ≤ m) {v w w2 e : Blk K} {D : Elems K}
    (hvw : VWAt n b V j st (rk cplx n b (j + st) j) E.group v w) (hw2 : w2.rows = rk cplx n b (j + st) j ∧ w2.cols = qw)
    (he : IsWin e D ((j + st) * b) q0 (min b (n - (j + st) * b)) qw) :
    ∃ e', applySingle E v w w2 e = some e' ∧ IsWin e' (blkF cplx n b m V (j + st, j) D) ((j + st) * b) q0 (min b (n - (j + st) * b)) qw := by
  obtain ⟨V', T, hV, h1, h2, h3⟩ := hvw
  obtain ⟨e', s1, s2⟩ := applySingle_spec hG ok hlast h1 h2 (fun g hg => (h3 g hg).2) hw2 he
  exact ⟨e', s1, s2.congr fun x _ hx y _ hy => grps_blkF ok hG hV (fun g hg => (h3 g hg).1) (by omega) (by omega)⟩

theorem double_win {E : T2BEnv K} (hG : 0 < E.group) {q0 qw : Nat} (hlast : (j + st + 1) * b < n) (hq : q0 + qw ≤ m) {v w w2 et eb : Blk K} {D : Elems K}
    (hvw : VWAt n b V j st (rk cplx n b (j + st) j) E.group v w) (hw2 : w2.rows = rk cplx n b (j + st) j ∧ w2.cols = qw)
    (het : IsWin et D ((j + st) * b) q0 (min b (n - (j + st) * b)) qw) (heb : IsWin eb D ((j + st + 1) * b) q0 (min b (n - (j + st + 1) * b)) qw) :
    ∃ et' eb', applyDouble E v w w2 (et, eb) = some (et', eb') ∧
      IsWin et' (blkF cplx n b m V (j + st, j) D) ((j + st) * b) q0 (min b (n - (j + st) * b)) qw ∧
      IsWin eb' (blkF cplx n b m V (j + st, j) D) ((j + st + 1) * b) q0 (min b (n - (j + st + 1) * b)) qw := by
  obtain ⟨V', T, hV, h1, h2, h3⟩ := hvw
  obtain ⟨et', eb', s1, s2, s3⟩ := applyDouble_spec hG ok hlast h1 h2 (fun g hg => (h3 g hg).2) hw2 het heb
  exact ⟨et', eb', s1, s2.congr fun x _ hx y _ hy => grps_blkF ok hG hV (fun g hg => (h3 g hg).1) (by omega) (by omega),
    s3.congr fun x _ hx y _ hy => grps_blkF ok hG hV (fun g hg => (h3 g hg).1) (by omega) (by omega)⟩

/-- A part of `Vᴴ E`. -/
noncomputable def w2F (n b : Nat) (V : Elems K) (j st : Nat) (D : Elems K) (x0 h : Nat) : Elems K := fun c y =>
  ∑ l ∈ Finset.range h, star (blkV n b V j st (x0 + l) c) * D (x0 + l) y

/-- The own part of `W2`. -/
theorem w2_win {group : Nat} {q0 qw p0 h : Nat} {v w w2 e sv : Blk K} {D : Elems K} (hvw : VWAt n b V j st (rk cplx n b (j + st) j) group v w)
    (hp : p0 + h ≤ min (2 * b) (n - (j + st) * b) - 1) (hw2 : w2.rows = rk cplx n b (j + st) j ∧ w2.cols = qw)
    (hsv : v.sub p0 0 h (rk cplx n b (j + st) j) = some sv) (he : IsWin e D ((j + st) * b + 1 + p0) q0 h qw) :
    ∃ t, gemm .ConjTrans .NoTrans 1 sv e 0 w2 = some t ∧ IsWin t (w2F n b V j st D ((j + st) * b + 1 + p0) h) 0 q0 (rk cplx n b (j + st) j) qw := by
  obtain ⟨V', T, hV, h1, h2, h3⟩ := hvw
  obtain ⟨sv', s1, s2⟩ := Blk.sub_win h1 (r0 := p0) (c0 := 0) (h := h) (w := rk cplx n b (j + st) j) hp (by omega)
  rw [hsv] at s1
  obtain rfl := Option.some.inj s1
  have hw2w : IsWin w2 (fun l y => w2.e l (y - q0)) 0 q0 (rk cplx n b (j + st) j) qw :=
    ⟨hw2.1, hw2.2, fun r _ c _ => by beta_reduce; rw [Nat.zero_add, Nat.add_sub_cancel_left]⟩
  obtain ⟨t, t1, t2⟩ := gemm_win .ConjTrans .NoTrans 1 0 (conj_win s2) (b := e) he hw2w
  refine ⟨t, t1, t2.congr fun c _ hc y _ _ => ?_⟩
  unfold w2F
  rw [one_mul, zero_mul, add_zero]
  refine Finset.sum_congr rfl fun l _ => ?_
  rw [hV.1 c (by omega)]

/-- `E -= W W2` on the rows of one process. -/
theorem own_win {q0 qw p0 h : Nat} (hlast : (j + st + 1) * b < n) (hq : q0 + qw ≤ m) {v w w2 e sw : Blk K} {D : Elems K}
    (hvw : VWAt n b V j st (rk cplx n b (j + st) j) b v w) (hp : p0 + h ≤ min (2 * b) (n - (j + st) * b) - 1)
    (hsw : w.sub p0 0 h (rk cplx n b (j + st) j) = some sw)
    (hw2 : IsWin w2 (w2F n b V j st D ((j + st) * b + 1) (min (2 * b) (n - (j + st) * b) - 1)) 0 q0 (rk cplx n b (j + st) j) qw)
    (he : IsWin e D ((j + st) * b + 1 + p0) q0 h qw) :
    ∃ e', gemm .NoTrans .NoTrans (-1) sw w2 1 e = some e' ∧ IsWin e' (blkF cplx n b m V (j + st, j) D) ((j + st) * b + 1 + p0) q0 h qw := by
  obtain ⟨V', T, hV, h1, h2, h3⟩ := hvw
  obtain ⟨hb, hj, hk1, hkb, hkn, hk2⟩ := id ok
  generalize hk : rk cplx n b (j + st) j = k at *
  have hB : (j + st + 1) * b = (j + st) * b + b := by rw [Nat.add_mul, Nat.one_mul]
  rw [hB] at hlast
  have hc1 : ceilDivN k b = 1 := by
    unfold ceilDivN
    refine (Nat.div_eq_iff (by omega)).2 ⟨by omega, by omega⟩
  have hgw : grpW k b 0 = k := by unfold grpW; omega
  have hgr : grpRows n b (j + st) 0 k = min (2 * b) (n - (j + st) * b) - 1 := by unfold grpRows; generalize (j + st) * b = ib at *; omega
  obtain ⟨g1, g2⟩ := h3 0 (by omega)
  rw [Nat.zero_mul, hgw] at g1 g2
  rw [hgr] at g2
  simp only [Nat.zero_add, Nat.add_zero] at g2
  have hww : IsWin w (grpWM n b V' j st 0 k (T 0)) ((j + st) * b + 1) 0 (min (2 * b) (n - (j + st) * b) - 1) k :=
    ⟨h2.1, h2.2, fun r hr c hc => by rw [g2 r hr c hc, Nat.zero_add]⟩
  obtain ⟨sw', s1, s2⟩ := Blk.sub_win hww (r0 := p0) (c0 := 0) (h := h) (w := k) hp (by omega)
  rw [hsw] at s1
  obtain rfl := Option.some.inj s1
  obtain ⟨d, d1, d2⟩ := gemm_win .NoTrans .NoTrans (-1) 1 (a := sw) s2 (b := w2) hw2 he
  refine ⟨d, d1, d2.congr fun x hx1 hx2 y hy1 hy2 => ?_⟩
  have hm := grpF_mat (m := m) ok (show 0 + k ≤ k by omega) g1 D
  have h2 := blkF_mat cplx n b m V (j + st, j) D
  rw [blkM_def, hk, ← reflectorProd_congr (V := fun x c => blkV n b V' j st x (0 + c)) (tau := fun c => blkTau b V' j st (0 + c))
    (fun c hc => ⟨fun x _ => by rw [Nat.zero_add]; exact hV.1 c hc x, by rw [Nat.zero_add]; exact hV.2 c hc⟩), ← hm] at h2
  have hxn : x < n := by omega
  have hym : y < m := by omega
  have := congrFun (congrFun h2 ⟨x, hxn⟩) ⟨y, hym⟩
  refine Eq.trans ?_ this.symm
  show _ = grpF n b V' j st 0 k (T 0) D x y
  unfold grpF
  rw [hgr, if_pos (by omega), one_mul, neg_one_mul, neg_add_eq_sub]
  congr 1
  refine Finset.sum_congr rfl fun c hc => ?_
  rw [Finset.mem_range] at hc
  simp only [Nat.zero_add, Nat.add_zero]
  congr 1
  unfold w2F
  rw [Finset.sum_Ico_eq_sum_range, Nat.add_sub_cancel_left]
  exact Finset.sum_congr rfl fun l _ => by rw [hV.1 c hc]

end
end
end DistT2B
end DLAF
