import Verif.Lemmas.DcDrive
import Verif.Lemmas.Tasks
import Verif.Lemmas.TFactor
/- The splits, the leaves, the solver. -/
namespace DLAF
open C34
open scoped Matrix.Norms.L2Operator
open Matrix

theorem diagM_real (m : Nat) (lam : Nat → ℝ) : (diagM m lam : Matrix (Fin m) (Fin m) ℝ) = diagonal (fun i : Fin m => lam i) := by
  ext x y
  simp [diagM]

section
variable {nb m : Nat}

theorem tileN_full (hnb : 0 < nb) {i : Nat} (hi : i + 1 < ceilDivN m nb) : tileN nb m i = nb ∧ (i + 1) * nb < m := by
  have h : (i + 1) * nb < m := by
    by_contra hc
    have : ceilDivN m nb ≤ i + 1 := by
      unfold ceilDivN
      rw [← Nat.lt_succ_iff, Nat.div_lt_iff_lt_mul hnb, Nat.succ_mul]
      omega
    omega
  refine ⟨?_, h⟩
  unfold tileN
  rw [Nat.succ_mul] at h
  omega

theorem last_tile (hnb : 0 < nb) (hm : 0 < m) : 0 < ceilDivN m nb ∧ (ceilDivN m nb - 1) * nb < m ∧ m ≤ ceilDivN m nb * nb := by
  have h1 : 0 < ceilDivN m nb := by
    unfold ceilDivN
    exact Nat.div_pos (by omega) hnb
  refine ⟨h1, ?_, le_ceilDivN_mul _ hnb⟩
  rcases Nat.eq_zero_or_pos (ceilDivN m nb - 1) with h | h
  · rw [h, Nat.zero_mul]; exact hm
  · have := (tileN_full (m := m) hnb (i := ceilDivN m nb - 2) (by omega)).2
    rw [show ceilDivN m nb - 2 + 1 = ceilDivN m nb - 1 by omega] at this
    exact this

theorem cuppens_fold (hnb : 0 < nb) (d e : Nat → ℝ) : ∀ j, j < ceilDivN m nb → ∀ x,
    (upto 1 (j + 1)).foldl (fun d i => cuppens nb m e i d) d x =
      d x - (if x = x / nb * nb ∧ 0 < x / nb ∧ x / nb < j + 1 then |e (x - 1)| else 0) -
        (if x + 1 = (x + 1) / nb * nb ∧ 0 < (x + 1) / nb ∧ (x + 1) / nb < j + 1 then |e x| else 0) := by
  intro j
  induction j with
  | zero =>
    intro _ x
    rw [if_neg (by omega), if_neg (by omega)]
    show d x = _
    ring
  | succ j ih =>
    intro hj x
    rw [upto_succ (by omega), List.foldl_append]
    obtain ⟨f, hf⟩ : ∃ f, f = (upto 1 (j + 1)).foldl (fun d i => cuppens nb m e i d) d := ⟨_, rfl⟩
    have ih := ih (by omega)
    rw [← hf] at ih ⊢
    show cuppens nb m e (j + 1) f x = _
    unfold cuppens
    rw [Nat.add_sub_cancel, (tileN_full hnb hj).1]
    have htop : j * nb + (nb - 1) = (j + 1) * nb - 1 := by rw [Nat.succ_mul]; omega
    have hpos : 0 < (j + 1) * nb := Nat.mul_pos (by omega) hnb
    rw [htop]
    have hd1 : ∀ y, (y = y / nb * nb ∧ 0 < y / nb ∧ y / nb < j + 1 + 1) ↔ (y = y / nb * nb ∧ 0 < y / nb ∧ y / nb < j + 1) ∨ y = (j + 1) * nb := by
      intro y
      constructor
      · rintro ⟨a, b, c⟩
        rcases Nat.lt_or_ge (y / nb) (j + 1) with h | h
        · exact Or.inl ⟨a, b, h⟩
        · rw [show y / nb = j + 1 by omega] at a
          exact Or.inr a
      · rintro (⟨a, b, c⟩ | h)
        · exact ⟨a, b, by omega⟩
        · rw [h, Nat.mul_div_cancel _ hnb]
          exact ⟨rfl, by omega, by omega⟩
    have hd2 : ∀ y, y = (j + 1) * nb → ¬ (y = y / nb * nb ∧ 0 < y / nb ∧ y / nb < j + 1) := by
      rintro y h ⟨a, b, c⟩
      rw [h, Nat.mul_div_cancel _ hnb] at c
      omega
    have ih1 := ih ((j + 1) * nb)
    have ih2 := ih ((j + 1) * nb - 1)
    have ihx := ih x
    by_cases c1 : x = (j + 1) * nb
    · rw [if_pos ((hd1 x).2 (Or.inr c1)), c1, setF_eq, setF_ne (by omega)]
      rw [if_neg (hd2 _ rfl)] at ih1
      rw [ih1]
      by_cases c2 : (j + 1) * nb + 1 = ((j + 1) * nb + 1) / nb * nb ∧ 0 < ((j + 1) * nb + 1) / nb ∧ ((j + 1) * nb + 1) / nb < j + 1
      · exfalso
        have h1 := c2.1
        have h2 : ((j + 1) * nb + 1) / nb * nb ≤ (j + 1) * nb := Nat.mul_le_mul_right _ (by omega)
        omega
      · rw [if_neg c2, if_neg (fun h => by
          rcases (hd1 _).1 h with h | h
          · exact c2 h
          · omega)]
        ring
    · rw [setF_ne c1]
      by_cases c2 : x = (j + 1) * nb - 1
      · rw [c2, setF_eq]
        rw [if_neg (hd2 ((j + 1) * nb - 1 + 1) (by omega))] at ih2
        rw [ih2]
        rw [if_pos ((hd1 ((j + 1) * nb - 1 + 1)).2 (Or.inr (by omega)))]
        rw [if_congr (hd1 ((j + 1) * nb - 1)) rfl rfl]
        rw [if_congr (or_iff_left (show ¬ (j + 1) * nb - 1 = (j + 1) * nb by omega)) rfl rfl]
        ring
      · rw [setF_ne c2, ihx, if_congr (hd1 x) rfl rfl, if_congr (hd1 (x + 1)) rfl rfl, if_congr (or_iff_left c1) rfl rfl,
          if_congr (or_iff_left (show ¬ x + 1 = (j + 1) * nb by omega)) rfl rfl]

/-- After all splits every tile has lost both couplings. -/
theorem cuppens_all (hnb : 0 < nb) (hm : 0 < m) (d e : Nat → ℝ) {i x : Nat} (h1 : i * nb ≤ x) (h2 : x < (i + 1) * nb) (h3 : x < m) :
    (upto 1 (ceilDivN m nb)).foldl (fun d i => cuppens nb m e i d) d x = cutD nb m d e i (i + 1) x := by
  obtain ⟨l1, l2, l3⟩ := last_tile (m := m) hnb hm
  have := cuppens_fold (m := m) hnb d e (ceilDivN m nb - 1) (by omega) x
  rw [show ceilDivN m nb - 1 + 1 = ceilDivN m nb by omega] at this
  rw [this]
  have hq : x / nb = i := by
    have a1 : x / nb < i + 1 := by rw [Nat.div_lt_iff_lt_mul hnb]; exact h2
    have a2 : i ≤ x / nb := by rw [Nat.le_div_iff_mul_le hnb]; exact h1
    omega
  have hint : i < ceilDivN m nb := by
    by_contra hc
    have : ceilDivN m nb * nb ≤ i * nb := Nat.mul_le_mul_right _ (by omega)
    omega
  unfold cutD
  rw [hq]
  have c1 : (x = i * nb ∧ 0 < i ∧ i < ceilDivN m nb) ↔ (x = i * nb ∧ 0 < i) := ⟨fun h => ⟨h.1, h.2.1⟩, fun h => ⟨h.1, h.2, hint⟩⟩
  have c2 : (x + 1 = (x + 1) / nb * nb ∧ 0 < (x + 1) / nb ∧ (x + 1) / nb < ceilDivN m nb) ↔ (x + 1 = (i + 1) * nb ∧ x + 1 < m) := by
    constructor
    · rintro ⟨a, b, c⟩
      have u1 : i < (x + 1) / nb := by
        by_contra hc
        have : (x + 1) / nb * nb ≤ i * nb := Nat.mul_le_mul_right _ (by omega)
        omega
      have u2 : (i + 1) * nb ≤ (x + 1) / nb * nb := Nat.mul_le_mul_right _ u1
      have u3 : (x + 1) / nb * nb ≤ (ceilDivN m nb - 1) * nb := Nat.mul_le_mul_right _ (by omega)
      omega
    · rintro ⟨a, b⟩
      rw [a, Nat.mul_div_cancel _ hnb]
      refine ⟨rfl, by omega, ?_⟩
      by_contra hc
      have : ceilDivN m nb * nb ≤ (i + 1) * nb := Nat.mul_le_mul_right _ (by omega)
      omega
  rw [if_congr c1 rfl rfl, if_congr c2 rfl rfl]

/-- The leaves. -/
theorem leaves_fold (P : DcPar) (hnb : 0 < nb) (e dd : Nat → ℝ) (z : Elems ℝ) : ∀ j, j ≤ ceilDivN m nb →
    (∀ y, j * nb ≤ y → ((upto 0 j).foldl (fun x i => solveLeaf P nb m e i x) (dd, z)).1 y = dd y) ∧
    (∀ a b, a / nb ≠ b / nb → ((upto 0 j).foldl (fun x i => solveLeaf P nb m e i x) (dd, z)).2 a b = z a b) ∧
    ∀ i < j, (∀ r < tileN nb m i, ((upto 0 j).foldl (fun x i => solveLeaf P nb m e i x) (dd, z)).1 (i * nb + r) =
        (P.stedc (tileN nb m i) (shF dd (i * nb)) (shF e (i * nb))).1 r) ∧
      ∀ r < tileN nb m i, ∀ c < tileN nb m i, ((upto 0 j).foldl (fun x i => solveLeaf P nb m e i x) (dd, z)).2 (i * nb + r) (i * nb + c) =
        (P.stedc (tileN nb m i) (shF dd (i * nb)) (shF e (i * nb))).2 r c := by
  intro j
  induction j with
  | zero => exact fun _ => ⟨fun _ _ => rfl, fun _ _ _ => rfl, fun _ h => absurd h (Nat.not_lt_zero _)⟩
  | succ j ih =>
    intro hj
    rw [upto_succ (by omega), List.foldl_append, List.foldl_cons, List.foldl_nil]
    obtain ⟨f, hf⟩ : ∃ f, f = (upto 0 j).foldl (fun x i => solveLeaf P nb m e i x) (dd, z) := ⟨_, rfl⟩
    have ih := ih (by omega)
    rw [← hf] at ih ⊢
    obtain ⟨i1, i2, i3⟩ := ih
    have ht : tileN nb m j ≤ nb := by unfold tileN; omega
    have hs : (j + 1) * nb = j * nb + nb := Nat.succ_mul _ _
    have hfun : shF f.1 (j * nb) = shF dd (j * nb) := by
      funext y
      exact i1 _ (by omega)
    unfold solveLeaf
    dsimp only
    rw [hfun]
    refine ⟨fun y hy => ?_, fun a b hab => ?_, fun i hi => ?_⟩
    · rw [putF_out _ _ _ _ (by omega)]
      exact i1 y (by omega)
    · rw [putE_out]
      · exact i2 a b hab
      · rintro ⟨⟨a1, a2⟩, b1, b2⟩
        have key : ∀ {u}, j * nb ≤ u → u < j * nb + tileN nb m j → u / nb = j := by
          intro u h1 h2
          have a1 : u / nb < j + 1 := by rw [Nat.div_lt_iff_lt_mul hnb]; omega
          have a2 : j ≤ u / nb := by rw [Nat.le_div_iff_mul_le hnb]; exact h1
          omega
        exact hab ((key a1 a2).trans (key b1 b2).symm)
    · rcases Nat.lt_or_ge i j with h | h
      · have h1 : (i + 1) * nb ≤ j * nb := Nat.mul_le_mul_right _ h
        rw [Nat.succ_mul] at h1
        have h2 : tileN nb m i ≤ nb := by unfold tileN; omega
        refine ⟨fun r hr => ?_, fun r hr c hc => ?_⟩
        · rw [putF_out _ _ _ _ (by omega)]
          exact (i3 i h).1 r hr
        · rw [putE_out _ _ _ _ (by omega)]
          exact (i3 i h).2 r hr c hc
      · obtain rfl : i = j := by omega
        refine ⟨fun r hr => ?_, fun r hr c hc => ?_⟩
        · rw [putF_win _ _ _ _ hr]
        · rw [putE_win _ _ _ _ hr hc]

/-- Permuted columns. -/
theorem perm_final {n : Nat} {l : List Nat} (hp : IsPerm n l) {T : Matrix (Fin n) (Fin n) ℝ} {Q Z : Elems ℝ} {d lam : Nat → ℝ} {δ : ℝ}
    (hQ : (toM n n Q).transpose * toM n n Q = 1) (hr : ‖T * toM n n Q - toM n n Q * diagonal (fun i : Fin n => d i)‖ ≤ δ)
    (hZ : ∀ x < n, ∀ y < n, Z x y = Q x (l.getD y 0)) (hl : ∀ i < n, lam i = d (l.getD i 0)) :
    (toM n n Z).transpose * toM n n Z = 1 ∧ ‖T * toM n n Z - toM n n Z * diagonal (fun i : Fin n => lam i)‖ ≤ δ := by
  obtain ⟨σ, hσ⟩ : ∃ σ, σ = permEquiv hp := ⟨_, rfl⟩
  have e1 : toM n n Z = toM n n Q * (1 : Matrix (Fin n) (Fin n) ℝ).submatrix id σ := by
    ext x y
    rw [Matrix.mul_apply]
    simp only [Matrix.submatrix_apply, id_eq, Matrix.one_apply, mul_ite, mul_one, mul_zero, Finset.sum_ite_eq', Finset.mem_univ, if_true]
    rw [hσ]
    exact hZ x x.2 y y.2
  obtain ⟨R, hR⟩ : ∃ R, R = (1 : Matrix (Fin n) (Fin n) ℝ).submatrix id σ := ⟨_, rfl⟩
  have hRo : R.transpose * R = 1 := by
    rw [hR, Matrix.transpose_submatrix, Matrix.transpose_one]
    have := Matrix.submatrix_mul_equiv (1 : Matrix (Fin n) (Fin n) ℝ) 1 σ (Equiv.refl _) σ
    rw [Matrix.one_mul, Matrix.submatrix_one_equiv] at this
    exact this
  have e2 : diagonal (fun i : Fin n => d i) * R = R * diagonal (fun i : Fin n => lam i) := by
    ext x y
    rw [Matrix.diagonal_mul, Matrix.mul_diagonal, hR, Matrix.submatrix_apply, Matrix.one_apply, id_eq]
    split
    · next h =>
      rw [h, hσ, mul_one, one_mul, hl y y.2, permEquiv_apply]
    · ring
  rw [← hR] at e1
  refine ⟨?_, ?_⟩
  · rw [e1, Matrix.transpose_mul, Matrix.mul_assoc, ← Matrix.mul_assoc _ _ R, hQ, Matrix.one_mul, hRo]
  · have : T * toM n n Z - toM n n Z * diagonal (fun i : Fin n => lam i) = (T * toM n n Q - toM n n Q * diagonal (fun i : Fin n => d i)) * R := by
      rw [e1, Matrix.sub_mul, Matrix.mul_assoc, Matrix.mul_assoc, Matrix.mul_assoc, ← e2]
    rw [this]
    exact (norm_mul_orth hRo).trans hr

/-- The solver. -/
theorem dc_ok {P : DcPar} (he : 0 ≤ P.eps) (h4 : Laed4Spec P.laed4) (hst : StedcSpec P.stedc) (hav : 0 < P.avail) (w : DcSt) (hm : 0 < m)
    (hnb : 0 < nb) {d e : Nat → ℝ} {A E : ℝ} (hA : ∀ i < m, |d i| ≤ A) (hE : ∀ i, i + 1 < m → |e i| ≤ E) :
    ∃ lam Z, dcSolve P w m nb d e = some (lam, Z) ∧ (∀ i j, i ≤ j → j < m → lam i ≤ lam j) ∧ (toM m m Z).transpose * toM m m Z = 1 ∧
      ‖(triM m d e : Matrix (Fin m) (Fin m) ℝ) * toM m m Z - toM m m Z * diagonal (fun i : Fin m => lam i)‖ ≤
        max 1 (A + 4 * E) * ((1 + 32 * m * P.eps) ^ Nat.clog 2 (ceilDivN m nb) - 1) := by
  obtain ⟨l1, l2, l3⟩ := last_tile (m := m) hnb hm
  by_cases hnt : ceilDivN m nb = 1
  · -- one tile
    rw [hnt, Nat.one_mul] at l3
    have ht : tileN nb m 0 = m := by unfold tileN; omega
    obtain ⟨t1, t2, t3⟩ := hst m (shF d 0) (shF e 0) hm
    have hz : ∀ f : Nat → ℝ, shF f 0 = f := fun f => by funext x; unfold shF; rw [Nat.zero_add]
    rw [hz, hz] at t1 t2 t3
    refine ⟨_, _, by unfold dcSolve; dsimp only; rw [if_neg (by omega), if_pos hnt], ?_, ?_, ?_⟩
    · have hv : ∀ i < m, putF w.d1 0 m (solveLeaf P nb m e 0 (d, w.e2)).1 i = (P.stedc m d e).1 i := by
        intro i hi
        unfold solveLeaf
        dsimp only
        rw [Nat.zero_mul, ht, hz, hz]
        have := putF_win w.d1 0 m (putF d 0 m (P.stedc m d e).1) hi
        rw [Nat.zero_add] at this
        rw [this]
        have := putF_win d 0 m (P.stedc m d e).1 hi
        rw [Nat.zero_add] at this
        exact this
      intro i j hij hj
      rw [hv i (by omega), hv j hj]
      exact t1 i j hij hj
    · have hq : toM m m (solveLeaf P nb m e 0 (d, w.e2)).2 = toM m m (P.stedc m d e).2 := by
        ext x y
        show (solveLeaf P nb m e 0 (d, w.e2)).2 x y = _
        unfold solveLeaf
        dsimp only
        rw [Nat.zero_mul, ht, hz, hz]
        have := putE_win w.e2 0 m (P.stedc m d e).2 x.2 y.2
        rw [Nat.zero_add, Nat.zero_add] at this
        exact this
      rw [hq]
      exact t2
    · have hv : (fun i : Fin m => putF w.d1 0 m (solveLeaf P nb m e 0 (d, w.e2)).1 i) = fun i : Fin m => (P.stedc m d e).1 i := by
        funext i
        have hi := i.2
        unfold solveLeaf
        dsimp only
        rw [Nat.zero_mul, ht, hz, hz]
        have := putF_win w.d1 0 m (putF d 0 m (P.stedc m d e).1) hi
        rw [Nat.zero_add] at this
        rw [this]
        have := putF_win d 0 m (P.stedc m d e).1 hi
        rw [Nat.zero_add] at this
        exact this
      have hq : toM m m (solveLeaf P nb m e 0 (d, w.e2)).2 = toM m m (P.stedc m d e).2 := by
        ext x y
        show (solveLeaf P nb m e 0 (d, w.e2)).2 x y = _
        unfold solveLeaf
        dsimp only
        rw [Nat.zero_mul, ht, hz, hz]
        have := putE_win w.e2 0 m (P.stedc m d e).2 x.2 y.2
        rw [Nat.zero_add, Nat.zero_add] at this
        exact this
      rw [hv, hq, t3, diagM_real, sub_self, norm_zero, hnt]
      simp
  · have hm2 : 1 < m := by
      by_contra hc
      have hm1 : m = 1 := by omega
      have : (ceilDivN m nb - 1) * nb < 1 := by omega
      have : ceilDivN m nb - 1 ≤ (ceilDivN m nb - 1) * nb := Nat.le_mul_of_pos_right _ hnb
      omega
    have hb : TriBnd m d e A E (max 1 (A + 4 * E)) :=
      ⟨(abs_nonneg _).trans (hA 0 hm), (abs_nonneg _).trans (hE 0 (by omega)), hA, hE, le_max_left _ _, le_max_right _ _⟩
    have hr : TileRange nb m 0 (ceilDivN m nb) := ⟨hnb, by omega, l2⟩
    have hprob : probN nb m 0 (ceilDivN m nb) = m := by
      have := hr.probN
      omega
    obtain ⟨dd, hdd⟩ : ∃ dd, dd = (upto 1 (ceilDivN m nb)).foldl (fun d i => cuppens nb m e i d) d := ⟨_, rfl⟩
    obtain ⟨z0, hz0⟩ : ∃ z0 : Elems ℝ, z0 = fun x y => if x < m ∧ y < m then 0 else w.e0 x y := ⟨_, rfl⟩
    obtain ⟨f1, f2, f3⟩ := leaves_fold (m := m) P hnb e dd z0 (ceilDivN m nb) (le_refl _)
    obtain ⟨lf, hlf⟩ : ∃ lf, lf = (upto 0 (ceilDivN m nb)).foldl (fun x i => solveLeaf P nb m e i x) (dd, z0) := ⟨_, rfl⟩
    rw [← hlf] at f1 f2 f3
    obtain ⟨s0, hs0⟩ : ∃ s0 : DcSt, s0 = { w with d0 := putF w.d0 0 m lf.1, e0 := lf.2 } := ⟨_, rfl⟩
    have hd0 : ∀ x < m, s0.d0 x = lf.1 x := by
      intro x hx
      rw [hs0]
      have := putF_win w.d0 0 m lf.1 hx
      rw [Nat.zero_add] at this
      exact this
    have he0 : s0.e0 = lf.2 := by rw [hs0]
    have hleaf : ∀ i, 0 ≤ i → i < ceilDivN m nb → Solved nb m d e i (i + 1) 0 s0 := by
      intro i _ hi
      have hri : TileRange nb m i (i + 1) := ⟨hnb, by omega, lt_of_le_of_lt (Nat.mul_le_mul_right _ (by omega)) l2⟩
      have hpn : probN nb m i (i + 1) = tileN nb m i := by
        unfold probN
        rw [show i + 1 - i - 1 = 0 by omega, Nat.zero_mul, Nat.zero_add, Nat.add_sub_cancel]
      have hp := hri.probN
      have hpos := hri.pos
      rw [hpn] at hp hpos
      obtain ⟨t1, t2, t3⟩ := hst (tileN nb m i) (shF dd (i * nb)) (shF e (i * nb)) hpos
      obtain ⟨g1, g2⟩ := f3 i hi
      have hq : toM (tileN nb m i) (tileN nb m i) (shE s0.e0 (i * nb)) =
          toM (tileN nb m i) (tileN nb m i) (P.stedc (tileN nb m i) (shF dd (i * nb)) (shF e (i * nb))).2 := by
        ext x y
        rw [he0]
        exact g2 x x.2 y y.2
      refine ⟨?_, ?_, ?_⟩
      · unfold SubIdx
        rw [if_pos rfl, hpn]
        intro a b hab hbn
        rw [hd0 _ (by omega), hd0 _ (by omega), g1 a (by omega), g1 b hbn]
        exact t1 a b hab hbn
      · rw [hpn, hq]
        exact t2
      · rw [hpn, hq, triM_congr (d' := shF dd (i * nb)) (e' := shF e (i * nb)) (fun r hr => by
          unfold shF
          rw [hdd]
          exact (cuppens_all hnb hm d e (by omega) (by omega) (by omega)).symm) (fun _ _ => rfl), t3, diagM_real]
        have : (fun r : Fin (tileN nb m i) => s0.d0 (i * nb + r)) = fun r : Fin (tileN nb m i) =>
            (P.stedc (tileN nb m i) (shF dd (i * nb)) (shF e (i * nb))).1 r := by
          funext r
          have := r.2
          rw [hd0 _ (by omega), g1 r r.2]
        rw [this, sub_self, norm_zero]
    obtain ⟨s', k1, k2, -, k4⟩ := split_solved he h4 hav hb (ceilDivN m nb) 0 (ceilDivN m nb) (by omega) hr s0 hleaf (by
      intro x y _ hx _ hy hxy
      rw [hprob] at hx hy
      rw [he0, f2 x y hxy, hz0]
      exact if_pos ⟨by omega, by omega⟩)
    have k4 := k4 (by omega)
    have hidx := k2.idx
    unfold SubIdx at hidx
    rw [if_neg (by omega)] at hidx
    obtain ⟨o1, o2⟩ := hidx
    rw [← k4, hprob, Nat.zero_mul] at o1 o2
    obtain ⟨ev, v1, v2, v3⟩ := C34_apply o1 (winL_length s'.d0 0 m)
    have hlam : ∀ i < m, putL s'.d1 0 ev i = s'.d0 ((winL s'.i2 0 m).getD i 0) := by
      intro i hi
      have := putL_shF (f := s'.d1) (g := s'.d0) (off := 0) v2 o1 v3 hi
      rw [Nat.zero_add, Nat.zero_add] at this
      exact this
    have hZ : ∀ x < m, ∀ y < m, permCols 0 m (winL s'.i2 0 m) s'.e0 s'.e2 x y = s'.e0 x ((winL s'.i2 0 m).getD y 0) := by
      intro x hx y hy
      unfold permCols
      have := putE_win s'.e2 0 m (fun x y => shE s'.e0 0 x ((winL s'.i2 0 m).getD y 0)) hx hy
      rw [Nat.zero_add, Nat.zero_add] at this
      rw [this]
      unfold shE
      rw [Nat.zero_add, Nat.zero_add]
    have hor := k2.orth
    have hre := k2.res
    have hsE : shE s'.e0 (0 * nb) = s'.e0 := by
      funext x y
      unfold shE
      rw [Nat.zero_mul, Nat.zero_add, Nat.zero_add]
    rw [hprob, hsE] at hor
    rw [hprob, hsE, triM_congr (d' := d) (e' := e) (fun x hx => by
      unfold shF cutD
      rw [Nat.zero_mul, Nat.zero_add, if_neg (by omega), if_neg (by omega)]
      ring) (fun x hx => by
      unfold shF
      rw [Nat.zero_mul, Nat.zero_add])] at hre
    simp only [Nat.zero_mul, Nat.zero_add, Nat.sub_zero] at hre
    obtain ⟨r1, r2⟩ := perm_final o1 hor hre hZ hlam
    refine ⟨putL s'.d1 0 ev, permCols 0 m (winL s'.i2 0 m) s'.e0 s'.e2, ?_, ?_, r1, r2⟩
    · unfold dcSolve
      dsimp only
      rw [if_neg (by omega), if_neg hnt, ← hdd, ← hz0, ← hlf, ← hs0, k1]
      simp only [Option.bind_eq_bind, Option.bind_some]
      rw [v1, Option.bind_some]
    · rw [sortedAlong_win (fun i hi => o1.lt hi), winL_length] at o2
      intro i j hij hj
      rw [hlam i (by omega), hlam j hj]
      have := o2 i j hij hj
      rw [Nat.zero_add, Nat.zero_add] at this
      exact this

end
end DLAF
