import Verif.Lemmas.DcTri
import Verif.Spec.DivConq
import Mathlib.Data.Nat.Log
/- The recursion. -/
namespace DLAF
open C34
open scoped Matrix.Norms.L2Operator
open Matrix

/-- The diagonal after the splits before tile `b` and before tile `t`. -/
noncomputable def cutD (nb m : Nat) (d e : Nat → ℝ) (b t : Nat) : Nat → ℝ := fun x =>
  d x - (if x = b * nb ∧ 0 < b then |e (x - 1)| else 0) - (if x + 1 = t * nb ∧ x + 1 < m then |e x| else 0)

/-- A range of tiles is solved up to `δ`. -/
structure Solved (nb m : Nat) (d e : Nat → ℝ) (b t : Nat) (δ : ℝ) (s : DcSt) : Prop where
  idx : SubIdx nb m b t s.d0 s.i1
  orth : (toM (probN nb m b t) (probN nb m b t) (shE s.e0 (b * nb))).transpose * toM (probN nb m b t) (probN nb m b t) (shE s.e0 (b * nb)) = 1
  res : ‖(triM (probN nb m b t) (shF (cutD nb m d e b t) (b * nb)) (shF e (b * nb)) : Matrix (Fin (probN nb m b t)) (Fin (probN nb m b t)) ℝ) *
      toM (probN nb m b t) (probN nb m b t) (shE s.e0 (b * nb)) -
      toM (probN nb m b t) (probN nb m b t) (shE s.e0 (b * nb)) * diagonal (fun i : Fin (probN nb m b t) => s.d0 (b * nb + i))‖ ≤ δ

/-- The same data in a range of elements. -/
structure SameIn (lo n : Nat) (s s' : DcSt) : Prop where
  d0 : ∀ x, lo ≤ x → x < lo + n → s'.d0 x = s.d0 x
  i1 : ∀ x, lo ≤ x → x < lo + n → s'.i1 x = s.i1 x
  e0 : ∀ x y, lo ≤ x → x < lo + n → lo ≤ y → y < lo + n → s'.e0 x y = s.e0 x y

/-- The same data outside a range of elements. -/
structure SameOut (lo n : Nat) (s s' : DcSt) : Prop where
  d0 : ∀ x, ¬ (lo ≤ x ∧ x < lo + n) → s'.d0 x = s.d0 x
  i1 : ∀ x, ¬ (lo ≤ x ∧ x < lo + n) → s'.i1 x = s.i1 x
  e0 : ∀ x y, ¬ ((lo ≤ x ∧ x < lo + n) ∧ (lo ≤ y ∧ y < lo + n)) → s'.e0 x y = s.e0 x y

theorem SameOut.refl (lo n : Nat) (s : DcSt) : SameOut lo n s s := ⟨fun _ _ => rfl, fun _ _ => rfl, fun _ _ _ => rfl⟩

theorem SameOut.disj {lo n lo' n' : Nat} {s s' : DcSt} (h : SameOut lo n s s') (hd : lo + n ≤ lo' ∨ lo' + n' ≤ lo) : SameIn lo' n' s s' :=
  ⟨fun x h1 h2 => h.d0 x (by omega), fun x h1 h2 => h.i1 x (by omega), fun x y h1 h2 h3 h4 => h.e0 x y (by omega)⟩

theorem SameOut.wider {lo n lo' n' : Nat} {s s' : DcSt} (h : SameOut lo n s s') (h1 : lo' ≤ lo) (h2 : lo + n ≤ lo' + n') : SameOut lo' n' s s' :=
  ⟨fun x hx => h.d0 x (by omega), fun x hx => h.i1 x (by omega), fun x y hx => h.e0 x y (by omega)⟩

theorem SameOut.trans {lo n : Nat} {s s' s'' : DcSt} (h : SameOut lo n s s') (h' : SameOut lo n s' s'') : SameOut lo n s s'' :=
  ⟨fun x hx => (h'.d0 x hx).trans (h.d0 x hx), fun x hx => (h'.i1 x hx).trans (h.i1 x hx), fun x y hx => (h'.e0 x y hx).trans (h.e0 x y hx)⟩

section
variable {nb m : Nat} {d e : Nat → ℝ}

theorem Solved.congr {b t : Nat} {δ : ℝ} {s s' : DcSt} (h : Solved nb m d e b t δ s) (hs : SameIn (b * nb) (probN nb m b t) s s') :
    Solved nb m d e b t δ s' := by
  have hQ : toM (probN nb m b t) (probN nb m b t) (shE s'.e0 (b * nb)) = toM (probN nb m b t) (probN nb m b t) (shE s.e0 (b * nb)) := by
    ext x y
    have := x.2
    have := y.2
    exact hs.e0 _ _ (by omega) (by omega) (by omega) (by omega)
  have hD : (fun i : Fin (probN nb m b t) => s'.d0 (b * nb + i)) = fun i : Fin (probN nb m b t) => s.d0 (b * nb + i) := by
    funext i
    have := i.2
    exact hs.d0 _ (by omega) (by omega)
  refine ⟨?_, by rw [hQ]; exact h.orth, by rw [hQ, hD]; exact h.res⟩
  have hi := h.idx
  unfold SubIdx at hi ⊢
  split at hi
  · next he =>
    rw [if_pos he]
    intro i j hij hj
    rw [hs.d0 _ (by omega) (by omega), hs.d0 _ (by omega) (by omega)]
    exact hi i j hij hj
  · next he =>
    rw [if_neg he, winL_congr (g := s.i1) (off' := b * nb) (fun i hi => hs.i1 _ (by omega) (by omega)),
      winL_congr (g := s.d0) (off' := b * nb) (fun i hi => hs.d0 _ (by omega) (by omega))]
    exact hi

theorem Solved.mono {b t : Nat} {δ δ' : ℝ} {s : DcSt} (h : Solved nb m d e b t δ s) (hd : δ ≤ δ') : Solved nb m d e b t δ' s :=
  ⟨h.idx, h.orth, h.res.trans hd⟩

theorem Solved.nonneg {b t : Nat} {δ : ℝ} {s : DcSt} (h : Solved nb m d e b t δ s) : 0 ≤ δ := (norm_nonneg _).trans h.res

/-- Bounds of the entries. -/
structure TriBnd (m : Nat) (d e : Nat → ℝ) (A E S : ℝ) : Prop where
  a0 : 0 ≤ A
  e0 : 0 ≤ E
  dl : ∀ i < m, |d i| ≤ A
  o : ∀ i, i + 1 < m → |e i| ≤ E
  s1 : 1 ≤ S
  s : A + 4 * E ≤ S

theorem TriBnd.cut {A E S : ℝ} (h : TriBnd m d e A E S) {b t : Nat} (hr : TileRange nb m b t) :
    ‖(triM (probN nb m b t) (shF (cutD nb m d e b t) (b * nb)) (shF e (b * nb)) : Matrix (Fin (probN nb m b t)) (Fin (probN nb m b t)) ℝ)‖ ≤ S := by
  have hn := hr.probN
  have e0 := h.e0
  refine (norm_tri_le (a := A + 2 * E) (b := E) (by linarith [h.a0]) h.e0 ?_ ?_).trans (by linarith [h.s])
  · intro i hi
    show |cutD nb m d e b t (b * nb + i)| ≤ _
    unfold cutD
    have h1 := h.dl (b * nb + i) (by omega)
    have h2 : |(if b * nb + i = b * nb ∧ 0 < b then |e (b * nb + i - 1)| else 0)| ≤ E := by
      split
      · next hc =>
        rw [abs_abs]
        have : 0 < b * nb := Nat.mul_pos hc.2 hr.nbp
        exact h.o (b * nb + i - 1) (by omega)
      · rw [abs_zero]; exact e0
    have h3 : |(if b * nb + i + 1 = t * nb ∧ b * nb + i + 1 < m then |e (b * nb + i)| else 0)| ≤ E := by
      split
      · next hc =>
        rw [abs_abs]
        exact h.o _ (by omega)
      · rw [abs_zero]; exact e0
    have a1 := abs_sub (d (b * nb + i)) (if b * nb + i = b * nb ∧ 0 < b then |e (b * nb + i - 1)| else 0)
    have a2 := abs_sub (d (b * nb + i) - (if b * nb + i = b * nb ∧ 0 < b then |e (b * nb + i - 1)| else 0))
      (if b * nb + i + 1 = t * nb ∧ b * nb + i + 1 < m then |e (b * nb + i)| else 0)
    linarith
  · intro i hi
    exact h.o _ (by omega)

theorem merge_res' {n n1 n2 : Nat} (hn : n = n1 + n2) (h0 : 0 < n1) (h02 : 0 < n2) {Q : Elems ℝ} {dA dB dW e lam lam' : Nat → ℝ} {δ c : ℝ} (hδ : 0 ≤ δ)
    (hBd : BlkDiag n n1 Q) (hQ : (toM n n Q).transpose * toM n n Q = 1)
    (h1 : ‖(triM n1 dA e : Matrix (Fin n1) (Fin n1) ℝ) * toM n1 n1 Q - toM n1 n1 Q * diagonal (fun i : Fin n1 => lam i)‖ ≤ δ)
    (h2 : ‖(triM n2 dB (fun i => e (n1 + i)) : Matrix (Fin n2) (Fin n2) ℝ) * toM n2 n2 (shE Q n1) -
      toM n2 n2 (shE Q n1) * diagonal (fun i : Fin n2 => lam (n1 + i))‖ ≤ δ)
    (hA : ∀ i < n1, dW i = dA i + if i + 1 = n1 then |e (n1 - 1)| else 0)
    (hB : ∀ i, n1 + i < n → dW (n1 + i) = dB i + if i = 0 then |e (n1 - 1)| else 0)
    {M : Matrix (Fin n) (Fin n) ℝ} (hM : M.transpose * M = 1)
    (hc : ‖(diagonal (fun i : Fin n => lam i) + (2 * |e (n1 - 1)|) • vecMulVec (fun i : Fin n => zOf n1 (e (n1 - 1)) Q i)
      (fun i : Fin n => zOf n1 (e (n1 - 1)) Q i)) * M - M * diagonal (fun i : Fin n => lam' i)‖ ≤ c) :
    ‖(triM n dW e : Matrix (Fin n) (Fin n) ℝ) * (toM n n Q * M) - toM n n Q * M * diagonal (fun i : Fin n => lam' i)‖ ≤ δ + c := by
  subst hn
  exact merge_res h0 h02 hδ hBd hQ h1 h2 hA hB hM hc

theorem blk_orth' {n n1 n2 : Nat} (hn : n = n1 + n2) {Q : Elems ℝ} (hB : BlkDiag n n1 Q) (h1 : (toM n1 n1 Q).transpose * toM n1 n1 Q = 1)
    (h2 : (toM n2 n2 (shE Q n1)).transpose * toM n2 n2 (shE Q n1) = 1) : (toM n n Q).transpose * toM n n Q = 1 := by
  subst hn
  exact blk_orth hB h1 h2

theorem merge_solved {P : DcPar} (he : 0 ≤ P.eps) (h4 : Laed4Spec P.laed4) (hav : 0 < P.avail) {b i t : Nat} (h : TileRange nb m b t) (hi1 : b < i)
    (hi2 : i < t) {A E S δ : ℝ} (hb : TriBnd m d e A E S) {s : DcSt} (s1 : Solved nb m d e b i δ s) (s2 : Solved nb m d e i t δ s)
    (hB : BlkDiag (probN nb m b t) (probN nb m b i) (shE s.e0 (b * nb))) :
    ∃ s', mergeSub P nb m b i t (offdiag nb m e i) s = some s' ∧ Solved nb m d e b t (δ + 32 * m * P.eps * (S + δ)) s' ∧
      SameOut (b * nb) (probN nb m b t) s s' ∧ winL s'.i2 (b * nb) (probN nb m b t) = winL s'.i1 (b * nb) (probN nb m b t) := by
  obtain ⟨k1, k2, k3, k4⟩ := h.split hi1 hi2
  have hl := h.left hi1 hi2
  have hr := h.right hi2
  have p1 := hl.pos
  have p2 := hr.pos
  have hδ := s1.nonneg
  have hrho : offdiag nb m e i = shF e (b * nb) (probN nb m b i - 1) := by
    unfold offdiag shF
    congr 1
    omega
  have q1 : shE s.e0 (i * nb) = shE (shE s.e0 (b * nb)) (probN nb m b i) := by
    funext x y
    unfold shE
    rw [← k1, Nat.add_assoc, Nat.add_assoc]
  have q2 : shF e (i * nb) = fun x => shF e (b * nb) (probN nb m b i + x) := by
    funext x
    unfold shF
    rw [← k1, Nat.add_assoc]
  have q3 : (fun x : Fin (probN nb m i t) => s.d0 (i * nb + x)) = fun x : Fin (probN nb m i t) => shF s.d0 (b * nb) (probN nb m b i + x) := by
    funext x
    unfold shF
    rw [← k1, Nat.add_assoc]
  have o2 := s2.orth
  have r2 := s2.res
  rw [q1] at o2
  rw [q1, q2, q3] at r2
  have hQ := blk_orth' k2 hB s1.orth o2
  obtain ⟨s', f1, f2⟩ := merge_ok he h4 hav h hi1 hi2 (offdiag nb m e i) s1.idx s2.idx hB hQ
  obtain ⟨M, m1, m2, m3⟩ := f2.eig
  have hR := merge_res' (dW := shF (cutD nb m d e b t) (b * nb)) (e := shF e (b * nb)) (lam := shF s.d0 (b * nb)) (lam' := shF s'.d0 (b * nb))
    (c := 4 * (((probN nb m b t : Nat) : ℝ) * tolOf P nb m b i t (offdiag nb m e i) s)) k2 p1 p2 hδ hB hQ
    s1.res r2 (by
      intro x hx
      unfold shF cutD
      rw [if_neg (show ¬ (b * nb + x + 1 = t * nb ∧ b * nb + x + 1 < m) by
        have : (i + 1) * nb ≤ t * nb := Nat.mul_le_mul_right _ hi2
        rw [Nat.succ_mul] at this
        have := h.nbp
        omega)]
      by_cases hc : x + 1 = probN nb m b i
      · rw [if_pos hc, if_pos (show b * nb + x + 1 = i * nb ∧ b * nb + x + 1 < m by omega), ← hc, Nat.add_sub_cancel]
        ring
      · rw [if_neg hc, if_neg (show ¬ (b * nb + x + 1 = i * nb ∧ b * nb + x + 1 < m) by omega)]
        ring) (by
      intro x hx
      unfold shF cutD
      rw [if_neg (show ¬ (b * nb + (probN nb m b i + x) = b * nb ∧ 0 < b) by omega)]
      rw [show b * nb + (probN nb m b i + x) = i * nb + x by omega]
      by_cases hc : x = 0
      · rw [if_pos hc, if_pos (show i * nb + x = i * nb ∧ 0 < i by omega), hc, show b * nb + (probN nb m b i - 1) = i * nb + 0 - 1 by omega]
        ring
      · rw [if_neg hc, if_neg (show ¬ (i * nb + x = i * nb ∧ 0 < i) by omega)]
        ring) m1 (by
      rw [← hrho]
      exact m3)
  rw [← m2] at hR
  have ht1 := hb.cut hl
  have ht2 := hb.cut hr
  have hnm := h.probN
  have htol : tolOf P nb m b i t (offdiag nb m e i) s ≤ 8 * P.eps * (S + δ) := by
    unfold tolOf dcTol
    refine mul_le_mul_of_nonneg_left ?_ (by linarith)
    have hS := hb.s1
    refine max_le (maxAbs_le (by linarith) ?_) (maxAbs_le (by linarith) ?_)
    · intro v hv
      unfold winL at hv
      obtain ⟨x, hx, rfl⟩ := List.mem_map.1 hv
      rw [List.mem_range] at hx
      rcases Nat.lt_or_ge x (probN nb m b i) with hc | hc
      · exact (eig_bound s1.orth s1.res ⟨x, hc⟩).trans (by linarith)
      · have := eig_bound s2.orth s2.res ⟨x - probN nb m b i, by omega⟩
        have e1 : i * nb + (x - probN nb m b i) = b * nb + x := by omega
        simp only [e1] at this
        linarith
    · intro v hv
      unfold winL at hv
      obtain ⟨x, hx, rfl⟩ := List.mem_map.1 hv
      rw [List.mem_range] at hx
      rw [assembleZ_win h hi1 hi2 _ s.e0 s.z0 hx]
      have hsum := zOf_sq (rho := offdiag nb m e i) p1 (show probN nb m b i < probN nb m b t by omega) hQ
      have := Finset.single_le_sum (f := fun j : Fin (probN nb m b t) => zOf (probN nb m b i) (offdiag nb m e i) (shE s.e0 (b * nb)) j ^ 2)
        (fun j _ => sq_nonneg _) (Finset.mem_univ ⟨x, hx⟩)
      have h2 := this.trans hsum
      have h3 : |zOf (probN nb m b i) (offdiag nb m e i) (shE s.e0 (b * nb)) x| ≤ 1 := (sq_le_one_iff_abs_le_one _).1 h2
      unfold zOf at h3
      linarith
  refine ⟨s', f1, ⟨?_, ?_, hR.trans ?_⟩, ⟨f2.d0_out, f2.i1_out, f2.e0_out⟩, f2.i2⟩
  · unfold SubIdx
    rw [if_neg (by omega)]
    exact ⟨f2.perm, f2.sorted⟩
  · rw [m2, Matrix.transpose_mul, Matrix.mul_assoc, ← Matrix.mul_assoc _ _ M, hQ, Matrix.one_mul, m1]
  · have hle : ((probN nb m b t : Nat) : ℝ) ≤ m := by exact_mod_cast (show probN nb m b t ≤ m by omega)
    have hS := hb.s1
    have hX : 0 ≤ 8 * P.eps * (S + δ) := mul_nonneg (by linarith) (by linarith)
    have h1 : ((probN nb m b t : Nat) : ℝ) * tolOf P nb m b i t (offdiag nb m e i) s ≤ m * (8 * P.eps * (S + δ)) :=
      mul_le_mul hle htol (tolOf_nonneg he _ _) (by positivity)
    have h2 : 4 * ((m : ℝ) * (8 * P.eps * (S + δ))) = 32 * m * P.eps * (S + δ) := by ring
    linarith

/-- Accumulated residual after `L` levels. -/
noncomputable def errL (m : Nat) (eps S : ℝ) (L : Nat) : ℝ := S * ((1 + 32 * m * eps) ^ L - 1)

theorem errL_succ (m : Nat) (eps S : ℝ) (L : Nat) : errL m eps S L + 32 * m * eps * (S + errL m eps S L) = errL m eps S (L + 1) := by
  unfold errL
  ring

theorem errL_mono {m : Nat} {eps S : ℝ} (he : 0 ≤ eps) (hS : 0 ≤ S) {L L' : Nat} (h : L ≤ L') : errL m eps S L ≤ errL m eps S L' := by
  unfold errL
  refine mul_le_mul_of_nonneg_left ?_ hS
  have : (1 : ℝ) ≤ 1 + 32 * m * eps := by
    have : 0 ≤ 32 * (m : ℝ) * eps := by positivity
    linarith
  have := pow_le_pow_right₀ this h
  linarith

theorem split_solved {P : DcPar} (he : 0 ≤ P.eps) (h4 : Laed4Spec P.laed4) (hav : 0 < P.avail) {A E S : ℝ} (hb : TriBnd m d e A E S) :
    ∀ k b t, t - b = k → TileRange nb m b t → ∀ s : DcSt, (∀ i, b ≤ i → i < t → Solved nb m d e i (i + 1) 0 s) →
      (∀ x y, b * nb ≤ x → x < b * nb + probN nb m b t → b * nb ≤ y → y < b * nb + probN nb m b t → x / nb ≠ y / nb → s.e0 x y = 0) →
      ∃ s', forM' (splitIv b t) s (fun s v => mergeSub P nb m v.1 v.2.1 v.2.2 (offdiag nb m e v.2.1) s) = some s' ∧
        Solved nb m d e b t (errL m P.eps S (Nat.clog 2 (t - b))) s' ∧ SameOut (b * nb) (probN nb m b t) s s' ∧
        (b + 1 < t → winL s'.i2 (b * nb) (probN nb m b t) = winL s'.i1 (b * nb) (probN nb m b t)) := by
  intro k
  induction k using Nat.strong_induction_on with
  | _ k ih =>
    intro b t hk h s hleaf hzero
    have hbt := h.lt
    have hS : 0 ≤ S := by linarith [hb.s1]
    by_cases h1 : t ≤ b + 1
    · have ht : t = b + 1 := by omega
      subst ht
      refine ⟨s, ?_, ?_, SameOut.refl _ _ _, fun h => absurd h (by omega)⟩
      · rw [splitIv, if_pos h1]
        rfl
      · have := hleaf b (le_refl _) hbt
        rw [show b + 1 - b = 1 by omega, show Nat.clog 2 1 = 0 by simp]
        unfold errL
        rw [pow_zero, sub_self, mul_zero]
        exact this
    · obtain ⟨i, hi⟩ : ∃ i, i = ceilDivN (b + t) 2 := ⟨_, rfl⟩
      have hi1 : b < i := by rw [hi]; unfold ceilDivN; omega
      have hi2 : i < t := by rw [hi]; unfold ceilDivN; omega
      have hsz : i - b = (t - b + 2 - 1) / 2 := by rw [hi]; unfold ceilDivN; omega
      have hl := h.left hi1 hi2
      have hr := h.right hi2
      obtain ⟨k1, k2, k3, k4⟩ := h.split hi1 hi2
      have hclog : Nat.clog 2 (t - b) = Nat.clog 2 (i - b) + 1 := by
        rw [Nat.clog_of_two_le (by omega) (by omega), hsz]
      obtain ⟨s1, a1, a2, a3, -⟩ := ih (i - b) (by omega) b i rfl hl s (fun j j1 j2 => hleaf j j1 (by omega))
        (fun x y x1 x2 y1 y2 hxy => hzero x y x1 (by omega) y1 (by omega) hxy)
      have hin : SameIn (i * nb) (probN nb m i t) s s1 := a3.disj (Or.inl (by omega))
      obtain ⟨s2, b1, b2, b3, -⟩ := ih (t - i) (by omega) i t rfl hr s1
        (fun j j1 j2 => (hleaf j (by omega) j2).congr (by
          have hj : TileRange nb m j (j + 1) := ⟨h.nbp, by omega, lt_of_le_of_lt (Nat.mul_le_mul_right _ (by omega)) h.last⟩
          have e1 := hj.probN
          have e2 : i * nb ≤ j * nb := Nat.mul_le_mul_right _ j1
          have e3 := hr.probN
          have e4 : (j + 1) * nb ≤ t * nb := Nat.mul_le_mul_right _ j2
          exact a3.disj (Or.inl (by omega))))
        (fun x y x1 x2 y1 y2 hxy => by
          rw [hin.e0 x y x1 x2 y1 y2]
          exact hzero x y (by omega) (by omega) (by omega) (by omega) hxy)
      have hmono : errL m P.eps S (Nat.clog 2 (t - i)) ≤ errL m P.eps S (Nat.clog 2 (i - b)) :=
        errL_mono he hS (Nat.clog_mono_right 2 (by omega))
      have c1 : Solved nb m d e b i (errL m P.eps S (Nat.clog 2 (i - b))) s2 := a2.congr (b3.disj (Or.inr (by omega)))
      have hblk : BlkDiag (probN nb m b t) (probN nb m b i) (shE s2.e0 (b * nb)) := by
        intro x hx y hy hxy
        show s2.e0 (b * nb + x) (b * nb + y) = 0
        rw [b3.e0 _ _ (by omega), a3.e0 _ _ (by omega)]
        refine hzero _ _ (by omega) (by omega) (by omega) (by omega) ?_
        have key : ∀ {u v}, u < probN nb m b i → probN nb m b i ≤ v → (b * nb + u) / nb < (b * nb + v) / nb := by
          intro u v hu hv
          have e1 : (b * nb + u) / nb < i := by rw [Nat.div_lt_iff_lt_mul h.nbp]; omega
          have e2 : i ≤ (b * nb + v) / nb := by rw [Nat.le_div_iff_mul_le h.nbp]; omega
          omega
        rcases hxy with ⟨u, v⟩ | ⟨u, v⟩
        · exact ne_of_lt (key u v)
        · exact ne_of_gt (key u v)
      obtain ⟨s3, d1, d2, d3, d4⟩ := merge_solved he h4 hav h hi1 hi2 hb c1 (b2.mono hmono) hblk
      refine ⟨s3, ?_, ?_, ?_, fun _ => d4⟩
      · rw [splitIv, if_neg h1, ← hi]
        unfold forM' at a1 b1 ⊢
        rw [List.foldlM_append, List.foldlM_append]
        simp only [Option.bind_eq_bind]
        rw [a1, Option.bind_some, b1, Option.bind_some, List.foldlM_cons]
        simp only [Option.bind_eq_bind]
        rw [d1, Option.bind_some]
        rfl
      · rw [hclog, ← errL_succ]
        exact d2
      · exact ((a3.wider (le_refl _) (by omega)).trans (b3.wider (by omega) (by omega))).trans d3

end
end DLAF
