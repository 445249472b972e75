import Verif.Lemmas.Rank1Run
import Mathlib.Tactic.FieldSimp
import Mathlib.Tactic.IntervalCases
/- The eigenpairs that `solveRank1Problem` computes. -/
namespace DLAF
open Finset
variable {g : R1Cfg} {nt : Nat}

/-- The eigenpairs, with indices as natural numbers. -/
structure EigPairs (k : Nat) (d z : Nat → ℝ) (rho : ℝ) (lam : Nat → ℝ) (V : Nat → Nat → ℝ) : Prop where
  orth : ∀ a < k, ∀ b < k, ∑ i ∈ range k, V i a * V i b = if a = b then 1 else 0
  eig : ∀ a < k, ∀ i < k, d i * V i a + rho * z i * ∑ l ∈ range k, z l * V l a = lam a * V i a

theorem foldl_mul (L : List Nat) (f : Nat → ℝ) (x : ℝ) : L.foldl (fun x t => x * f t) x = x * (L.map f).prod := by
  induction L generalizing x with
  | nil => simp
  | cons a L ih => rw [List.foldl_cons, ih, List.map_cons, List.prod_cons, mul_assoc]

theorem range_upto_one (hw : 0 < nt) : List.range nt = 0 :: upto 1 nt := by
  unfold upto
  obtain ⟨m, rfl⟩ := Nat.exists_eq_succ_of_ne_zero hw.ne'
  simp [List.range_eq_range', List.range'_succ]

theorem prod_flatMap (L : List Nat) (f : Nat → List Nat) (h : Nat → ℝ) :
    ((L.flatMap f).map h).prod = (L.map fun t => ((f t).map h).prod).prod := by
  induction L with
  | nil => rfl
  | cons a L ih => rw [List.flatMap_cons, List.map_append, List.prod_append, ih, List.map_cons, List.prod_cons]

theorem prod_map_range (k : Nat) (f : Nat → ℝ) : ((List.range k).map f).prod = ∏ j ∈ range k, f j := by
  induction k with
  | zero => simp
  | succ k ih => rw [List.range_succ, List.map_append, List.prod_append, ih, Finset.prod_range_succ]; simp

theorem weight_all {k : Nat} (hw : 0 < nt) (x : ℝ) (h : Nat → ℝ) (ws : Nat → ℝ)
    (hws : ∀ t < nt, ws t = (if t = 0 then x else 1) * ((workerRange k nt t).map h).prod) :
    (upto 1 nt).foldl (fun x t => x * ws t) (ws 0) = x * ∏ j ∈ range k, h j := by
  rw [foldl_mul, ← prod_map_range, ← workerRange_all (nt := k) hw, prod_flatMap, range_upto_one hw, List.map_cons, List.prod_cons,
    ← mul_assoc, hws 0 hw, if_pos rfl]
  congr 2
  refine List.map_congr_left fun t ht => ?_
  rw [mem_upto] at ht
  rw [hws t ht.2, if_neg (by omega), one_mul]

theorem copysign_weight {rho z : ℝ} (hr : 0 < rho) (_hz : z ≠ 0) : copysign (Real.sqrt (-(-(rho * z ^ 2)))) z = Real.sqrt rho * z := by
  have h1 : Real.sqrt (-(-(rho * z ^ 2))) = Real.sqrt rho * |z| := by
    rw [neg_neg, Real.sqrt_mul hr.le, Real.sqrt_sq_eq_abs]
  unfold copysign
  rw [h1, abs_mul, abs_abs, abs_of_nonneg (Real.sqrt_nonneg rho)]
  split
  · next h => rw [abs_of_neg h]; ring
  · next h => rw [abs_of_nonneg (not_lt.1 h)]

theorem sum_scale {k : Nat} {c : ℝ} (hc : c ≠ 0) (hcp : 0 < c) (f : Nat → ℝ) {S : ℝ} (hS : S = ∑ i ∈ range k, f i ^ 2) :
    Real.sqrt (∑ i ∈ range k, (c * f i) ^ 2) = c * Real.sqrt S := by
  have : ∑ i ∈ range k, (c * f i) ^ 2 = c ^ 2 * S := by
    rw [hS, Finset.mul_sum]
    exact Finset.sum_congr rfl fun i _ => by ring
  rw [this, Real.sqrt_mul (sq_nonneg c), Real.sqrt_sq hcp.le]

/-- The normalized eigenvectors from the roots of the secular function. -/
theorem Roots.pairs {k : Nat} {d z : Nat → ℝ} {rho : ℝ} {lam : Nat → ℝ} (h : SecularInput k d z rho) (hl : Roots k d z rho lam) :
    EigPairs k d z rho lam (fun i j => z i / (d i - lam j) / Real.sqrt (∑ l ∈ range k, (z l / (d l - lam j)) ^ 2)) := by
  constructor
  · intro a ha b hb
    by_cases hab : a = b
    · subst hab
      rw [if_pos rfl]
      have hp := hl.norm_pos h ha
      have hs : Real.sqrt (∑ l ∈ range k, (z l / (d l - lam a)) ^ 2) ≠ 0 := (Real.sqrt_pos.2 hp).ne'
      have hsq := Real.sq_sqrt hp.le
      have : ∀ i ∈ range k, z i / (d i - lam a) / Real.sqrt (∑ l ∈ range k, (z l / (d l - lam a)) ^ 2) *
          (z i / (d i - lam a) / Real.sqrt (∑ l ∈ range k, (z l / (d l - lam a)) ^ 2)) =
          (z i / (d i - lam a)) ^ 2 / (∑ l ∈ range k, (z l / (d l - lam a)) ^ 2) := by
        intro i _
        rw [div_mul_div_comm, ← sq, ← sq, hsq]
      rw [Finset.sum_congr rfl this, ← Finset.sum_div, div_self hp.ne']
    · rw [if_neg hab]
      have : ∀ i ∈ range k, z i / (d i - lam a) / Real.sqrt (∑ l ∈ range k, (z l / (d l - lam a)) ^ 2) *
          (z i / (d i - lam b) / Real.sqrt (∑ l ∈ range k, (z l / (d l - lam b)) ^ 2)) =
          (z i / (d i - lam a) * (z i / (d i - lam b))) /
            (Real.sqrt (∑ l ∈ range k, (z l / (d l - lam a)) ^ 2) * Real.sqrt (∑ l ∈ range k, (z l / (d l - lam b)) ^ 2)) := by
        intro i _
        rw [div_mul_div_comm]
      rw [Finset.sum_congr rfl this, ← Finset.sum_div, hl.orth h ha hb hab, zero_div]
  · intro a ha i hi
    have h1 := hl.eig h ha hi
    have hs : ∑ l ∈ range k, z l * (z l / (d l - lam a) / Real.sqrt (∑ l ∈ range k, (z l / (d l - lam a)) ^ 2)) =
        (∑ l ∈ range k, z l * (z l / (d l - lam a))) / Real.sqrt (∑ l ∈ range k, (z l / (d l - lam a)) ^ 2) := by
      rw [Finset.sum_div]
      exact Finset.sum_congr rfl fun l _ => by rw [mul_div_assoc]
    rw [hs]
    generalize Real.sqrt (∑ l ∈ range k, (z l / (d l - lam a)) ^ 2) = S
    generalize ∑ l ∈ range k, z l * (z l / (d l - lam a)) = W at h1 ⊢
    generalize z i / (d i - lam a) = X at h1 ⊢
    rw [← mul_div_assoc, ← mul_div_assoc, ← add_div, h1, mul_div_assoc]

/-- The state after the first phase. -/
theorem run_first (hw : 0 < nt) (hk : g.k ≠ 2) (s : R1St) :
    Bulk.runAll (r1ActsLaed g nt) nt (r1Init g s) =
      { s with
        ws := g.junk
        evals := fun j => if j < g.k then (g.laed4 g.k j g.d s.z g.rho).1 else s.evals j
        q := fun x y => if y < g.k ∧ x < g.k then (g.laed4 g.k y g.d s.z g.rho).2 x else s.q x y } := by
  have h1 : r1ActsLaed g nt = fun t => (workerRange g.k nt t).map (r1Laed g) := by
    funext t
    unfold r1ActsLaed
    rw [if_neg hk, List.append_nil]
  rw [h1, runAll_pairs (fun _ => r1Laed g)]
  have h2 : (r1Pairs g.k nt).map (fun p => r1Laed g p.2) = ((r1Pairs g.k nt).map Prod.snd).map (r1Laed g) := by rw [List.map_map]; rfl
  rw [h2, r1Pairs_snd hw, run_laed]
  simp only [List.mem_range, r1Init]

/-- Result for `k ≥ 3`. -/
theorem run_three (h4 : Laed4Spec g.laed4) (hw : 0 < nt) (hk : 3 ≤ g.k) (s : R1St) (hin : SecularInput g.k g.d s.z g.rho)
    (hp : ∀ i < g.k, g.perm.getD i 0 < g.k) :
    ∃ lam V, Roots g.k g.d s.z g.rho lam ∧ EigPairs g.k g.d s.z g.rho lam V ∧
      (r1Run g nt s).evals = (fun j => if j < g.k then lam j else s.evals j) ∧
      (r1Run g nt s).q = fun x y => if y < g.k ∧ x < g.k then V (g.perm.getD x 0) y else s.q x y := by
  have hk2 : ¬ g.k ≤ 2 := by omega
  unfold r1Run
  simp only [if_neg hk2]
  rw [run_first hw (by omega)]
  set lam : Nat → ℝ := fun j => (g.laed4 g.k j g.d s.z g.rho).1 with hlam
  have hroots : Roots g.k g.d s.z g.rho lam := by
    refine ⟨fun i hi => ?_, fun i hi => ?_, fun i hi => ?_⟩
    · exact (h4.root _ _ _ _ _ (by omega) hi hin).1
    · exact (h4.root _ _ _ _ _ (by omega) (by omega) hin).2.1 hi
    · exact (h4.root _ _ _ _ _ (by omega) hi hin).2.2
  set s1 : R1St := { s with
        ws := g.junk
        evals := fun j => if j < g.k then (g.laed4 g.k j g.d s.z g.rho).1 else s.evals j
        q := fun x y => if y < g.k ∧ x < g.k then (g.laed4 g.k y g.d s.z g.rho).2 x else s.q x y } with hs1
  have hq1 : ∀ x < g.k, ∀ y < g.k, s1.q x y = g.d x - lam y := by
    intro x hx y hy
    show (if y < g.k ∧ x < g.k then (g.laed4 g.k y g.d s.z g.rho).2 x else s.q x y) = _
    rw [if_pos ⟨hy, hx⟩, h4.delta _ _ _ _ _ hk hy hin x hx]
  obtain ⟨s2, e2, e2e, e2z, e2q, e2w⟩ := run_W (g := g) nt nt s1
  rw [e2]
  obtain ⟨s3, e3, e3e, e3q, e3z⟩ := run_fin (nt := nt) (upto 0 g.k) (upto_nodup _ _) s2
  have hfin : Bulk.runAll (r1ActsFin g nt) nt s2 = s3 := by
    rw [Bulk.runAll_zero hw (fun v hv => by unfold r1ActsFin; exact if_neg hv)]
    unfold r1ActsFin
    rw [if_pos rfl, e3]
  rw [hfin]
  have hz3 : ∀ i < g.k, s3.z i = Real.sqrt g.rho * s.z i := by
    intro i hi
    rw [e3z i, if_pos (mem_upto.2 ⟨Nat.zero_le _, hi⟩),
      weight_all (k := g.k) hw (s1.q i i) (wFac g s1.q i) (fun t => s2.ws t i) (fun t ht => e2w t ht i hi), e2z]
    have h5 : s1.q i i * ∏ j ∈ range g.k, wFac g s1.q i j = -(g.rho * s.z i ^ 2) := by
      rw [← hroots.weight hin hi, hq1 i hi i hi, ← Finset.mul_prod_erase _ _ (mem_range.2 hi)]
      congr 1
      have h6 : wFac g s1.q i i = 1 := if_pos rfl
      rw [h6, one_mul]
      refine Finset.prod_congr rfl fun j hj => ?_
      simp only [Finset.mem_erase, mem_range] at hj
      unfold wFac
      rw [if_neg (fun h => hj.1 h.symm), hq1 i hi j hj.2]
    rw [h5]
    exact copysign_weight hin.1 (hin.2.2 i hi)
  have hQ : r1ActsQ g nt = fun t => (workerRange g.k nt t).map (r1ColQ g t) := rfl
  rw [hQ, runAll_pairs (r1ColQ g)]
  obtain ⟨f1, f2, f3⟩ := run_Q (g := g) (r1Pairs g.k nt) (by rw [r1Pairs_snd hw]; exact List.nodup_range) s3
  rw [r1Pairs_snd hw] at f3
  have hrho : 0 < Real.sqrt g.rho := Real.sqrt_pos.2 hin.1
  refine ⟨lam, _, hroots, hroots.pairs hin, ?_, ?_⟩
  · rw [f1]
    exact e3e.trans e2e
  · rw [f3]
    funext x y
    dsimp only
    simp only [List.mem_range]
    by_cases hxy : y < g.k ∧ x < g.k
    · rw [if_pos hxy, if_pos hxy]
      have hpx := hp x hxy.2
      generalize g.perm.getD x 0 = x' at hpx
      have hq3 : ∀ i < g.k, s3.q i y = g.d i - lam y := by
        intro i hi
        rw [e3q, e2q, hq1 i hi y hxy.1]
      have hsum : ∑ i ∈ range g.k, (s3.z i / s3.q i y) ^ 2 = ∑ i ∈ range g.k, (Real.sqrt g.rho * (s.z i / (g.d i - lam y))) ^ 2 := by
        refine Finset.sum_congr rfl fun i hi => ?_
        have hi := mem_range.1 hi
        rw [hz3 i hi, hq3 i hi, mul_div_assoc]
      rw [hsum, sum_scale hrho.ne' hrho _ rfl, hz3 x' hpx, hq3 x' hpx, mul_div_assoc, mul_div_mul_left _ _ hrho.ne']
    · rw [if_neg hxy, if_neg hxy, e3q, e2q]
      exact if_neg hxy

/-- Result for `k = 2`. -/
theorem run_two (h4 : Laed4Spec g.laed4) (hw : 0 < nt) (hk : g.k = 2) (s : R1St) (hin : SecularInput g.k g.d s.z g.rho)
    (hkn : g.k ≤ g.n) (hp : ∀ i < g.k, g.perm.getD i 0 < g.k) (hp' : ∀ i < g.n, g.k ≤ i → g.k ≤ g.perm.getD i 0) :
    ∃ lam V, Roots g.k g.d s.z g.rho lam ∧ EigPairs g.k g.d s.z g.rho lam V ∧
      (r1Run g nt s).evals = (fun j => if j < g.k then lam j else s.evals j) ∧
      (r1Run g nt s).q = fun x y => if y < g.k ∧ x < g.k then V (g.perm.getD x 0) y else s.q x y := by
  set lam : Nat → ℝ := fun j => (g.laed4 g.k j g.d s.z g.rho).1 with hlam
  have hroots : Roots g.k g.d s.z g.rho lam := by
    refine ⟨fun i hi => ?_, fun i hi => ?_, fun i hi => ?_⟩
    · exact (h4.root _ _ _ _ _ (by omega) hi hin).1
    · exact (h4.root _ _ _ _ _ (by omega) (by omega) hin).2.1 hi
    · exact (h4.root _ _ _ _ _ (by omega) hi hin).2.2
  have hne : lam 0 ≠ lam 1 := (hroots.mono hin (i := 0) (j := 1) (by omega) (by omega)).ne
  set V : Nat → Nat → ℝ := fun x y => (g.laed4 g.k y g.d s.z g.rho).2 x with hV
  have two : ∀ y < 2, V 0 y ^ 2 + V 1 y ^ 2 = 1 ∧
      ∀ j < 2, g.d j * V j y + g.rho * s.z j * (s.z 0 * V 0 y + s.z 1 * V 1 y) = lam y * V j y := by
    intro y hy
    have h5 := h4.two y g.d s.z g.rho hy (by rw [← hk]; exact hin)
    simp only [hV, hlam, hk]
    exact h5
  have hpairs : EigPairs g.k g.d s.z g.rho lam V := by
    rw [hk]
    constructor
    · have h01 : V 0 0 * V 0 1 + V 1 0 * V 1 1 = 0 := by
        have e00 := (two 0 (by omega)).2 0 (by omega)
        have e01 := (two 0 (by omega)).2 1 (by omega)
        have e10 := (two 1 (by omega)).2 0 (by omega)
        have e11 := (two 1 (by omega)).2 1 (by omega)
        have : (lam 0 - lam 1) * (V 0 0 * V 0 1 + V 1 0 * V 1 1) = 0 := by
          linear_combination -(V 0 1) * e00 - (V 1 1) * e01 + (V 0 0) * e10 + (V 1 0) * e11
        exact (mul_eq_zero.1 this).resolve_left (sub_ne_zero.2 hne)
      intro a ha b hb
      rw [Finset.sum_range_succ, Finset.sum_range_one]
      have e0 := (two 0 (by omega)).1
      have e1 := (two 1 (by omega)).1
      interval_cases a <;> interval_cases b
      · rw [if_pos rfl]; linear_combination e0
      · rw [if_neg (by omega)]; exact h01
      · rw [if_neg (by omega)]; linear_combination h01
      · rw [if_pos rfl]; linear_combination e1
    · intro a ha i hi
      rw [Finset.sum_range_succ, Finset.sum_range_one]
      exact (two a ha).2 i hi
  refine ⟨lam, V, hroots, hpairs, ?_⟩
  unfold r1Run
  simp only [if_pos hk.le]
  have happ : r1ActsLaed g nt = fun t => (workerRange g.k nt t).map (r1Laed g) ++ (workerRange g.k nt t).map (r1Perm2 g t) := by
    funext t
    unfold r1ActsLaed
    rw [if_pos hk]
  -- all roots first, then all permutations
  have hcomm : ∀ m ≤ nt, ∀ s0, Bulk.runAll (r1ActsLaed g nt) m s0 =
      Bulk.runAll (fun t => (workerRange g.k nt t).map (r1Perm2 g t)) m (Bulk.runAll (fun t => (workerRange g.k nt t).map (r1Laed g)) m s0) := by
    intro m
    induction m with
    | zero => intro _ s0; rfl
    | succ m ih =>
      intro hm s0
      rw [Bulk.runAll, ih (by omega), happ]
      dsimp only
      rw [Bulk.runList_append, Bulk.runAll, Bulk.runAll]
      congr 1
      have hl := workerRange_all (nt := g.k) hw
      -- the roots of worker `m` commute with the permutations of the workers before
      have : ∀ x, Bulk.runList ((workerRange g.k nt m).map (r1Laed g)) (Bulk.runAll (fun t => (workerRange g.k nt t).map (r1Perm2 g t)) m x) =
          Bulk.runAll (fun t => (workerRange g.k nt t).map (r1Perm2 g t)) m (Bulk.runList ((workerRange g.k nt m).map (r1Laed g)) x) := by
        intro x
        have key : ∀ (A : List Nat), (∀ i ∈ A, i ∈ workerRange g.k nt m) → ∀ x,
            Bulk.runList (A.map (r1Laed g)) (Bulk.runAll (fun t => (workerRange g.k nt t).map (r1Perm2 g t)) m x) =
            Bulk.runAll (fun t => (workerRange g.k nt t).map (r1Perm2 g t)) m (Bulk.runList (A.map (r1Laed g)) x) := by
          intro A
          induction A with
          | nil => intro _ x; rfl
          | cons i A ihA =>
            intro hA x
            rw [List.map_cons, Bulk.runList_cons, Bulk.runList_cons, ← ihA (fun j hj => hA j (List.mem_cons_of_mem _ hj))]
            congr 1
            symm
            refine Bulk.runAll_comm (r1Laed g i) (fun w hwm b hb s => ?_) x
            obtain ⟨j, hj, rfl⟩ := List.mem_map.1 hb
            have hi := hA i List.mem_cons_self
            have hij : ¬ i = j := by
              rintro rfl
              exact workerRange_disj (by omega : w ≠ m) hj hi
            have h3 : ¬ j = i := fun h => hij h.symm
            simp only [r1Laed, r1Perm2, R1St.mk.injEq, true_and]
            refine ⟨funext fun x => funext fun y => ?_, funext fun u => ?_⟩
            · by_cases h1 : y = j
              · simp only [h1, h3, false_and, if_false, if_true]
              · simp only [if_neg h1]
            · simp only [h3, false_and, if_false]
        exact key _ (fun _ h => h) x
      exact this _
  rw [hcomm nt (Nat.le_refl _)]
  have hfirst : Bulk.runAll (fun t => (workerRange g.k nt t).map (r1Laed g)) nt (r1Init g s) =
      { s with
        ws := g.junk
        evals := fun j => if j < g.k then lam j else s.evals j
        q := fun x y => if y < g.k ∧ x < g.k then V x y else s.q x y } := by
    rw [runAll_pairs (fun _ => r1Laed g)]
    have h2 : (r1Pairs g.k nt).map (fun p => r1Laed g p.2) = ((r1Pairs g.k nt).map Prod.snd).map (r1Laed g) := by rw [List.map_map]; rfl
    rw [h2, r1Pairs_snd hw, run_laed]
    simp only [List.mem_range, r1Init, hlam, hV]
  rw [hfirst, runAll_pairs (r1Perm2 g)]
  obtain ⟨f1, -, f3⟩ := run_perm2 (g := g) (r1Pairs g.k nt) (by rw [r1Pairs_snd hw]; exact List.nodup_range)
    { s with
        ws := g.junk
        evals := fun j => if j < g.k then lam j else s.evals j
        q := fun x y => if y < g.k ∧ x < g.k then V x y else s.q x y }
  rw [r1Pairs_snd hw] at f3
  refine ⟨f1, f3.trans ?_⟩
  funext x y
  simp only [List.mem_range, perm2Col]
  by_cases hy : y < g.k
  · rw [if_pos hy]
    by_cases hx : x < g.k
    · have := hp x hx
      rw [if_pos ⟨by omega, this⟩, if_pos ⟨hy, this⟩, if_pos ⟨hy, hx⟩]
    · rw [if_neg (by
        rintro ⟨h1, h2⟩
        have := hp' x h1 (by omega)
        omega), if_neg hx, if_neg (fun h => hx h.2), if_neg (fun h => hx h.2)]
  · rw [if_neg hy, if_neg (fun h => hy h.1), if_neg (fun h => hy h.1)]

/-- Result for `k ≤ 1`. -/
theorem run_one (h4 : Laed4Spec g.laed4) (hw : 0 < nt) (hk : g.k ≤ 1) (s : R1St) (hp : ∀ i < g.k, g.perm.getD i 0 < g.k) :
    ∃ lam V, EigPairs g.k g.d s.z g.rho lam V ∧
      (r1Run g nt s).evals = (fun j => if j < g.k then lam j else s.evals j) ∧
      (r1Run g nt s).q = fun x y => if y < g.k ∧ x < g.k then V (g.perm.getD x 0) y else s.q x y := by
  refine ⟨fun j => (g.laed4 g.k j g.d s.z g.rho).1, fun x y => (g.laed4 g.k y g.d s.z g.rho).2 x, ?_, ?_⟩
  · rcases Nat.lt_or_ge g.k 1 with h | h
    · exact ⟨fun a ha => by omega, fun a ha => by omega⟩
    · have hk1 : g.k = 1 := by omega
      obtain ⟨e1, e2⟩ := h4.one g.d s.z g.rho
      rw [hk1]
      refine ⟨fun a ha b hb => ?_, fun a ha i hi => ?_⟩
      · obtain rfl : a = 0 := by omega
        obtain rfl : b = 0 := by omega
        rw [Finset.sum_range_one, e2, if_pos rfl, mul_one]
      · obtain rfl : a = 0 := by omega
        obtain rfl : i = 0 := by omega
        rw [Finset.sum_range_one, e1, e2]
        ring
  · unfold r1Run
    simp only [if_pos (show g.k ≤ 2 by omega)]
    rw [run_first hw (by omega)]
    refine ⟨rfl, funext fun x => funext fun y => ?_⟩
    dsimp only
    by_cases hxy : y < g.k ∧ x < g.k
    · have := hp x hxy.2
      rw [if_pos hxy, if_pos hxy, show g.perm.getD x 0 = x by omega]
    · rw [if_neg hxy, if_neg hxy]

end DLAF
