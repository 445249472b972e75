import Verif.Model.Rank1
import Verif.Lemmas.Secular
import Verif.Lemmas.RedBandPanel
import Mathlib.Algebra.BigOperators.Group.List.Basic
/- What the workers of `solveRank1Problem` compute. -/
namespace DLAF
open Finset
variable {g : R1Cfg} {nt : Nat}

/-! ### First phase: roots -/

theorem run_laed (L : List Nat) (s : R1St) :
    Bulk.runList (L.map (r1Laed g)) s =
      { s with
        evals := fun j => if j ∈ L then (g.laed4 g.k j g.d s.z g.rho).1 else s.evals j
        q := fun x y => if y ∈ L ∧ x < g.k then (g.laed4 g.k y g.d s.z g.rho).2 x else s.q x y } := by
  induction L generalizing s with
  | nil => simp [Bulk.runList]
  | cons i L ih =>
    rw [List.map_cons, Bulk.runList_cons, ih]
    simp only [r1Laed, R1St.mk.injEq, true_and, and_true]
    refine ⟨funext fun j => ?_, funext fun x => funext fun y => ?_⟩
    · by_cases h1 : j ∈ L
      · rw [if_pos h1, if_pos (List.mem_cons_of_mem _ h1)]
      · by_cases h2 : j = i
        · subst h2; rw [if_neg h1, if_pos rfl, if_pos List.mem_cons_self]
        · rw [if_neg h1, if_neg h2, if_neg (by simp [h1, h2])]
    · by_cases h1 : y ∈ L ∧ x < g.k
      · rw [if_pos h1, if_pos ⟨List.mem_cons_of_mem _ h1.1, h1.2⟩]
      · rw [if_neg h1]
        by_cases h2 : y = i ∧ x < g.k
        · rw [if_pos h2, if_pos ⟨by rw [h2.1]; exact List.mem_cons_self, h2.2⟩, h2.1]
        · rw [if_neg h2, if_neg (by
            rintro ⟨h3, h4⟩
            rcases List.mem_cons.1 h3 with h3 | h3
            · exact h2 ⟨h3, h4⟩
            · exact h1 ⟨h3, h4⟩)]

/-- Where the actions of a phase lead that only change work spaces besides. -/
def EqButWs (s s' : R1St) : Prop := s.evals = s'.evals ∧ s.z = s'.z ∧ s.q = s'.q

/-- Column `j` with rows permuted, for `k = 2`. -/
def perm2Col (g : R1Cfg) (q : Elems ℝ) (x j : Nat) : ℝ :=
  if x < g.n ∧ g.perm.getD x 0 < g.k then q (g.perm.getD x 0) j else if x < g.k then 0 else q x j

theorem run_perm2 (L : List (Nat × Nat)) (hL : (L.map Prod.snd).Nodup) (s : R1St) :
    EqButWs (Bulk.runList (L.map fun p => r1Perm2 g p.1 p.2) s)
      { s with q := fun x y => if y ∈ L.map Prod.snd then perm2Col g s.q x y else s.q x y } := by
  induction L generalizing s with
  | nil => simp [Bulk.runList, EqButWs]
  | cons p L ih =>
    rw [List.map_cons, List.nodup_cons] at hL
    rw [List.map_cons, Bulk.runList_cons]
    obtain ⟨h1, h2, h3⟩ := ih hL.2 (r1Perm2 g p.1 p.2 s)
    refine ⟨h1, h2, h3.trans ?_⟩
    dsimp only
    funext x y
    rw [List.map_cons]
    by_cases h4 : y = p.2
    · rw [if_neg (by rw [h4]; exact hL.1), if_pos (by rw [h4]; exact List.mem_cons_self)]
      subst h4
      simp only [r1Perm2, perm2Col, if_true]
    · by_cases h5 : y ∈ L.map Prod.snd
      · rw [if_pos h5, if_pos (List.mem_cons_of_mem _ h5)]
        simp only [r1Perm2, perm2Col, if_neg h4]
      · rw [if_neg h5, if_neg (by simp [h4, h5])]
        simp only [r1Perm2, if_neg h4]

/-! ### Weights -/

theorem run_compW (t j : Nat) (I : List Nat) (hI : I.Nodup) (s : R1St) :
    Bulk.runList (I.map fun i => r1CompW g t i j) s =
      { s with ws := fun u => if u = t then fun i => if i ∈ I then s.ws t i * (s.q i j / (g.d i - g.d j)) else s.ws t i else s.ws u } := by
  induction I generalizing s with
  | nil =>
    simp only [List.map_nil, Bulk.runList_nil, List.not_mem_nil, if_false]
    have : (fun u => if u = t then fun i => s.ws t i else s.ws u) = s.ws := by
      funext u; split
      · next h => rw [h]
      · rfl
    rw [this]
  | cons i I ih =>
    rw [List.nodup_cons] at hI
    rw [List.map_cons, Bulk.runList_cons, ih hI.2]
    simp only [r1CompW, R1St.mk.injEq, true_and]
    funext u
    by_cases hu : u = t
    · simp only [if_pos hu, if_true]
      funext l
      by_cases h1 : l = i
      · subst h1
        simp only [if_neg hI.1, List.mem_cons, true_or, if_true]
      · simp only [h1, List.mem_cons, false_or, if_false]
    · simp only [if_neg hu]

/-- The factor of column `j` in weight `i`. -/
noncomputable def wFac (g : R1Cfg) (q : Elems ℝ) (i j : Nat) : ℝ := if i = j then 1 else q i j / (g.d i - g.d j)

theorem run_wcols (t : Nat) (J : List Nat) (hJ : ∀ j ∈ J, j < g.k) (s : R1St) :
    ∃ s', Bulk.runList (J.flatMap fun j => (upto 0 j ++ upto (j + 1) g.k).map fun i => r1CompW g t i j) s = s' ∧
      s'.evals = s.evals ∧ s'.z = s.z ∧ s'.q = s.q ∧ (∀ u, u ≠ t → s'.ws u = s.ws u) ∧
      ∀ i < g.k, s'.ws t i = s.ws t i * (J.map (wFac g s.q i)).prod := by
  induction J generalizing s with
  | nil => exact ⟨s, rfl, rfl, rfl, rfl, fun _ _ => rfl, fun i _ => by simp⟩
  | cons j J ih =>
    have hj := hJ j List.mem_cons_self
    have hnd : (upto 0 j ++ upto (j + 1) g.k).Nodup := by
      refine List.nodup_append.2 ⟨upto_nodup _ _, upto_nodup _ _, ?_⟩
      intro a ha b hb hab
      rw [mem_upto] at ha hb
      omega
    rw [List.flatMap_cons, Bulk.runList_append, run_compW t j _ hnd]
    obtain ⟨s', h1, h2, h3, h4, h5, h6⟩ := ih (fun j' hj' => hJ j' (List.mem_cons_of_mem _ hj'))
      { s with ws := fun u => if u = t then fun i => if i ∈ upto 0 j ++ upto (j + 1) g.k then s.ws t i * (s.q i j / (g.d i - g.d j)) else s.ws t i else s.ws u }
    refine ⟨s', h1, h2, h3, h4, fun u hu => ?_, fun i hi => ?_⟩
    · rw [h5 u hu]; exact if_neg hu
    · rw [h6 i hi, List.map_cons, List.prod_cons, ← mul_assoc]
      congr 1
      dsimp only
      rw [if_pos rfl]
      unfold wFac
      by_cases hij : i = j
      · rw [if_neg (by
          rw [List.mem_append, mem_upto, mem_upto]; omega), if_pos hij, mul_one]
      · rw [if_pos (by
          rw [List.mem_append, mem_upto, mem_upto]; omega), if_neg hij]

theorem run_W (nt : Nat) (m : Nat) (s : R1St) :
    ∃ s', Bulk.runAll (r1ActsW g nt) m s = s' ∧ s'.evals = s.evals ∧ s'.z = s.z ∧ s'.q = s.q ∧
      ∀ t < m, ∀ i < g.k, s'.ws t i = (if t = 0 then s.q i i else 1) * ((workerRange g.k nt t).map (wFac g s.q i)).prod := by
  induction m with
  | zero => exact ⟨s, rfl, rfl, rfl, rfl, fun t ht => absurd ht (Nat.not_lt_zero _)⟩
  | succ m ih =>
    obtain ⟨s1, h1, h2, h3, h4, h5⟩ := ih
    obtain ⟨s2, g1, g2, g3, g4, g5, g6⟩ := run_wcols (g := g) m (workerRange g.k nt m) (fun j hj => (mem_workerRange.1 hj).2.2) (r1InitW g m s1)
    refine ⟨s2, ?_, g2.trans h2, g3.trans h3, g4.trans h4, fun t ht i hi => ?_⟩
    · rw [Bulk.runAll, h1, r1ActsW, Bulk.runList_cons, g1]
    · have hq : (r1InitW g m s1).q = s.q := h4
      by_cases htm : t = m
      · subst htm
        rw [g6 i hi, hq]
        congr 1
        simp only [r1InitW, if_true, if_pos hi, h4]
      · rw [g5 t htm, ← h5 t (by omega) i hi]
        simp only [r1InitW, if_neg htm]

theorem run_fin (L : List Nat) (hL : L.Nodup) (s : R1St) :
    ∃ s', Bulk.runList (L.map (r1FinW nt)) s = s' ∧ s'.evals = s.evals ∧ s'.q = s.q ∧
      ∀ i, s'.z i = if i ∈ L then copysign (Real.sqrt (-((upto 1 nt).foldl (fun x t => x * s.ws t i) (s.ws 0 i)))) (s.z i) else s.z i := by
  induction L generalizing s with
  | nil => exact ⟨s, rfl, rfl, rfl, fun i => by simp⟩
  | cons j L ih =>
    rw [List.nodup_cons] at hL
    obtain ⟨s', h1, h2, h3, h4⟩ := ih hL.2 (r1FinW nt j s)
    refine ⟨s', by rw [List.map_cons, Bulk.runList_cons, h1], h2, h3, fun i => ?_⟩
    rw [h4 i]
    by_cases hij : i = j
    · subst hij
      rw [if_neg hL.1, if_pos List.mem_cons_self]
      simp only [r1FinW, if_true]
    · have hws : ∀ u, (r1FinW nt j s).ws u i = s.ws u i := by
        intro u
        simp only [r1FinW]
        by_cases hu : u = 0
        · subst hu; simp only [if_true, if_neg hij]
        · simp only [if_neg hu]
      have hz : (r1FinW nt j s).z i = s.z i := by simp only [r1FinW, if_neg hij]
      simp only [hws, hz, List.mem_cons, hij, false_or]

theorem run_Q (L : List (Nat × Nat)) (hL : (L.map Prod.snd).Nodup) (s : R1St) :
    EqButWs (Bulk.runList (L.map fun p => r1ColQ g p.1 p.2) s)
      { s with q := fun x y => if y ∈ L.map Prod.snd ∧ x < g.k then (s.z (g.perm.getD x 0) / s.q (g.perm.getD x 0) y / Real.sqrt (∑ i ∈ range g.k, (s.z i / s.q i y) ^ 2)) else s.q x y } := by
  induction L generalizing s with
  | nil => simp [Bulk.runList, EqButWs]
  | cons p L ih =>
    rw [List.map_cons, List.nodup_cons] at hL
    rw [List.map_cons, Bulk.runList_cons]
    obtain ⟨h1, h2, h3⟩ := ih hL.2 (r1ColQ g p.1 p.2 s)
    refine ⟨h1, h2, h3.trans ?_⟩
    dsimp only
    funext x y
    rw [List.map_cons]
    by_cases h4 : y = p.2
    · rw [if_neg (fun h => hL.1 (h4 ▸ h.1))]
      subst h4
      simp only [r1ColQ, List.mem_cons, true_or, true_and]
    · have hq : ∀ x, (r1ColQ g p.1 p.2 s).q x y = s.q x y := by
        intro x
        simp only [r1ColQ, h4, false_and, if_false]
      have hz : (r1ColQ g p.1 p.2 s).z = s.z := rfl
      simp only [hq, hz, List.mem_cons, h4, false_or]

/-- The pairs worker, column. -/
def r1Pairs (k nt : Nat) : List (Nat × Nat) := (List.range nt).flatMap fun t => (workerRange k nt t).map fun j => (t, j)

theorem r1Pairs_snd {k : Nat} (hw : 0 < nt) : (r1Pairs k nt).map Prod.snd = List.range k := by
  rw [← workerRange_all (nt := k) hw]
  unfold r1Pairs
  rw [List.map_flatMap]
  congr 1
  funext t
  rw [List.map_map]
  exact (List.map_congr_left fun j _ => rfl).trans (List.map_id _)

theorem runAll_pairs {k : Nat} (f : Nat → Nat → R1St → R1St) (s : R1St) :
    Bulk.runAll (fun t => (workerRange k nt t).map (f t)) nt s = Bulk.runList ((r1Pairs k nt).map fun p => f p.1 p.2) s := by
  rw [Bulk.runAll_flat]
  unfold r1Pairs
  rw [List.map_flatMap]
  congr 2
  funext t
  rw [List.map_map]
  rfl

/-! ### All phases -/

/-- Every schedule of the bulk has the result of the sequential execution. -/
theorem r1_seq (hw : 0 < nt) (s : R1St) : ∃ m, Bulk.Seq (r1Code g nt) nt .start s (r1Run g nt s) m := by
  have hz0 : ∀ (a : List (R1St → R1St)) (x : R1St), Bulk.runAll (fun t => if t = 0 then a else []) nt x = Bulk.runList a x :=
    fun a x => (Bulk.runAll_zero hw (fun v hv => if_neg hv) x).trans (by rw [if_pos rfl])
  have aL : Bulk.Apart nt (r1ActsLaed g nt) := by
    intro v _ w _ hvw a ha b hb s
    have hcol : ∀ {i j}, i ∈ workerRange g.k nt v → j ∈ workerRange g.k nt w → i ≠ j := by
      rintro i j h1 h2 rfl
      exact workerRange_disj hvw h1 h2
    have hcase : ∀ {t a}, a ∈ r1ActsLaed g nt t → (∃ i ∈ workerRange g.k nt t, a = r1Laed g i) ∨ ∃ i ∈ workerRange g.k nt t, a = r1Perm2 g t i := by
      intro t a ha
      unfold r1ActsLaed at ha
      rcases List.mem_append.1 ha with ha | ha
      · obtain ⟨i, h1, h2⟩ := List.mem_map.1 ha
        exact Or.inl ⟨i, h1, h2.symm⟩
      · by_cases hk : g.k = 2
        · rw [if_pos hk] at ha
          obtain ⟨i, h1, h2⟩ := List.mem_map.1 ha
          exact Or.inr ⟨i, h1, h2.symm⟩
        · rw [if_neg hk] at ha; simp at ha
    rcases hcase ha with ⟨i, hi, rfl⟩ | ⟨i, hi, rfl⟩ <;> rcases hcase hb with ⟨j, hj, rfl⟩ | ⟨j, hj, rfl⟩ <;>
      have hij := hcol hi hj
    · simp only [r1Laed, R1St.mk.injEq, true_and, and_true]
      refine ⟨funext fun l => ?_, funext fun x => funext fun y => ?_⟩
      · by_cases h1 : l = i
        · rw [if_pos h1, if_neg (by omega), if_pos h1]
        · simp only [if_neg h1]
      · by_cases h1 : y = i
        · have : ¬ y = j := by omega
          simp only [this, false_and, if_false]
        · simp only [h1, false_and, if_false]
    · simp only [r1Laed, r1Perm2, R1St.mk.injEq, true_and]
      refine ⟨funext fun x => funext fun y => ?_, funext fun u => ?_⟩
      · by_cases h1 : y = j
        · have h2 : ¬ y = i := by omega
          have h3 : ¬ j = i := fun h => hij h.symm
          simp only [h1, h3, false_and, if_false, if_true]
        · simp only [if_neg h1]
      · have h3 : ¬ j = i := fun h => hij h.symm
        simp only [h3, false_and, if_false]
    · simp only [r1Laed, r1Perm2, R1St.mk.injEq, true_and]
      refine ⟨funext fun x => funext fun y => ?_, funext fun u => ?_⟩
      · by_cases h1 : y = i
        · have h2 : ¬ y = j := by omega
          simp only [h1, hij, false_and, if_false, if_true]
        · simp only [if_neg h1]
      · simp only [hij, false_and, if_false]
    · simp only [r1Perm2, R1St.mk.injEq, true_and]
      refine ⟨funext fun x => funext fun y => ?_, funext fun u => ?_⟩
      · by_cases h1 : y = i
        · have h2 : ¬ y = j := by omega
          have h3 : ¬ i = j := hij
          simp only [h1, h3, if_false, if_true]
        · by_cases h2 : y = j
          · have h3 : ¬ j = i := fun h => hij h.symm
            simp only [h2, h3, if_false, if_true]
          · simp only [h1, h2, if_false]
      · have h3 : ¬ j = i := fun h => hij h.symm
        by_cases h1 : u = v
        · have h2 : ¬ v = w := hvw
          simp only [h1, h2, hij, if_false, if_true]
        · by_cases h2 : u = w
          · have h4 : ¬ w = v := fun h => hvw h.symm
            simp only [h2, h4, h3, if_false, if_true]
          · simp only [h1, h2, if_false]
  have aW : Bulk.Apart nt (r1ActsW g nt) := by
    intro v _ w _ hvw a ha b hb s
    have hcase : ∀ {t a}, a ∈ r1ActsW g nt t → a = r1InitW g t ∨ ∃ i j, a = r1CompW g t i j := by
      intro t a ha
      unfold r1ActsW at ha
      rcases List.mem_cons.1 ha with ha | ha
      · exact Or.inl ha
      · obtain ⟨j, -, h1⟩ := List.mem_flatMap.1 ha
        obtain ⟨i, -, h2⟩ := List.mem_map.1 h1
        exact Or.inr ⟨i, j, h2.symm⟩
    have hwv : ¬ w = v := fun h => hvw h.symm
    have key : ∀ (f1 f2 : R1St → Nat → ℝ)
        (_ : ∀ (s : R1St) (x : Nat → Nat → ℝ), x v = s.ws v → f1 { s with ws := x } = f1 s)
        (_ : ∀ (s : R1St) (x : Nat → Nat → ℝ), x w = s.ws w → f2 { s with ws := x } = f2 s) (s : R1St),
        ({ s with ws := fun u => if u = v then f1 { s with ws := fun u => if u = w then f2 s else s.ws u } else
          if u = w then f2 s else s.ws u } : R1St) =
        { s with ws := fun u => if u = w then f2 { s with ws := fun u => if u = v then f1 s else s.ws u } else
          if u = v then f1 s else s.ws u } := by
      intro f1 f2 h1 h2 s
      have e1 := h1 s (fun u => if u = w then f2 s else s.ws u) (if_neg hvw)
      have e2 := h2 s (fun u => if u = v then f1 s else s.ws u) (if_neg hwv)
      rw [e1, e2]
      congr 1
      funext u
      by_cases h3 : u = v
      · rw [if_pos h3, if_neg (fun h => hvw (h3.symm.trans h)), if_pos h3]
      · rw [if_neg h3, if_neg h3]
    rcases hcase ha with rfl | ⟨i, j, rfl⟩ <;> rcases hcase hb with rfl | ⟨i', j', rfl⟩
    · exact key (fun s i => if i < g.k then (if v = 0 then s.q i i else 1) else s.ws v i)
        (fun s i => if i < g.k then (if w = 0 then s.q i i else 1) else s.ws w i)
        (fun s x hx => by simp only [hx]) (fun s x hx => by simp only [hx]) s
    · exact key (fun s i => if i < g.k then (if v = 0 then s.q i i else 1) else s.ws v i)
        (fun s l => if l = i' then s.ws w i' * (s.q i' j' / (g.d i' - g.d j')) else s.ws w l)
        (fun s x hx => by simp only [hx]) (fun s x hx => by simp only [hx]) s
    · exact key (fun s l => if l = i then s.ws v i * (s.q i j / (g.d i - g.d j)) else s.ws v l)
        (fun s i => if i < g.k then (if w = 0 then s.q i i else 1) else s.ws w i)
        (fun s x hx => by simp only [hx]) (fun s x hx => by simp only [hx]) s
    · exact key (fun s l => if l = i then s.ws v i * (s.q i j / (g.d i - g.d j)) else s.ws v l)
        (fun s l => if l = i' then s.ws w i' * (s.q i' j' / (g.d i' - g.d j')) else s.ws w l)
        (fun s x hx => by simp only [hx]) (fun s x hx => by simp only [hx]) s
  have aQ : Bulk.Apart nt (r1ActsQ g nt) := by
    intro v _ w _ hvw a ha b hb s
    obtain ⟨i, hi, rfl⟩ := List.mem_map.1 ha
    obtain ⟨j, hj, rfl⟩ := List.mem_map.1 hb
    have hij : ¬ i = j := by
      rintro rfl
      exact workerRange_disj hvw hi hj
    have hji : ¬ j = i := fun h => hij h.symm
    simp only [r1ColQ, R1St.mk.injEq, true_and, hij, hji, false_and, if_false]
    refine ⟨funext fun x => funext fun y => ?_, funext fun u => ?_⟩
    · by_cases h1 : y = i
      · have h2 : ¬ y = j := by omega
        simp only [h2, false_and, if_false]
      · simp only [h1, false_and, if_false]
    · by_cases h1 : u = v
      · have h2 : ¬ v = w := hvw
        simp only [h1, h2, if_false, if_true]
      · by_cases h2 : u = w
        · have h4 : ¬ w = v := fun h => hvw h.symm
          simp only [h2, h4, if_false, if_true]
        · simp only [h1, h2, if_false]
  have cons : ∀ {c : R1Ctl} {s s' : R1St} (p : (Nat → List (R1St → R1St)) × R1Ctl) (_ : r1Code g nt c s = some p)
      (_ : Bulk.Apart nt p.1) (_ : ∃ m, Bulk.Seq (r1Code g nt) nt p.2 (Bulk.runAll p.1 nt s) s' m),
      ∃ m, Bulk.Seq (r1Code g nt) nt c s s' m := fun p h1 h2 ⟨m, h3⟩ => ⟨_, .phase h1 h2 h3⟩
  refine cons (fun t => if t = 0 then [r1Init g] else [], .alloc) rfl (Bulk.apart_zero fun v hv => if_neg hv) ?_
  dsimp only
  rw [hz0]
  unfold r1Run
  by_cases hk : g.k ≤ 2
  · simp only [if_pos hk]
    exact cons (r1ActsLaed g nt, .fin) (by simp only [r1Code, if_pos hk]) aL ⟨_, .stop rfl⟩
  · simp only [if_neg hk]
    refine cons (r1ActsLaed g nt, .laed) (by simp only [r1Code, if_neg hk]) aL ?_
    refine cons (r1ActsW g nt, .weights) rfl aW ?_
    refine cons (r1ActsFin g nt, .final) rfl (Bulk.apart_zero fun v hv => if_neg hv) ?_
    exact cons (r1ActsQ g nt, .fin) rfl aQ ⟨_, .stop rfl⟩

end DLAF
