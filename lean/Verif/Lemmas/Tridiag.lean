import Verif.Model.Tridiag
import Mathlib.Data.List.Perm.Basic
import Mathlib.Data.List.Induction
import Mathlib.Order.Defs.LinearOrder
import Mathlib.Tactic.Common
/-! Lemmas about index vectors. -/
namespace DLAF

theorem stdMerge_perm {α : Type} (lt : α → α → Bool) : ∀ xs ys, (stdMerge lt xs ys).Perm (xs ++ ys) := by
  intro xs ys
  fun_induction stdMerge lt xs ys with
  | case1 ys => simp
  | case2 xs _ => simp
  | case3 x xs y ys h ih =>
    exact (List.Perm.cons y ih).trans (List.perm_middle (l₁ := x :: xs)).symm
  | case4 x xs y ys h ih => exact List.Perm.cons x ih

/-- merging two sorted ranges gives a sorted range; equal values keep the first range first (`R` is any
relation that follows from being in order) -/
theorem stdMerge_sorted {α : Type} {lt : α → α → Bool} {R : α → α → Prop}
    (hlt : ∀ x y, lt y x = true → R y x) (hge : ∀ x y, lt y x = false → R x y)
    (htr : ∀ x y z, R x y → R y z → R x z) :
    ∀ xs ys, xs.Pairwise R → ys.Pairwise R → (stdMerge lt xs ys).Pairwise R := by
  intro xs ys
  fun_induction stdMerge lt xs ys with
  | case1 ys => intro _ h; exact h
  | case2 xs _ => intro h _; exact h
  | case3 x xs y ys h ih =>
    intro hx hy
    rw [List.pairwise_cons] at hy ⊢
    refine ⟨fun z hz => ?_, ih hx hy.2⟩
    have := (stdMerge_perm lt (x :: xs) ys).mem_iff.1 hz
    rw [List.mem_append] at this
    rcases this with hz | hz
    · rcases List.mem_cons.1 hz with rfl | hz
      · exact hlt _ _ h
      · exact htr _ _ _ (hlt _ _ h) ((List.pairwise_cons.1 hx).1 z hz)
    · exact hy.1 z hz
  | case4 x xs y ys h ih =>
    intro hx hy
    have h' : lt y x = false := by simpa using h
    rw [List.pairwise_cons] at hx ⊢
    refine ⟨fun z hz => ?_, ih hx.2 hy⟩
    have := (stdMerge_perm lt xs (y :: ys)).mem_iff.1 hz
    rw [List.mem_append] at this
    rcases this with hz | hz
    · exact hx.1 z hz
    · rcases List.mem_cons.1 hz with rfl | hz
      · exact hge _ _ h'
      · exact htr _ _ _ (hge _ _ h') ((List.pairwise_cons.1 hy).1 z hz)

/-! ### arrays -/

theorem setAt_some {T : Type} {out : List T} {i : Nat} {v : T} (h : i < out.length) :
    setAt out i v = some (out.set i v) := by simp [setAt, h]

theorem setAt_append {T : Type} (a : List T) (x v : T) (b : List T) (i : Nat) (hi : i = a.length) :
    setAt (a ++ x :: b) i v = some (a ++ v :: b) := by
  subst hi
  rw [setAt_some (by simp)]
  simp

/-! ### inversion -/

theorem invertLoop_spec : ∀ (rest : List Nat) (i : Nat) (out : List Nat),
    (∀ a ∈ rest, a < out.length) → ∃ r, invertLoop i rest out = some r ∧ r.length = out.length ∧
    (∀ p, p ∉ rest → r[p]? = out[p]?) ∧
    (rest.Nodup → ∀ k (hk : k < rest.length), r[rest[k]]? = some (i + k)) := by
  intro rest
  induction rest with
  | nil => intro i out _; exact ⟨out, rfl, rfl, fun _ _ => rfl, by simp⟩
  | cons a rest ih =>
    intro i out h
    have ha := h a (List.mem_cons_self)
    obtain ⟨r, h1, h2, h3, h4⟩ := ih (i + 1) (out.set a i) (fun b hb => by
      rw [List.length_set]; exact h b (List.mem_cons_of_mem _ hb))
    refine ⟨r, by simp [invertLoop, setAt_some ha, h1], by simpa using h2, ?_, ?_⟩
    · intro p hp
      rw [List.mem_cons, not_or] at hp
      rw [h3 p hp.2, List.getElem?_set_ne (Ne.symm hp.1)]
    · intro hnd k hk
      rw [List.nodup_cons] at hnd
      cases k with
      | zero =>
        simp only [List.getElem_cons_zero]
        rw [h3 a hnd.1, List.getElem?_set_self ha]; simp
      | succ k =>
        simp only [List.getElem_cons_succ]
        rw [h4 hnd.2 k (by simpa using hk)]
        congr 1; omega

/-! ### insertion of a deflated index -/

theorem insertLoop_spec {T : Type} [LT T] [DecidableLT T] (evals : List T) (a : T) (ii : Nat)
    (pre : List Nat) (D : List Nat) : ∀ (x : Nat) (junk : List Nat), (∀ d ∈ D, d < evals.length) →
    ∃ L R, D = L ++ R ∧
      ((insertLoop evals a pre.length (pre.length + D.length) (pre ++ D ++ x :: junk)).bind
        fun r => setAt r.1 r.2 ii) = some (pre ++ (L ++ ii :: R) ++ junk) ∧
      (∀ r ∈ R, ∃ b, evals[r]? = some b ∧ ¬ b < a) ∧
      (∀ l, L.getLast? = some l → ∃ b, evals[l]? = some b ∧ b < a) := by
  induction D using List.reverseRecOn with
  | nil =>
    intro x junk _
    refine ⟨[], [], rfl, ?_, by simp, by simp⟩
    have h : insertLoop evals a pre.length (pre.length + ([] : List Nat).length) (pre ++ [] ++ x :: junk)
        = some (pre ++ x :: junk, pre.length) := by
      simp only [List.length_nil, Nat.add_zero, List.append_nil]
      cases hk : pre.length with
      | zero => simp [insertLoop]
      | succ k => simp [insertLoop]
    rw [h, Option.bind_some]
    dsimp only
    rw [setAt_append _ _ _ _ _ rfl]
    simp
  | append_singleton D d ih =>
    intro x junk hD
    have hd : d < evals.length := hD d (by simp)
    have hb : evals[d]? = some evals[d] := List.getElem?_eq_getElem hd
    have hlen : pre.length + (D ++ [d]).length = (pre.length + D.length) + 1 := by simp; omega
    have hget : (pre ++ (D ++ [d]) ++ x :: junk)[pre.length + D.length]? = some d := by
      rw [show pre ++ (D ++ [d]) ++ x :: junk = (pre ++ D) ++ d :: x :: junk by simp]
      rw [List.getElem?_append_right (by simp)]
      simp
    rw [hlen]
    by_cases hab : evals[d] < a
    · refine ⟨D ++ [d], [], by simp, ?_, by simp, ?_⟩
      · unfold insertLoop
        rw [if_pos (by omega), hget, Option.bind_some, hb, Option.bind_some, if_pos hab, Option.bind_some]
        dsimp only
        rw [setAt_append (pre ++ (D ++ [d])) x ii junk _ (by simp; omega)]
        simp
      · intro l hl
        simp at hl; subst hl
        exact ⟨_, hb, hab⟩
    · obtain ⟨L, R, h1, h2, h3, h4⟩ := ih d (d :: junk) (fun e he => hD e (by simp [he]))
      refine ⟨L, R ++ [d], by rw [h1]; simp, ?_, ?_, h4⟩
      · unfold insertLoop
        rw [if_pos (by omega), hget, Option.bind_some, hb, Option.bind_some, if_neg hab]
        rw [setAt_append (pre ++ (D ++ [d])) x d junk _ (by simp; omega), Option.bind_some]
        rw [show pre ++ (D ++ [d]) ++ d :: junk = pre ++ D ++ d :: d :: junk by simp, h2]
        simp
      · intro r hr
        rw [List.mem_append] at hr
        rcases hr with hr | hr
        · exact h3 r hr
        · simp at hr; subst hr; exact ⟨_, hb, hab⟩

/-- the array of the partition while running: non-deflated so far, rest of their places, deflated so far in
order, rest of their places -/
theorem partitionLoop_spec {T : Type} [LinearOrder T] (types : List ColType) (evals : List T)
    (hte : evals.length = types.length) (k : Nat) :
    ∀ (rest N D j1 j2 : List Nat), N.length + j1.length = k →
      (∀ i ∈ rest, i < types.length) → (∀ i ∈ D, i < types.length) →
      (rest.filter fun i => types[i]? ≠ some .Deflated).length = j1.length →
      (rest.filter fun i => types[i]? = some .Deflated).length = j2.length →
      D.Pairwise (fun x y => ∃ a b, evals[x]? = some a ∧ evals[y]? = some b ∧ a ≤ b) →
      ∃ D', partitionLoop types evals k rest N.length (k + D.length) (N ++ j1 ++ (D ++ j2)) =
        some (N ++ (rest.filter fun i => types[i]? ≠ some .Deflated) ++ D') ∧
        D'.Perm (D ++ rest.filter fun i => types[i]? = some .Deflated) ∧
        D'.Pairwise (fun x y => ∃ a b, evals[x]? = some a ∧ evals[y]? = some b ∧ a ≤ b) := by
  intro rest
  induction rest with
  | nil =>
    intro N D j1 j2 hk _ _ h1 h2 hs
    simp only [List.filter_nil, List.length_nil] at h1 h2
    have h1 : j1 = [] := List.length_eq_zero_iff.1 h1.symm
    have h2 : j2 = [] := List.length_eq_zero_iff.1 h2.symm
    subst h1; subst h2
    exact ⟨D, by simp [partitionLoop], by simp, hs⟩
  | cons ii rest ih =>
    intro N D j1 j2 hk hr hD h1 h2 hs
    have hii : ii < types.length := hr ii (List.mem_cons_self)
    have hr' : ∀ i ∈ rest, i < types.length := fun i hi => hr i (List.mem_cons_of_mem _ hi)
    have ht : types[ii]? = some types[ii] := List.getElem?_eq_getElem hii
    by_cases hdef : types[ii] = .Deflated
    · have hp : types[ii]? = some .Deflated := by rw [ht, hdef]
      rw [List.filter_cons_of_neg (by simp [hp])] at h1 ⊢
      rw [List.filter_cons_of_pos (by simp [hp])] at h2 ⊢
      obtain ⟨x, j2, rfl⟩ : ∃ x j2', j2 = x :: j2' := by
        cases j2 with
        | nil => simp at h2
        | cons x j2 => exact ⟨x, j2, rfl⟩
      have hev : evals[ii]? = some (evals[ii]'(by omega)) := List.getElem?_eq_getElem (by omega)
      obtain ⟨L, R, e1, e2, e3, e4⟩ := insertLoop_spec evals (evals[ii]'(by omega)) ii (N ++ j1) D x j2
        (fun d hd => by rw [hte]; exact hD d hd)
      have hkl : (N ++ j1).length = k := by simp; omega
      rw [hkl] at e2
      have hsort : (L ++ ii :: R).Pairwise
          (fun x y => ∃ a b, evals[x]? = some a ∧ evals[y]? = some b ∧ a ≤ b) := by
        rw [e1] at hs
        rw [List.pairwise_append] at hs ⊢
        obtain ⟨s1, s2, s3⟩ := hs
        refine ⟨s1, ?_, ?_⟩
        · rw [List.pairwise_cons]
          refine ⟨fun r hr => ?_, s2⟩
          obtain ⟨b, hb, hab⟩ := e3 r hr
          exact ⟨_, b, hev, hb, not_lt.1 hab⟩
        · intro l hl y hy
          rcases List.mem_cons.1 hy with rfl | hy
          · -- l ≤ last of L < a
            have hne : L ≠ [] := List.ne_nil_of_mem hl
            obtain ⟨b, hb, hba⟩ := e4 (L.getLast hne) (List.getLast?_eq_some_getLast hne)
            rcases List.mem_append.1 (by rw [List.dropLast_append_getLast hne]; exact hl :
              l ∈ L.dropLast ++ [L.getLast hne]) with hl' | hl'
            · rw [← List.dropLast_append_getLast hne, List.pairwise_append] at s1
              obtain ⟨u, v, hu, hv, huv⟩ := s1.2.2 l hl' (L.getLast hne) (by simp)
              rw [hb] at hv
              simp only [Option.some.injEq] at hv
              subst hv
              exact ⟨u, _, hu, hev, le_of_lt (lt_of_le_of_lt huv hba)⟩
            · simp only [List.mem_singleton] at hl'
              subst hl'
              exact ⟨b, _, hb, hev, le_of_lt hba⟩
          · exact s3 l hl y hy
      obtain ⟨D', f1, f2, f3⟩ := ih N (L ++ ii :: R) j1 j2 hk hr' (by
        intro i hi
        rw [List.mem_append, List.mem_cons] at hi
        rcases hi with hi | rfl | hi
        · exact hD i (by rw [e1]; simp [hi])
        · exact hii
        · exact hD i (by rw [e1]; simp [hi])) h1 (by simpa using h2) hsort
      refine ⟨D', ?_, ?_, f3⟩
      · unfold partitionLoop
        rw [ht, Option.bind_some, if_neg (by simp [hdef]), hev, Option.bind_some]
        rw [show N ++ j1 ++ (D ++ x :: j2) = (N ++ j1) ++ D ++ x :: j2 by simp]
        rw [show ∀ o : Option (List Nat × Nat), (o.bind fun r => (setAt r.1 r.2 ii).bind fun s =>
          partitionLoop types evals k rest N.length (k + D.length + 1) s) =
          (o.bind fun r => setAt r.1 r.2 ii).bind fun s =>
          partitionLoop types evals k rest N.length (k + D.length + 1) s from fun o => by
            cases o <;> rfl]
        rw [e2, Option.bind_some]
        have hl : D.length + 1 = (L ++ ii :: R).length := by rw [e1]; simp; omega
        rw [show k + D.length + 1 = k + (L ++ ii :: R).length by omega]
        rw [show N ++ j1 ++ (L ++ ii :: R) ++ j2 = N ++ j1 ++ ((L ++ ii :: R) ++ j2) by simp]
        exact f1
      · refine f2.trans ?_
        rw [e1]
        have : (L ++ ii :: R).Perm ((L ++ R) ++ [ii]) := by
          rw [List.append_assoc]
          exact List.Perm.append_left L (List.perm_append_singleton ii R).symm
        have h3 := this.append_right (rest.filter fun i => types[i]? = some ColType.Deflated)
        simpa using h3
    · have hp : types[ii]? ≠ some .Deflated := by rw [ht]; simpa using hdef
      rw [List.filter_cons_of_pos (by simp [hp])] at h1 ⊢
      rw [List.filter_cons_of_neg (by simp [hp])] at h2 ⊢
      obtain ⟨x, j1, rfl⟩ : ∃ x j1', j1 = x :: j1' := by
        cases j1 with
        | nil => simp at h1
        | cons x j1 => exact ⟨x, j1, rfl⟩
      obtain ⟨D', f1, f2, f3⟩ := ih (N ++ [ii]) D j1 j2 (by simp at hk ⊢; omega) hr' hD (by simpa using h1) h2 hs
      refine ⟨D', ?_, f2, f3⟩
      unfold partitionLoop
      rw [ht, Option.bind_some, if_pos hdef]
      rw [show N ++ x :: j1 ++ (D ++ j2) = N ++ x :: (j1 ++ (D ++ j2)) by simp]
      rw [setAt_append _ _ _ _ _ rfl, Option.bind_some]
      rw [show N.length + 1 = (N ++ [ii]).length by simp]
      rw [show N ++ ii :: (j1 ++ (D ++ j2)) = N ++ [ii] ++ j1 ++ (D ++ j2) by simp]
      rw [f1]; simp

/-! ### binning by type -/

/-- number of entries of a type -/
def cnt (t : ColType) (types : List ColType) : Nat := types.count t

theorem typeCounts_eq (types : List ColType) :
    typeCounts types = [0, cnt .UpperHalf types, cnt .Dense types, cnt .LowerHalf types] := by
  have gen : ∀ (types : List ColType) (a b c : Nat),
      types.foldl (fun o t => if t ≠ .Deflated then o.modify (1 + ev_sort_order t) (· + 1) else o) [0, a, b, c]
      = [0, a + cnt .UpperHalf types, b + cnt .Dense types, c + cnt .LowerHalf types] := by
    intro types
    induction types with
    | nil => intros; rfl
    | cons t types ih =>
      intro a b c
      rw [List.foldl_cons]
      cases t
      · refine (ih (a + 1) b c).trans ?_
        simp [cnt]; omega
      · refine (ih a b (c + 1)).trans ?_
        simp [cnt]; omega
      · refine (ih a (b + 1) c).trans ?_
        simp [cnt]; omega
      · refine (ih a b c).trans ?_
        simp [cnt]
  have := gen types 0 0 0
  simpa [typeCounts] using this

/-- the indices `j + p` with type `t` at position `p` -/
def idxOf (t : ColType) : Nat → List ColType → List Nat
  | _, [] => []
  | j, x :: xs => if x = t then j :: idxOf t (j + 1) xs else idxOf t (j + 1) xs

theorem idxOf_length (t : ColType) : ∀ xs j, (idxOf t j xs).length = cnt t xs := by
  intro xs
  induction xs with
  | nil => intro j; rfl
  | cons x xs ih =>
    intro j
    unfold idxOf
    by_cases h : x = t
    · subst h; rw [if_pos rfl, List.length_cons, ih]; simp [cnt]
    · rw [if_neg h, ih]; simp [cnt, List.count_cons, h]

theorem idxOf_eq (t : ColType) : ∀ xs j, idxOf t j xs =
    (List.range' j xs.length).filter fun i => xs[i - j]? = some t := by
  intro xs
  induction xs with
  | nil => intro j; rfl
  | cons x xs ih =>
    intro j
    have hcongr : (List.range' (j + 1) xs.length).filter (fun i => (x :: xs)[i - j]? = some t)
        = (List.range' (j + 1) xs.length).filter (fun i => xs[i - (j + 1)]? = some t) := by
      apply List.filter_congr
      intro i hi
      have := (List.mem_range'_1.1 hi).1
      rw [show i - j = (i - (j + 1)) + 1 by omega, List.getElem?_cons_succ]
    rw [List.length_cons, List.range'_succ]
    unfold idxOf
    by_cases h : x = t
    · rw [if_pos h, List.filter_cons_of_pos (by simp [h]), hcongr, ih]
    · rw [if_neg h, List.filter_cons_of_neg (by simp [h]), hcongr, ih]

theorem idxOf_zero (t : ColType) (xs : List ColType) :
    idxOf t 0 xs = (List.range xs.length).filter fun i => xs[i]? = some t := by
  rw [idxOf_eq, List.range_eq_range']; simp

theorem binLoop_spec : ∀ (rest : List ColType) (j : Nat) (U ju D jd L jl X : List Nat) (k : Nat),
    ju.length = cnt .UpperHalf rest → jd.length = cnt .Dense rest → jl.length = cnt .LowerHalf rest →
    binLoop j rest [U.length, U.length + ju.length + D.length,
        U.length + ju.length + D.length + jd.length + L.length, k]
      (U ++ ju ++ (D ++ jd) ++ (L ++ jl) ++ X)
    = some (U ++ idxOf .UpperHalf j rest ++ (D ++ idxOf .Dense j rest) ++ (L ++ idxOf .LowerHalf j rest) ++ X) := by
  intro rest
  induction rest with
  | nil =>
    intro j U ju D jd L jl X k hu hd hl
    have hu : ju = [] := List.length_eq_zero_iff.1 hu
    have hd : jd = [] := List.length_eq_zero_iff.1 hd
    have hl : jl = [] := List.length_eq_zero_iff.1 hl
    subst hu hd hl
    simp [binLoop, idxOf]
  | cons t rest ih =>
    intro j U ju D jd L jl X k hu hd hl
    cases t
    · -- upper
      simp only [cnt, List.count_cons, beq_self_eq_true, if_true] at hu
      simp only [cnt, List.count_cons, beq_iff_eq, reduceCtorEq, if_false, Nat.add_zero] at hd hl
      obtain ⟨x, ju, rfl⟩ : ∃ x ju', ju = x :: ju' := by
        cases ju with
        | nil => simp at hu
        | cons x ju => exact ⟨x, ju, rfl⟩
      have := ih (j + 1) (U ++ [j]) ju D jd L jl X k (by simpa [cnt] using hu) hd hl
      simp only [binLoop, idxOf, if_true, reduceCtorEq, if_false, ne_eq, not_false_eq_true, ev_sort_order,
        List.getElem?_cons_zero, Option.bind_some]
      rw [show U ++ x :: ju ++ (D ++ jd) ++ (L ++ jl) ++ X = U ++ x :: (ju ++ (D ++ jd) ++ (L ++ jl) ++ X) by simp]
      rw [setAt_append _ _ _ _ _ rfl, Option.bind_some]
      rw [show U ++ j :: (ju ++ (D ++ jd) ++ (L ++ jl) ++ X) = U ++ [j] ++ ju ++ (D ++ jd) ++ (L ++ jl) ++ X by simp]
      refine Eq.trans (congrArg (fun o => binLoop (j + 1) rest o _) ?_) (this.trans ?_)
      · simp [List.modify]; omega
      · simp
    · -- lower
      simp only [cnt, List.count_cons, beq_self_eq_true, if_true] at hl
      simp only [cnt, List.count_cons, beq_iff_eq, reduceCtorEq, if_false, Nat.add_zero] at hd hu
      obtain ⟨x, jl, rfl⟩ : ∃ x jl', jl = x :: jl' := by
        cases jl with
        | nil => simp at hl
        | cons x jl => exact ⟨x, jl, rfl⟩
      have := ih (j + 1) U ju D jd (L ++ [j]) jl X k hu hd (by simpa [cnt] using hl)
      simp only [binLoop, idxOf, if_true, reduceCtorEq, if_false, ne_eq, not_false_eq_true, ev_sort_order,
        List.getElem?_cons_zero, List.getElem?_cons_succ, Option.bind_some]
      rw [show U ++ ju ++ (D ++ jd) ++ (L ++ x :: jl) ++ X = (U ++ ju ++ (D ++ jd) ++ L) ++ x :: (jl ++ X) by simp]
      rw [setAt_append _ _ _ _ _ (by simp; omega), Option.bind_some]
      rw [show (U ++ ju ++ (D ++ jd) ++ L) ++ j :: (jl ++ X) = U ++ ju ++ (D ++ jd) ++ (L ++ [j] ++ jl) ++ X by simp]
      refine Eq.trans (congrArg (fun o => binLoop (j + 1) rest o _) ?_) (this.trans ?_)
      · simp [List.modify]; omega
      · simp
    · -- dense
      simp only [cnt, List.count_cons, beq_self_eq_true, if_true] at hd
      simp only [cnt, List.count_cons, beq_iff_eq, reduceCtorEq, if_false, Nat.add_zero] at hl hu
      obtain ⟨x, jd, rfl⟩ : ∃ x jd', jd = x :: jd' := by
        cases jd with
        | nil => simp at hd
        | cons x jd => exact ⟨x, jd, rfl⟩
      have := ih (j + 1) U ju (D ++ [j]) jd L jl X k hu (by simpa [cnt] using hd) hl
      simp only [binLoop, idxOf, if_true, reduceCtorEq, if_false, ne_eq, not_false_eq_true, ev_sort_order,
        List.getElem?_cons_zero, List.getElem?_cons_succ, Option.bind_some]
      rw [show U ++ ju ++ (D ++ x :: jd) ++ (L ++ jl) ++ X = (U ++ ju ++ D) ++ x :: (jd ++ (L ++ jl) ++ X) by simp]
      rw [setAt_append _ _ _ _ _ (by simp; omega), Option.bind_some]
      rw [show (U ++ ju ++ D) ++ j :: (jd ++ (L ++ jl) ++ X) = U ++ ju ++ (D ++ [j] ++ jd) ++ (L ++ jl) ++ X by simp]
      refine Eq.trans (congrArg (fun o => binLoop (j + 1) rest o _) ?_) (this.trans ?_)
      · simp [List.modify]; omega
      · simp
    · simp only [cnt, List.count_cons, beq_iff_eq, reduceCtorEq, if_false, Nat.add_zero] at hd hl hu
      have := ih (j + 1) U ju D jd L jl X k hu hd hl
      simp only [binLoop, idxOf, reduceCtorEq, if_false, ne_eq, not_true_eq_false]
      exact this

end DLAF
