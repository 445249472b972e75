import Verif.Lemmas.Async
import Verif.Spec.Seq
import Mathlib.Algebra.BigOperators.Group.Finset.Basic
import Mathlib.Algebra.Order.BigOperators.Group.Finset
import Mathlib.Data.Fintype.Basic

/-! # C15: asynchronous tile access is deterministic under every schedule

`AReach prog N loc store s`: state `s` is reached from the initial contents `store` by some schedule of the
tasks `prog 0 .. prog (N-1)`, submitted in this order.  `Seq` is the sequential execution. -/
namespace DLAF.C15
open DLAF

section
variable {X V L : Type} [Inhabited V]

theorem exec_frame (o : Op X V L) (l : L) (s : X → V) {x : X} (h : o.touch x ≠ some .readwrite) :
    (o.exec l s).2 x = s x := by simp [Op.exec, h]

theorem exec_congr (o : Op X V L) (l : L) {s s' : X → V} (h : ∀ x, o.touch x ≠ none → s x = s' x) :
    (o.exec l s).1 = (o.exec l s').1 ∧
    ∀ x, o.touch x = some .readwrite → (o.exec l s).2 x = (o.exec l s').2 x := by
  have : (fun x => if o.touch x = none then default else s x)
      = (fun x => if o.touch x = none then default else s' x) := by
    funext x
    by_cases hx : o.touch x = none
    · simp [hx]
    · simp [hx, h x hx]
  simp only [Op.exec, this]
  refine ⟨trivial, fun x hx => by simp [hx]⟩

theorem runOps_append (a b : List (Op X V L)) (c) :
    Seq.runOps (a ++ b) c = Seq.runOps b (Seq.runOps a c) := by
  induction a generalizing c with
  | nil => rfl
  | cons o os ih => simp [Seq.runOps, ih]

theorem runOps_frame (ops : List (Op X V L)) (c) {x : X} (h : ∀ o ∈ ops, o.touch x ≠ some .readwrite) :
    (Seq.runOps ops c).2 x = c.2 x := by
  induction ops generalizing c with
  | nil => rfl
  | cons o os ih =>
    simp only [Seq.runOps]
    rw [ih _ (fun o' ho' => h o' (List.mem_cons_of_mem _ ho')), exec_frame _ _ _ (h o (List.mem_cons_self))]

theorem at_zero (prog : Nat → Task X V L) (loc store t) :
    Seq.at_ prog loc store t 0 = (loc t, Seq.storeBefore prog loc store t) := by
  simp [Seq.at_, Seq.runOps]

theorem at_succ {prog : Nat → Task X V L} {loc store t k o} (h : (prog t).ops[k]? = some o) :
    Seq.at_ prog loc store t (k + 1)
      = o.exec (Seq.at_ prog loc store t k).1 (Seq.at_ prog loc store t k).2 := by
  have : (prog t).ops.take (k + 1) = (prog t).ops.take k ++ [o] := by
    rw [List.take_add_one, h]; rfl
  simp only [Seq.at_, this, runOps_append, Seq.runOps]

theorem storeBefore_succ (prog : Nat → Task X V L) (loc store t) :
    Seq.storeBefore prog loc store (t + 1) = (Seq.at_ prog loc store t (prog t).ops.length).2 := by
  simp [Seq.storeBefore, Seq.at_]

/-- value of a tile not written by the actions between `k` and `k'` -/
theorem at_frame {prog : Nat → Task X V L} {loc store t} {k k' : Nat} (hk : k ≤ k') {x : X}
    (h : ∀ m o, k ≤ m → m < k' → (prog t).ops[m]? = some o → o.touch x ≠ some .readwrite) :
    (Seq.at_ prog loc store t k').2 x = (Seq.at_ prog loc store t k).2 x := by
  induction hk with
  | refl => rfl
  | @step m hkm ih =>
    have ih := ih (fun i o h1 h2 h3 => h i o h1 (by omega) h3)
    rw [← ih]
    rcases ho : (prog t).ops[m]? with _ | o
    · have hl := List.getElem?_eq_none_iff.1 ho
      simp only [Seq.at_]
      rw [List.take_of_length_le (by omega), List.take_of_length_le (by omega)]
    · rw [at_succ ho]
      exact exec_frame _ _ _ (h m o hkm (by omega) ho)

omit [Inhabited V] in
theorem acc_of_op {prog : Nat → Task X V L} {t : Nat} (hwf : (prog t).WF) {k : Nat} {o : Op X V L}
    (h : (prog t).ops[k]? = some o)
    {x : X} : (o.touch x = some .readwrite → (prog t).acc x = some .readwrite) ∧
      (o.touch x ≠ none → (prog t).acc x ≠ none) :=
  hwf o (List.mem_of_getElem? h) x

/-- value of a tile not written by the tasks `a .. b-1` -/
theorem storeBefore_frame {prog : Nat → Task X V L} {N : Nat} (hwf : ∀ t, t < N → (prog t).WF) {loc store}
    {a b : Nat} (hab : a ≤ b) (hb : b ≤ N) {x : X}
    (h : ∀ t, a ≤ t → t < b → (prog t).acc x ≠ some .readwrite) :
    Seq.storeBefore prog loc store b x = Seq.storeBefore prog loc store a x := by
  induction hab with
  | refl => rfl
  | @step m ham ih =>
    rw [← ih (by omega) (fun t h1 h2 => h t h1 (by omega)), storeBefore_succ, ]
    have := at_frame (prog := prog) (loc := loc) (store := store) (t := m) (k := 0)
      (k' := (prog m).ops.length) (Nat.zero_le _) (x := x) (fun i o _ _ ho hw =>
        h m ham (by omega) ((acc_of_op (hwf m (by omega)) ho).1 hw))
    rw [this, at_zero]

end

set_option linter.unusedSectionVars false
set_option linter.unusedTactic false
variable {X V L : Type} [DecidableEq X] [Inhabited V]

/-- The invariant behind the proof. -/
structure Inv (prog : Nat → Task X V L) (N : Nat) (loc : Nat → L) (store : X → V) (s : AState X V L) :
    Prop where
  /-- only requested accesses leave the waiting state -/
  req : ∀ x t, s.st x t ≠ .waiting → t < N ∧ (prog t).acc x ≠ none
  /-- order of grants -/
  ord : ∀ x t, s.st x t ≠ .waiting → ∀ j, requestsOf prog N x j ≠ none →
    groupOf (requestsOf prog N x) j < groupOf (requestsOf prog N x) t → s.st x j = .released
  pc_le : ∀ t, s.pc t ≤ (prog t).ops.length
  /-- executed actions had their accesses -/
  past : ∀ t k o x, k < s.pc t → (prog t).ops[k]? = some o → o.touch x ≠ none → s.st x t ≠ .waiting
  /-- released accesses are not needed any more -/
  done : ∀ x t, s.st x t = .released → ∀ k o, s.pc t ≤ k → (prog t).ops[k]? = some o → o.touch x = none
  /-- local states are those of the sequential execution -/
  loc_eq : ∀ t, s.loc t = (Seq.at_ prog loc store t (s.pc t)).1
  /-- the tile contains what the task sees in the sequential execution -/
  val : ∀ x t, t ≤ N → (∀ j, j < t → (prog j).acc x = some .readwrite → s.st x j = .released) →
    (∀ j, t < j → j < N → (prog j).acc x = some .readwrite → s.st x j = .waiting) →
    s.store x = (Seq.at_ prog loc store t (if t < N then s.pc t else 0)).2 x

theorem requestsOf_some {prog : Nat → Task X V L} {N x t a} (ht : t < N) (h : (prog t).acc x = some a) :
    requestsOf prog N x t = some a := by simp [requestsOf, ht, h]

theorem requestsOf_ne {prog : Nat → Task X V L} {N x t} (ht : t < N) (h : (prog t).acc x ≠ none) :
    requestsOf prog N x t ≠ none := by simp [requestsOf, ht, h]

/-- a task holding an access sees all earlier writers released and all later ones waiting -/
theorem Inv.holder {prog : Nat → Task X V L} {N loc store s} (h : Inv prog N loc store s) {x t}
    (ht : s.st x t = .held) :
    (∀ j, j < t → (prog j).acc x = some .readwrite → s.st x j = .released) ∧
    (∀ j, t < j → j < N → (prog j).acc x = some .readwrite → s.st x j = .waiting) := by
  obtain ⟨htN, hacc⟩ := h.req x t (by rw [ht]; decide)
  constructor
  · intro j hj hw
    refine h.ord x t (by rw [ht]; decide) j (by simp [requestsOf, hw]; omega) ?_
    exact groupOf_lt_of_prev_writer hj (requestsOf_some (by omega) hw) (requestsOf_ne htN hacc)
  · intro j hj hjN hw
    by_contra hc
    have := h.ord x j hc t (requestsOf_ne htN hacc) (groupOf_lt_of_writer hj (requestsOf_some hjN hw))
    rw [ht] at this; cases this

theorem inv_init {prog : Nat → Task X V L} {N : Nat} (hwf : ∀ t, t < N → (prog t).WF) (loc store) :
    Inv prog N loc store (AState.initial loc store) where
  req := by intro x t h; simp [AState.initial] at h
  ord := by intro x t h; simp [AState.initial] at h
  pc_le := by intro t; simp [AState.initial]
  past := by intro t k o x h; simp [AState.initial] at h
  done := by intro x t h; simp [AState.initial] at h
  loc_eq := by intro t; simp [AState.initial, at_zero]
  val := by
    intro x t ht h1 h2
    have hz : (if t < N then (AState.initial loc store).pc t else 0) = 0 := by simp [AState.initial]
    rw [hz, at_zero]
    have := storeBefore_frame (loc := loc) (store := store) hwf (Nat.zero_le t) ht (x := x)
      (fun j _ hj hw => by have := h1 j hj hw; simp [AState.initial] at this)
    exact this.symm

theorem st_upd (s : AState X V L) (x : X) (t : Nat) (v : Status) (y : X) (j : Nat) :
    upd s.st x (upd (s.st x) t v) y j = if y = x ∧ j = t then v else s.st y j := by
  by_cases hy : y = x
  · subst hy
    by_cases hj : j = t
    · subst hj; simp [upd]
    · simp [upd, hj]
  · simp [upd, hy]

theorem inv_step {prog : Nat → Task X V L} {N : Nat} (hwf : ∀ t, t < N → (prog t).WF) {loc store}
    {s s' : AState X V L} (h : Inv prog N loc store s) (hs : AStep prog N s s') :
    Inv prog N loc store s' := by
  cases hs with
  | grant x t hg =>
    obtain ⟨g1, g2, g3⟩ := hg
    have ht : t < N ∧ (prog t).acc x ≠ none := by
      simpa [requestsOf] using g1
    constructor
    · intro y j hj
      simp only [st_upd] at hj
      split at hj
      · rename_i hc; obtain ⟨rfl, rfl⟩ := hc; exact ht
      · exact h.req y j hj
    · intro y j hj k hk hlt
      simp only [st_upd] at hj ⊢
      split at hj
      · rename_i hc; obtain ⟨rfl, rfl⟩ := hc
        have hne : ¬ (y = y ∧ k = j) := by rintro ⟨_, rfl⟩; omega
        rw [if_neg hne]; exact g3 k hk hlt
      · have := h.ord y j hj k hk hlt
        have hne : ¬ (y = x ∧ k = t) := by
          rintro ⟨rfl, rfl⟩; rw [g2] at this; cases this
        rw [if_neg hne]; exact this
    · exact h.pc_le
    · intro j k o y h1 h2 h3
      simp only [st_upd]
      split
      · simp
      · exact h.past j k o y h1 h2 h3
    · intro y j hj
      simp only [st_upd] at hj
      split at hj
      · cases hj
      · exact h.done y j hj
    · exact h.loc_eq
    · intro y j hjN h1 h2
      simp only [st_upd] at h1 h2
      refine h.val y j hjN (fun k hk hw => ?_) (fun k hk hkN hw => ?_)
      · have := h1 k hk hw
        split at this
        · cases this
        · exact this
      · have := h2 k hk hkN hw
        split at this
        · cases this
        · exact this
  | op t o htN ho hheld =>
    have hpc : s.pc t < (prog t).ops.length := (List.getElem?_eq_some_iff.1 ho).1
    -- the task sees what it sees sequentially
    have hview : ∀ x, o.touch x ≠ none → s.store x = (Seq.at_ prog loc store t (s.pc t)).2 x := by
      intro x hx
      obtain ⟨h1, h2⟩ := h.holder (hheld x hx)
      have := h.val x t (by omega) h1 h2
      simpa [htN] using this
    have hcong := exec_congr o (s.loc t) hview
    have hsucc := at_succ (loc := loc) (store := store) ho
    rw [← h.loc_eq t] at hsucc
    constructor
    · exact h.req
    · exact h.ord
    · intro j
      dsimp only
      by_cases hj : j = t
      · subst hj; rw [upd_same]; omega
      · rw [upd_ne _ _ hj]; exact h.pc_le j
    · intro j k o' x hk ho' hx
      dsimp only at hk ⊢
      by_cases hj : j = t
      · subst hj
        rw [upd_same] at hk
        rcases Nat.lt_or_eq_of_le (Nat.le_of_lt_succ hk) with h1 | h1
        · exact h.past j k o' x h1 ho' hx
        · subst h1
          rw [ho] at ho'; cases ho'
          rw [hheld x hx]; decide
      · rw [upd_ne _ _ hj] at hk
        exact h.past j k o' x hk ho' hx
    · intro x j hj k o' hk ho'
      dsimp only at hj hk ⊢
      by_cases hjt : j = t
      · subst hjt
        rw [upd_same] at hk
        exact h.done x j hj k o' (by omega) ho'
      · rw [upd_ne _ _ hjt] at hk
        exact h.done x j hj k o' hk ho'
    · intro j
      dsimp only
      by_cases hj : j = t
      · subst hj
        rw [upd_same, upd_same, hsucc, hcong.1]
      · rw [upd_ne _ _ hj, upd_ne _ _ hj]; exact h.loc_eq j
    · intro x j hjN h1 h2
      dsimp only at h1 h2 ⊢
      by_cases hj : j = t
      · subst hj
        simp only [htN, if_true, upd_same]
        rw [hsucc]
        by_cases hw : o.touch x = some .readwrite
        · exact hcong.2 x hw
        · rw [exec_frame _ _ _ hw, exec_frame _ _ _ hw]
          have := h.val x j hjN h1 h2
          simpa [htN] using this
      · have hnw : o.touch x ≠ some .readwrite := by
          intro hw
          have hacc := (acc_of_op (hwf t htN) ho).1 hw
          have hh := hheld x (by rw [hw]; simp)
          rcases Nat.lt_or_gt_of_ne hj with hlt | hlt
          · have := h2 t hlt htN hacc
            rw [hh] at this; cases this
          · have := h1 t hlt hacc
            rw [hh] at this; cases this
        have := h.val x j hjN h1 h2
        simp only [upd_ne _ _ hj]
        rw [← this]
        exact exec_frame _ _ _ hnw
  | release x t hheld hrel =>
    obtain ⟨htN, hacc⟩ := h.req x t (by rw [hheld]; decide)
    constructor
    · intro y j hj
      simp only [st_upd] at hj
      split at hj
      · rename_i hc; obtain ⟨rfl, rfl⟩ := hc; exact ⟨htN, hacc⟩
      · exact h.req y j hj
    · intro y j hj k hk hlt
      simp only [st_upd] at hj ⊢
      by_cases hc : y = x ∧ k = t
      · rw [if_pos hc]
      · rw [if_neg hc]
        split at hj
        · rename_i hc'; obtain ⟨rfl, rfl⟩ := hc'
          exact h.ord y j (by rw [hheld]; decide) k hk hlt
        · exact h.ord y j hj k hk hlt
    · exact h.pc_le
    · intro j k o y h1 h2 h3
      simp only [st_upd]
      split
      · simp
      · exact h.past j k o y h1 h2 h3
    · intro y j hj
      simp only [st_upd] at hj
      split at hj
      · rename_i hc; obtain ⟨rfl, rfl⟩ := hc; exact hrel
      · exact h.done y j hj
    · exact h.loc_eq
    · intro y j hjN h1 h2
      simp only [st_upd] at h1 h2
      by_cases hcase : y = x ∧ t < j ∧ (prog t).acc x = some .readwrite
      · obtain ⟨rfl, htj, hw⟩ := hcase
        obtain ⟨e1, e2⟩ := h.holder hheld
        have hval := h.val y t (by omega) e1 e2
        simp only [htN, if_true] at hval
        -- rest of t does not touch y
        have s1 : (Seq.at_ prog loc store t (prog t).ops.length).2 y = (Seq.at_ prog loc store t (s.pc t)).2 y :=
          at_frame (h.pc_le t) (fun m o hm _ ho hwr => by
            have := hrel m o hm ho; rw [hwr] at this; cases this)
        rw [← storeBefore_succ] at s1
        -- no writer between t and j
        have s2 : Seq.storeBefore prog loc store j y = Seq.storeBefore prog loc store (t + 1) y :=
          storeBefore_frame hwf (by omega) hjN (fun k hk1 hk2 hwk => by
            have := h1 k hk2 hwk
            rw [if_neg (by omega)] at this
            have := e2 k (by omega) (by omega) hwk
            simp_all)
        have s3 : (Seq.at_ prog loc store j (if j < N then s.pc j else 0)).2 y
            = (Seq.at_ prog loc store j 0).2 y := by
          refine at_frame (Nat.zero_le _) (fun m o _ hm ho hwr => ?_)
          have hjlt : j < N := by
            by_contra hc; simp [hc] at hm
          simp only [hjlt, if_true] at hm
          have hjw := (acc_of_op (hwf j hjlt) ho).1 hwr
          exact h.past j m o y hm ho (by rw [hwr]; simp) (e2 j htj hjlt hjw)
        rw [s3, at_zero]
        show s.store y = Seq.storeBefore prog loc store j y
        rw [s2, s1, hval]
      · refine h.val y j hjN (fun k hk hw => ?_) (fun k hk hkN hw => ?_)
        · have := h1 k hk hw
          split at this
          · rename_i hc; obtain ⟨rfl, rfl⟩ := hc
            exact absurd ⟨rfl, hk, hw⟩ hcase
          · exact this
        · have := h2 k hk hkN hw
          split at this
          · cases this
          · exact this

theorem inv {prog : Nat → Task X V L} {N : Nat} (hwf : ∀ t, t < N → (prog t).WF) {loc store}
    {s : AState X V L} (h : AReach prog N loc store s) : Inv prog N loc store s := by
  induction h with
  | init => exact inv_init hwf loc store
  | step _ hs ih => exact inv_step hwf ih hs

/-- **Every task sees sequential contents.**  Whenever an action of task `t` runs, in any schedule, its
local state and every tile it accesses have exactly the contents they have at that point of the
sequential execution. -/
theorem C15_sees_sequential_contents {prog : Nat → Task X V L} {N : Nat}
    (hwf : ∀ t, t < N → (prog t).WF) {loc store} {s : AState X V L} (h : AReach prog N loc store s)
    {t : Nat} {o : Op X V L} (ht : t < N) (_ho : (prog t).ops[s.pc t]? = some o)
    (hheld : ∀ x, o.touch x ≠ none → s.st x t = .held) :
    s.loc t = (Seq.at_ prog loc store t (s.pc t)).1 ∧
    ∀ x, o.touch x ≠ none → s.store x = (Seq.at_ prog loc store t (s.pc t)).2 x := by
  have hi := inv hwf h
  refine ⟨hi.loc_eq t, fun x hx => ?_⟩
  obtain ⟨h1, h2⟩ := hi.holder (hheld x hx)
  simpa [ht] using hi.val x t (by omega) h1 h2

/-- **Final contents.**  When all tasks have run, in any schedule, tiles and local results are those of
the sequential execution. -/
theorem C15_final_contents_sequential {prog : Nat → Task X V L} {N : Nat}
    (hwf : ∀ t, t < N → (prog t).WF) {loc store} {s : AState X V L} (h : AReach prog N loc store s)
    (hfin : s.Finished prog N) :
    s.store = Seq.storeBefore prog loc store N ∧
    ∀ t, t < N → s.loc t = (Seq.at_ prog loc store t (prog t).ops.length).1 := by
  have hi := inv hwf h
  constructor
  · funext x
    -- the last task whose write of x is not released yet, or N
    have key : ∀ m, m ≤ N → (∀ j, m ≤ j → j < N → (prog j).acc x = some .readwrite → s.st x j = .waiting) →
        s.store x = Seq.storeBefore prog loc store N x := by
      intro m hm hlater
      have nowrite : ∀ j, j < N → s.st x j = .waiting →
          Seq.storeBefore prog loc store (j + 1) x = Seq.storeBefore prog loc store j x := by
        intro j hj hw
        rw [storeBefore_succ, at_frame (k := 0) (Nat.zero_le _) (fun i o _ hi' ho hwr => ?_), at_zero]
        exact hi.past j i o x (by rw [hfin j hj]; exact hi') ho (by rw [hwr]; simp) hw
      have tail : ∀ j, m ≤ j → j ≤ N →
          Seq.storeBefore prog loc store j x = Seq.storeBefore prog loc store m x := by
        intro j hmj hjN
        induction hmj with
        | refl => rfl
        | @step k hmk ih =>
          rw [← ih (by omega)]
          by_cases hw : (prog k).acc x = some .readwrite
          · exact nowrite k (by omega) (hlater k hmk (by omega) hw)
          · refine storeBefore_frame hwf (Nat.le_succ k) (by omega) (fun t h1 h2 => ?_)
            have : t = k := by omega
            subst this; exact hw
      rw [tail N hm (Nat.le_refl _)]
      clear tail
      induction m with
      | zero =>
        have := hi.val x 0 (by omega) (fun j hj => by omega) (fun j _ hj hw => hlater j (by omega) hj hw)
        rw [this]
        by_cases hN : 0 < N
        · simp only [hN, if_true]
          by_cases hw : (prog 0).acc x = some .readwrite
          · have hwait := hlater 0 (by omega) hN hw
            have := at_frame (prog := prog) (loc := loc) (store := store) (t := 0) (k := 0)
              (k' := s.pc 0) (x := x) (Nat.zero_le _) (fun i o _ hi' ho hwr =>
                hi.past 0 i o x hi' ho (by rw [hwr]; simp) hwait)
            rw [this, at_zero]
          · have := at_frame (prog := prog) (loc := loc) (store := store) (t := 0) (k := 0)
              (k' := s.pc 0) (x := x) (Nat.zero_le _) (fun i o _ hi' ho hwr =>
                hw ((acc_of_op (hwf 0 hN) ho).1 hwr))
            rw [this, at_zero]
        · simp [hN, at_zero]
      | succ m ih =>
        by_cases hw : (prog m).acc x = some .readwrite
        · rcases hst : s.st x m with _ | _ | _
          · -- waiting: does not write
            have ih' := ih (by omega) (fun j h1 h2 h3 => by
              rcases Nat.eq_or_lt_of_le h1 with h4 | h4
              · subst h4; exact hst
              · exact hlater j h4 h2 h3)
            rw [ih']
            exact (nowrite m (by omega) hst).symm
          · -- held
            obtain ⟨h1, h2⟩ := hi.holder hst
            have := hi.val x m (by omega) h1 h2
            rw [this, storeBefore_succ]
            simp only [show m < N by omega, if_true]
            rw [hfin m (by omega)]
          · -- released: all earlier ones are released too
            have hrm := requestsOf_some (N := N) (t := m) (by omega) hw
            have hval := hi.val x (m + 1) hm (fun j hj hwj => by
                rcases Nat.lt_or_eq_of_le (Nat.le_of_lt_succ hj) with h4 | h4
                · exact hi.ord x m (by rw [hst]; decide) j
                    (requestsOf_ne (by omega) (by rw [hwj]; simp)) (groupOf_lt_of_writer h4 hrm)
                · subst h4; exact hst)
              (fun j hj hjN hwj => hlater j (by omega) hjN hwj)
            rw [hval]
            have := at_frame (prog := prog) (loc := loc) (store := store) (t := m + 1) (k := 0)
              (k' := if m + 1 < N then s.pc (m + 1) else 0) (x := x) (Nat.zero_le _)
              (fun i o _ hi' ho hwr => by
                by_cases hN : m + 1 < N
                · simp only [hN, if_true] at hi'
                  have hacc := (acc_of_op (hwf _ hN) ho).1 hwr
                  exact hi.past _ i o x hi' ho (by rw [hwr]; simp) (hlater (m + 1) (by omega) hN hacc)
                · simp [hN] at hi')
            rw [this, at_zero]
        · have ih' := ih (by omega) (fun j h1 h2 h3 => by
            rcases Nat.eq_or_lt_of_le h1 with h4 | h4
            · subst h4; exact absurd h3 hw
            · exact hlater j h4 h2 h3)
          rw [ih']
          exact (storeBefore_frame hwf (Nat.le_succ m) (by omega) (fun t h1 h2 => by
            have : t = m := by omega
            subst this; exact hw)).symm
    exact key N (Nat.le_refl _) (fun j h1 h2 => by omega)
  · intro t ht
    rw [hi.loc_eq t, hfin t ht]

/-- **No deadlock.**  As long as some task has not run to completion, some step is possible. -/
theorem C15_no_deadlock {prog : Nat → Task X V L} {N : Nat} (hwf : ∀ t, t < N → (prog t).WF)
    {loc store} {s : AState X V L} (h : AReach prog N loc store s) (hnf : ¬ s.Finished prog N) :
    ∃ s', AStep prog N s s' := by
  have hi := inv hwf h
  by_contra hno
  -- first unfinished task
  have hex : ∃ t, t < N ∧ s.pc t ≠ (prog t).ops.length := by
    by_contra hc
    exact hnf (fun t ht => by by_contra hc'; exact hc ⟨t, ht, hc'⟩)
  obtain ⟨t, ⟨htN, htpc⟩, hmin⟩ : ∃ t, (t < N ∧ s.pc t ≠ (prog t).ops.length) ∧
      ∀ j, j < t → s.pc j = (prog j).ops.length := by
    classical
    refine ⟨Nat.find hex, Nat.find_spec hex, fun j hj => ?_⟩
    have := Nat.find_min hex hj
    have h2 := (Nat.find_spec hex).1
    by_contra hc; exact this ⟨by omega, hc⟩
  -- all accesses of earlier tasks are released
  have hrel : ∀ j, j < t → ∀ x, (prog j).acc x ≠ none → s.st x j = .released := by
    intro j
    induction j using Nat.strongRecOn with
    | ind j ih =>
      intro hj x hx
      rcases hst : s.st x j with _ | _ | _
      · exfalso
        apply hno
        refine ⟨_, .grant s x j ⟨requestsOf_ne (by omega) hx, hst, fun k hk hlt => ?_⟩⟩
        have hkj : k < j := by
          by_contra hc
          have := groupOf_mono (requestsOf prog N x) (i := j) (j := k) (by omega)
          omega
        have hk' : (prog k).acc x ≠ none := by
          intro hn; apply hk; simp [requestsOf, hn]
        exact ih k hkj (by omega) x hk'
      · exfalso
        apply hno
        refine ⟨_, .release s x j hst (fun k o hk ho => ?_)⟩
        rw [hmin j hj] at hk
        have := (List.getElem?_eq_some_iff.1 ho).1
        omega
      · rfl
  have hlt : s.pc t < (prog t).ops.length := by have := hi.pc_le t; omega
  have ho : (prog t).ops[s.pc t]? = some (prog t).ops[s.pc t] := List.getElem?_eq_getElem hlt
  by_cases hall : ∀ x, ((prog t).ops[s.pc t]).touch x ≠ none → s.st x t = .held
  · exact hno ⟨_, .op s t _ htN ho hall⟩
  · push Not at hall
    obtain ⟨x, hx, hst⟩ := hall
    have hacc := (acc_of_op (hwf t htN) ho).2 hx
    rcases hst' : s.st x t with _ | _ | _
    · refine hno ⟨_, .grant s x t ⟨requestsOf_ne htN hacc, hst', fun k hk hlt => ?_⟩⟩
      have hkj : k < t := by
        by_contra hc
        have := groupOf_mono (requestsOf prog N x) (i := t) (j := k) (by omega)
        omega
      have hk' : (prog k).acc x ≠ none := by
        intro hn; apply hk; simp [requestsOf, hn]
      exact hrel k hkj x hk'
    · exact hst hst'
    · exact hx (hi.done x t hst' _ _ (Nat.le_refl _) ho)

/-- Work left: unexecuted actions and status changes still to come. -/
def work [Fintype X] (prog : Nat → Task X V L) (N : Nat) (s : AState X V L) : Nat :=
  (Finset.range N).sum fun t => ((prog t).ops.length - s.pc t) +
    Finset.univ.sum fun x : X => match s.st x t with | .waiting => 2 | .held => 1 | .released => 0

/-- **Every schedule terminates.**  With finitely many tiles, every step uses up work, so no schedule is
infinite; together with `C15_no_deadlock` every maximal schedule finishes all tasks. -/
theorem C15_terminates [Fintype X] {prog : Nat → Task X V L} {N : Nat} (hwf : ∀ t, t < N → (prog t).WF)
    {loc store} {s s' : AState X V L} (h : AReach prog N loc store s) (hs : AStep prog N s s') :
    work prog N s' < work prog N s := by
  have hi := inv hwf h
  have change : ∀ (x : X) (t : Nat) (v : Status), t < N →
      (match v with | .waiting => 2 | .held => 1 | .released => 0)
        < (match s.st x t with | .waiting => 2 | .held => 1 | .released => 0) →
      work prog N { s with st := upd s.st x (upd (s.st x) t v) } < work prog N s := by
    intro x t v ht hv
    unfold work
    refine Finset.sum_lt_sum (fun j _ => ?_) ⟨t, Finset.mem_range.2 ht, ?_⟩
    · refine Nat.add_le_add_left (Finset.sum_le_sum (fun y _ => ?_)) _
      simp only [st_upd]
      by_cases hc : y = x ∧ j = t
      · obtain ⟨rfl, rfl⟩ := hc
        simp only [and_self, if_true]; exact Nat.le_of_lt hv
      · rw [if_neg hc]
    · refine Nat.add_lt_add_left (Finset.sum_lt_sum (fun y _ => ?_) ⟨x, Finset.mem_univ _, ?_⟩) _
      · simp only [st_upd]
        by_cases hc : y = x ∧ t = t
        · obtain ⟨rfl, _⟩ := hc
          simp only [and_self, if_true]; exact Nat.le_of_lt hv
        · have hc' : ¬ (y = x ∧ True) := fun h => hc ⟨h.1, rfl⟩
          rw [if_neg hc']
      · simp only [st_upd, and_self, if_true]; exact hv
  cases hs with
  | grant x t hg =>
    have ht : t < N ∧ (prog t).acc x ≠ none := by simpa [requestsOf] using hg.1
    exact change x t .held ht.1 (by rw [hg.2.1]; decide)
  | release x t hheld hrel =>
    exact change x t .released (hi.req x t (by rw [hheld]; decide)).1 (by rw [hheld]; decide)
  | op t o htN ho hheld =>
    have hpc : s.pc t < (prog t).ops.length := (List.getElem?_eq_some_iff.1 ho).1
    unfold work
    refine Finset.sum_lt_sum (fun j _ => ?_) ⟨t, Finset.mem_range.2 htN, ?_⟩
    · refine Nat.add_le_add_right ?_ _
      dsimp only
      by_cases hj : j = t
      · subst hj; rw [upd_same]; omega
      · rw [upd_ne _ _ hj]
    · refine Nat.add_lt_add_right ?_ _
      dsimp only
      rw [upd_same]; omega

/-- Non-vacuity: task 0 writes 5 to tile 0, tasks 1 and 2 read tile 0 and add it to their own tile, task 3
writes tile 0 again; all tasks are well formed. -/
def sampleProg : Nat → Task Nat Nat Nat := fun t =>
  if t = 0 then ⟨fun x => if x = 0 then some .readwrite else none,
    [⟨fun x => if x = 0 then some .readwrite else none, fun l _ => (l, fun _ => 5)⟩]⟩
  else if t = 3 then ⟨fun x => if x = 0 then some .readwrite else none,
    [⟨fun x => if x = 0 then some .readwrite else none, fun l s => (l, fun _ => s 0 * 2)⟩]⟩
  else ⟨fun x => if x = 0 then some .read else if x = t then some .readwrite else none,
    [⟨fun x => if x = 0 then some .read else none, fun _ s => (s 0, s)⟩,
     ⟨fun x => if x = t then some .readwrite else none, fun l s => (l, fun x => s x + l)⟩]⟩

example : (∀ t, t < 4 → (sampleProg t).WF) ∧
    (Seq.storeBefore sampleProg (fun _ => 0) (fun _ => 1) 4) 0 = 10 ∧
    (Seq.storeBefore sampleProg (fun _ => 0) (fun _ => 1) 4) 2 = 6 := by
  refine ⟨fun t ht => ?_, by decide, by decide⟩
  have : t = 0 ∨ t = 1 ∨ t = 2 ∨ t = 3 := by omega
  rcases this with rfl | rfl | rfl | rfl <;> intro o ho x <;>
    simp [sampleProg] at ho ⊢ <;> (try rcases ho with rfl | rfl) <;> (try subst ho) <;>
    simp <;> (try constructor) <;> intros <;> (try split) <;> simp_all

end DLAF.C15
