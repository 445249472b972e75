import Verif.Lemmas.Async

/-! # C17: sub-pipelines act as a single access of the parent

Quantified over all parent request sequences `rp`, position `p` of the sub-pipeline's own request, user
requests of the sub-pipeline (whenever they are made) and all schedules (`SubReach`). -/
namespace DLAF.C17
open DLAF

/-- no request is granted before the earlier shared states are released -/
def Ordered (r : Requests) (st : Nat → Status) : Prop :=
  ∀ i, st i ≠ .waiting → r i ≠ none ∧ ∀ j, r j ≠ none → groupOf r j < groupOf r i → st j = .released

theorem Ordered.grant {r : Requests} {st : Nat → Status} (h : Ordered r st) {i : Nat}
    (hg : canGrant r st i) : Ordered r (upd st i .held) := by
  obtain ⟨h1, h2, h3⟩ := hg
  intro k hk
  by_cases hki : k = i
  · subst hki
    refine ⟨h1, fun j hj hlt => ?_⟩
    have hne : j ≠ k := by rintro rfl; omega
    rw [upd_ne _ _ hne]; exact h3 j hj hlt
  · rw [upd_ne _ _ hki] at hk
    obtain ⟨h4, h5⟩ := h k hk
    refine ⟨h4, fun j hj hlt => ?_⟩
    have h6 := h5 j hj hlt
    have hne : j ≠ i := by rintro rfl; rw [h2] at h6; cases h6
    rw [upd_ne _ _ hne]; exact h6

theorem Ordered.release {r : Requests} {st : Nat → Status} (h : Ordered r st) {i : Nat}
    (hi : st i = .held) : Ordered r (upd st i .released) := by
  intro k hk
  have hk' : st k ≠ .waiting := by
    by_cases hki : k = i
    · subst hki; rw [hi]; decide
    · rwa [upd_ne _ _ hki] at hk
  obtain ⟨h4, h5⟩ := h k hk'
  refine ⟨h4, fun j hj hlt => ?_⟩
  by_cases hji : j = i
  · subst hji; rw [upd_same]
  · rw [upd_ne _ _ hji]; exact h5 j hj hlt

theorem Ordered.init (r : Requests) : Ordered r (fun _ => .waiting) := by
  intro i h; exact absurd rfl h

/-- before a writer that is not waiting, everything is released -/
theorem Ordered.before_writer {r : Requests} {st : Nat → Status} (h : Ordered r st) {w j : Nat}
    (hw : r w = some .readwrite) (hst : st w ≠ .waiting) (hj : j < w) (hr : r j ≠ none) :
    st j = .released :=
  (h w hst).2 j hr (groupOf_lt_of_writer hj hw)

/-- after a writer that is not released, everything is waiting -/
theorem Ordered.after_writer {r : Requests} {st : Nat → Status} (h : Ordered r st) {w j : Nat}
    (hw : r w = some .readwrite) (hst : st w ≠ .released) (hj : w < j) : st j = .waiting := by
  by_contra hc
  obtain ⟨h1, h2⟩ := h j hc
  exact hst (h2 w (by simp [hw]) (groupOf_lt_of_prev_writer hj hw h1))

/-! ### `Pipeline::sub_pipeline` -/

structure Inv {V : Type} (rp : Requests) (p : Nat) (user : Nat → Access) (n : Nat) (s : SubState V) :
    Prop where
  parOrd : Ordered rp s.par
  subOrd : Ordered (subRequests user n) s.sub
  notOpened : s.opened = false → s.par p ≠ .released ∧ s.sub 0 ≠ .released ∧ s.closed = false
  openNotClosed : s.opened = true → s.closed = false → s.par p = .held ∧ s.sub (n + 1) ≠ .released
  isClosed : s.closed = true → s.opened = true ∧ s.par p = .released ∧ s.sub (n + 1) = .released
  /-- the value is in exactly one of the two pipelines -/
  value : if s.opened = true ∧ s.closed = false then s.parVal = none ∧ s.subVal.isSome
    else s.parVal.isSome ∧ s.subVal = none

variable {V : Type} {rp : Requests} {p : Nat} {user : Nat → Access} {n : Nat} {v0 : V}

theorem subReq_zero : subRequests user n 0 = some .readwrite := by simp [subRequests]
theorem subReq_last : subRequests user n (n + 1) = some .readwrite := by
  simp [subRequests]; omega
theorem subReq_user {i : Nat} (h : i ≤ n) : subRequests user n i ≠ none := by
  unfold subRequests; split
  · simp
  · simp [h]

theorem inv (_hp : rp p = some .readwrite) {s : SubState V} (h : SubReach rp p user n v0 s) :
    Inv rp p user n s := by
  induction h with
  | init => exact ⟨Ordered.init _, Ordered.init _, by simp, by simp, by simp, by simp⟩
  | @step s s' hr hs ih =>
    obtain ⟨a1, a2, a3, a4, a5, a6⟩ := ih
    cases hs with
    | parGrant i hg =>
      refine ⟨a1.grant hg, a2, fun h => ?_, fun h1 h2 => ?_, fun h => ?_, a6⟩ <;> dsimp only at *
      · obtain ⟨b1, b2⟩ := a3 h
        refine ⟨?_, b2⟩
        by_cases hi : p = i
        · subst hi; rw [upd_same]; decide
        · rwa [upd_ne _ _ hi]
      · obtain ⟨b1, b2⟩ := a4 h1 h2
        refine ⟨?_, b2⟩
        by_cases hi : p = i
        · subst hi; rw [upd_same]
        · rwa [upd_ne _ _ hi]
      · obtain ⟨b1, b2, b3⟩ := a5 h
        refine ⟨b1, ?_, b3⟩
        by_cases hi : p = i
        · subst hi; rw [hg.2.1] at b2; cases b2
        · rwa [upd_ne _ _ hi]
    | parRelease i hi hh =>
      have hne : p ≠ i := fun h => hi h.symm
      refine ⟨a1.release hh, a2, fun h => ?_, fun h1 h2 => ?_, fun h => ?_, a6⟩ <;> dsimp only at * <;>
        rw [upd_ne _ _ hne]
      · exact a3 h
      · exact a4 h1 h2
      · exact a5 h
    | parWrite i v hi hh hw hv =>
      refine ⟨a1, a2, a3, a4, a5, ?_⟩
      dsimp only at *
      split at a6
      · rw [a6.1] at hv; cases hv
      · rename_i hc; rw [if_neg hc]; exact ⟨rfl, a6.2⟩
    | subGrant i hg =>
      refine ⟨a1, a2.grant hg, fun h => ?_, fun h1 h2 => ?_, fun h => ?_, a6⟩ <;> dsimp only at *
      · obtain ⟨b1, b2, b3⟩ := a3 h
        refine ⟨b1, ?_, b3⟩
        by_cases hi : 0 = i
        · subst hi; rw [upd_same]; decide
        · rwa [upd_ne _ _ hi]
      · obtain ⟨b1, b2⟩ := a4 h1 h2
        refine ⟨b1, ?_⟩
        by_cases hi : n + 1 = i
        · subst hi; rw [upd_same]; decide
        · rwa [upd_ne _ _ hi]
      · obtain ⟨b1, b2, b3⟩ := a5 h
        refine ⟨b1, b2, ?_⟩
        by_cases hi : n + 1 = i
        · subst hi; rw [hg.2.1] at b3; cases b3
        · rwa [upd_ne _ _ hi]
    | subRelease i h1 h2 hh =>
      refine ⟨a1, a2.release hh, fun h => ?_, fun h3 h4 => ?_, fun h => ?_, a6⟩ <;> dsimp only at *
      · rw [upd_ne _ _ (show 0 ≠ i by omega)]; exact a3 h
      · rw [upd_ne _ _ (show n + 1 ≠ i by omega)]; exact a4 h3 h4
      · rw [upd_ne _ _ (show n + 1 ≠ i by omega)]; exact a5 h
    | subWrite i v h1 h2 hh hw hv =>
      refine ⟨a1, a2, a3, a4, a5, ?_⟩
      dsimp only at *
      split at a6
      · rename_i hc; rw [if_pos hc]; exact ⟨a6.1, rfl⟩
      · rw [a6.2] at hv; cases hv
    | openSub hp' h0 ho =>
      obtain ⟨b1, b2, b3⟩ := a3 ho
      refine ⟨a1, a2.release h0, by simp, fun _ _ => ?_, fun h => ?_, ?_⟩ <;> dsimp only at *
      · refine ⟨hp', ?_⟩
        rw [upd_ne _ _ (show n + 1 ≠ 0 by omega)]
        have := a2.after_writer (w := 0) (j := n + 1) subReq_zero b2 (by omega)
        rw [this]; decide
      · rw [b3] at h; cases h
      · rw [b3]; simp only [and_self, if_true]
        rw [ho] at a6
        exact ⟨trivial, a6.1⟩
    | closeSub hn ho hc =>
      obtain ⟨b1, b2⟩ := a4 ho hc
      refine ⟨a1.release b1, a2.release hn, fun h => ?_, fun _ h => ?_, fun _ => ?_, ?_⟩ <;> dsimp only at *
      · rw [ho] at h; cases h
      · cases h
      · exact ⟨ho, upd_same _ _ _, upd_same _ _ _⟩
      · rw [ho, hc] at a6
        simpa using a6.2

/-- **After earlier, before later parent accesses.**  While any user access of the sub-pipeline is held,
every access requested on the parent before the sub-pipeline was created is released and every access
requested on the parent afterwards still waits. -/
theorem C17_sub_access_between_parent_accesses (hp : rp p = some .readwrite) {s : SubState V}
    (h : SubReach rp p user n v0 s) {i : Nat} (h1 : 1 ≤ i) (h2 : i ≤ n) (hheld : s.sub i = .held) :
    (∀ j, j < p → rp j ≠ none → s.par j = .released) ∧ (∀ j, p < j → s.par j = .waiting) := by
  have hi := inv hp h
  have hopen : s.opened = true := by
    by_contra hc
    have hc : s.opened = false := by simpa using hc
    have := hi.subOrd.after_writer (w := 0) (j := i) subReq_zero (hi.notOpened hc).2.1 (by omega)
    rw [hheld] at this; cases this
  have hnc : s.closed = false := by
    by_contra hc
    have hc : s.closed = true := by simpa using hc
    have h3 := (hi.isClosed hc).2.2
    have := hi.subOrd.before_writer (w := n + 1) (j := i) subReq_last (by rw [h3]; decide) (by omega)
      (subReq_user h2)
    rw [hheld] at this; cases this
  have hpar := (hi.openNotClosed hopen hnc).1
  exact ⟨fun j hj hr => hi.parOrd.before_writer hp (by rw [hpar]; decide) hj hr,
    fun j hj => hi.parOrd.after_writer hp (by rw [hpar]; decide) hj⟩

/-- **Later parent accesses come after every sub-pipeline access**: once an access requested on the
parent after the sub-pipeline's creation has been granted, all accesses of the sub-pipeline are
released (whenever they were requested). -/
theorem C17_later_parent_access_after_sub (hp : rp p = some .readwrite) {s : SubState V}
    (h : SubReach rp p user n v0 s) {j : Nat} (hj : p < j) (hst : s.par j ≠ .waiting) :
    ∀ i, 1 ≤ i → i ≤ n → s.sub i = .released := by
  have hi := inv hp h
  have hpr : s.par p = .released := by
    by_contra hc
    exact hst (hi.parOrd.after_writer hp hc hj)
  have hcl : s.closed = true := by
    by_contra hc
    have hc : s.closed = false := by simpa using hc
    cases ho : s.opened
    · exact (hi.notOpened ho).1 hpr
    · have := (hi.openNotClosed ho hc).1; rw [hpr] at this; cases this
  intro i h1 h2
  refine hi.subOrd.before_writer (w := n + 1) subReq_last (by rw [(hi.isClosed hcl).2.2]; decide)
    (by omega) (subReq_user h2)

/-- **Earlier parent accesses come before every sub-pipeline access**: while an access requested on the
parent before the creation of the sub-pipeline is not released, no access of the sub-pipeline has been
granted. -/
theorem C17_earlier_parent_access_before_sub (hp : rp p = some .readwrite) {s : SubState V}
    (h : SubReach rp p user n v0 s) {j : Nat} (hj : j < p) (hr : rp j ≠ none)
    (hst : s.par j ≠ .released) : ∀ i, 1 ≤ i → i ≤ n → s.sub i = .waiting := by
  have hi := inv hp h
  have hpw : s.par p = .waiting := by
    by_contra hc
    exact hst (hi.parOrd.before_writer hp hc hj hr)
  have hno : s.opened = false := by
    by_contra hc
    have ho : s.opened = true := by simpa using hc
    cases hcl : s.closed
    · have := (hi.openNotClosed ho hcl).1; rw [hpw] at this; cases this
    · have := (hi.isClosed hcl).2.1; rw [hpw] at this; cases this
  intro i h1 _
  exact hi.subOrd.after_writer (w := 0) subReq_zero (hi.notOpened hno).2.1 (by omega)

/-- **The resource is where the access is**: a user access held on the sub-pipeline finds the resource
there, an access held on the parent finds it in the parent, and never in both. -/
theorem C17_holder_finds_resource (hp : rp p = some .readwrite) {s : SubState V}
    (h : SubReach rp p user n v0 s) :
    (∀ i, 1 ≤ i → i ≤ n → s.sub i = .held → s.subVal.isSome ∧ s.parVal = none) ∧
    (∀ j, j ≠ p → s.par j = .held → s.parVal.isSome ∧ s.subVal = none) := by
  have hi := inv hp h
  refine ⟨fun i h1 h2 hh => ?_, fun j hj hh => ?_⟩
  · have ⟨e1, e2⟩ := C17_sub_access_between_parent_accesses hp h h1 h2 hh
    have hopen : s.opened = true := by
      by_contra hc
      have hc : s.opened = false := by simpa using hc
      have := hi.subOrd.after_writer (w := 0) (j := i) subReq_zero (hi.notOpened hc).2.1 (by omega)
      rw [hh] at this; cases this
    have hnc : s.closed = false := by
      by_contra hc
      have hc : s.closed = true := by simpa using hc
      have h3 := (hi.isClosed hc).2.2
      have := hi.subOrd.before_writer (w := n + 1) (j := i) subReq_last (by rw [h3]; decide) (by omega)
        (subReq_user h2)
      rw [hh] at this; cases this
    have := hi.value
    rw [hopen, hnc] at this
    simpa [and_comm] using this
  · have hv := hi.value
    rw [if_neg] at hv
    · exact hv
    · rintro ⟨ho, hc⟩
      have hpar := (hi.openNotClosed ho hc).1
      rcases Nat.lt_or_gt_of_ne hj with h3 | h3
      · have := hi.parOrd.before_writer hp (by rw [hpar]; decide) h3 (hi.parOrd j (by rw [hh]; decide)).1
        rw [hh] at this; cases this
      · have := hi.parOrd.after_writer hp (by rw [hpar]; decide) h3
        rw [hh] at this; cases this

/-- **The value passes through unchanged**: no step other than a write by a holder of a `readwrite` access
changes the value of the resource (so the first sub-pipeline access sees what the last earlier parent
access left, and the first later parent access sees what the last sub-pipeline access left). -/
theorem C17_value_preserved (hp : rp p = some .readwrite) {s s' : SubState V}
    (h : SubReach rp p user n v0 s) (hs : SubStep rp p user n s s') :
    s'.parVal.or s'.subVal = s.parVal.or s.subVal ∨
    (∃ j v, j ≠ p ∧ s.par j = .held ∧ rp j = some .readwrite ∧ s'.parVal.or s'.subVal = some v) ∨
    (∃ i v, 1 ≤ i ∧ i ≤ n ∧ s.sub i = .held ∧ user i = .readwrite ∧ s'.parVal.or s'.subVal = some v) := by
  have hi := inv hp h
  cases hs with
  | parGrant i hg => exact .inl rfl
  | parRelease i hi hh => exact .inl rfl
  | parWrite i v hi hh hw hv => exact .inr (.inl ⟨i, v, hi, hh, hw, rfl⟩)
  | subGrant i hg => exact .inl rfl
  | subRelease i h1 h2 hh => exact .inl rfl
  | subWrite i v h1 h2 hh hw hv =>
    refine .inr (.inr ⟨i, v, h1, h2, hh, hw, ?_⟩)
    have := (C17_holder_finds_resource hp h).1 i h1 h2 hh
    simp [this.2]
  | openSub hp' h0 ho =>
    left
    have := hi.value
    rw [ho] at this
    have hv : s.subVal = none := (by simpa using this : _ ∧ _).2
    simp [hv]
  | closeSub hn ho hc =>
    left
    have := hi.value
    rw [ho, hc] at this
    have hv : s.parVal = none := (by simpa using this : _ ∧ _).1
    simp [hv]

/-- Parent: writer 0, the sub-pipeline's request 1, reader 2. -/
def samplePar : Requests := fun i =>
  if i = 0 then some .readwrite else if i = 1 then some .readwrite else if i = 2 then some .read else none

/-- Non-vacuity: a reachable state in which the sub-pipeline's user holds the resource. -/
example : ∃ s : SubState Nat, SubReach samplePar 1 (fun _ => .read) 1 7 s ∧ s.sub 1 = .held ∧
    s.par 0 = .released ∧ s.par 2 = .waiting ∧ s.subVal = some 8 := by
  have g0 : canGrant samplePar (fun _ => .waiting) 0 :=
    ⟨by decide, rfl, fun j _ hlt => by
      have := groupOf_mono samplePar (Nat.zero_le j); omega⟩
  have r1 := SubReach.init (V := Nat) (rp := samplePar) (p := 1) (user := fun _ => .read) (n := 1) (v0 := 7)
  have r2 := r1.step (.parGrant _ 0 g0)
  have r3 := r2.step (.parWrite _ 0 8 (by decide) (by simp [upd]) (by decide) rfl)
  have r4 := r3.step (.parRelease _ 0 (by decide) (by simp [upd]))
  have r5 := r4.step (.parGrant _ 1 ⟨by decide, by simp [upd], fun j hj hlt => by
    have hj0 : j = 0 := by
      by_contra hc
      have := groupOf_mono samplePar (i := 1) (j := j) (by omega); omega
    subst hj0; simp [upd]⟩)
  have r6 := r5.step (.subGrant _ 0 ⟨by decide, rfl, fun j _ hlt => by
    have := groupOf_mono (subRequests (fun _ => .read) 1) (Nat.zero_le j); omega⟩)
  have r7 := r6.step (.openSub _ (by simp [upd]) (by simp [upd]) rfl)
  have r8 := r7.step (.subGrant _ 1 ⟨by decide, by simp [upd], fun j hj hlt => by
    have hj0 : j = 0 := by
      by_contra hc
      have := groupOf_mono (subRequests (fun _ => .read) 1) (i := 1) (j := j) (by omega); omega
    subst hj0; simp [upd]⟩)
  exact ⟨_, r8, by simp [upd], by simp [upd], by simp [upd], rfl⟩

/-! ### sub-pipelined and retiled matrices -/

structure MInv {I : Type} (rp : Requests) (p : Nat) (user : I → Nat → Access) (n : I → Nat)
    (s : MSubState I) : Prop where
  parOrd : Ordered rp s.par
  subOrd : ∀ k, Ordered (msubRequests (user k) (n k)) (s.sub k)
  notFilled : ∀ k, s.filled k = false → s.sub k 0 ≠ .released
  isFilled : ∀ k, s.filled k = true → s.par p ≠ .waiting
  isDestroyed : ∀ k, s.destroyed k = true → ∀ i, i ≤ n k → s.sub k i = .released
  parReleased : s.par p = .released → ∀ k, s.destroyed k = true

theorem msubReq_zero {user : Nat → Access} {n : Nat} : msubRequests user n 0 = some .readwrite := by
  simp [msubRequests]

theorem minv {I : Type} [DecidableEq I] {user : I → Nat → Access} {n : I → Nat} {s : MSubState I}
    (h : MSubReach rp p user n s) : MInv rp p user n s := by
  induction h with
  | init => exact ⟨Ordered.init _, fun _ => Ordered.init _, by simp, by simp, by simp, by simp⟩
  | @step s s' hr hs ih =>
    obtain ⟨a1, a2, a3, a4, a5, a6⟩ := ih
    cases hs with
    | parGrant i hg =>
      refine ⟨a1.grant hg, a2, a3, fun k hk => ?_, a5, fun hrel => ?_⟩ <;> dsimp only at *
      · by_cases hi : p = i
        · subst hi; rw [upd_same]; decide
        · rw [upd_ne _ _ hi]; exact a4 k hk
      · by_cases hi : p = i
        · subst hi; rw [upd_same] at hrel; cases hrel
        · rw [upd_ne _ _ hi] at hrel; exact a6 hrel
    | parRelease i hi hh =>
      have hne : p ≠ i := fun h => hi h.symm
      refine ⟨a1.release hh, a2, a3, fun k hk => ?_, a5, fun hrel => ?_⟩ <;> dsimp only at *
      · rw [upd_ne _ _ hne]; exact a4 k hk
      · rw [upd_ne _ _ hne] at hrel; exact a6 hrel
    | subGrant k i hg =>
      refine ⟨a1, fun k' => ?_, fun k' hk => ?_, a4, fun k' hk i' hi' => ?_, a6⟩ <;> dsimp only at *
      · by_cases h : k' = k
        · subst h; rw [upd_same]; exact (a2 k').grant hg
        · rw [upd_ne _ _ h]; exact a2 k'
      · by_cases h : k' = k
        · subst h; rw [upd_same]
          by_cases h0 : 0 = i
          · subst h0; rw [upd_same]; decide
          · rw [upd_ne _ _ h0]; exact a3 k' hk
        · rw [upd_ne _ _ h]; exact a3 k' hk
      · by_cases h : k' = k
        · subst h; rw [upd_same]
          by_cases h0 : i' = i
          · subst h0; have := a5 k' hk i' hi'; rw [hg.2.1] at this; cases this
          · rw [upd_ne _ _ h0]; exact a5 k' hk i' hi'
        · rw [upd_ne _ _ h]; exact a5 k' hk i' hi'
    | subRelease k i h1 hh =>
      refine ⟨a1, fun k' => ?_, fun k' hk => ?_, a4, fun k' hk i' hi' => ?_, a6⟩ <;> dsimp only at *
      · by_cases h : k' = k
        · subst h; rw [upd_same]; exact (a2 k').release hh
        · rw [upd_ne _ _ h]; exact a2 k'
      · by_cases h : k' = k
        · subst h; rw [upd_same, upd_ne _ _ (show 0 ≠ i by omega)]; exact a3 k' hk
        · rw [upd_ne _ _ h]; exact a3 k' hk
      · by_cases h : k' = k
        · subst h; rw [upd_same]
          by_cases h0 : i' = i
          · subst h0; rw [upd_same]
          · rw [upd_ne _ _ h0]; exact a5 k' hk i' hi'
        · rw [upd_ne _ _ h]; exact a5 k' hk i' hi'
    | fill k hp' h0 hf =>
      refine ⟨a1, fun k' => ?_, fun k' hk => ?_, fun k' _ => ?_, fun k' hk i' hi' => ?_, a6⟩ <;>
        dsimp only at *
      · by_cases h : k' = k
        · subst h; rw [upd_same]; exact (a2 k').release h0
        · rw [upd_ne _ _ h]; exact a2 k'
      · by_cases h : k' = k
        · subst h; rw [upd_same] at hk; cases hk
        · rw [upd_ne _ _ h] at hk ⊢; exact a3 k' hk
      · rw [hp']; decide
      · by_cases h : k' = k
        · subst h; rw [upd_same]
          by_cases h0 : i' = 0
          · subst h0; rw [upd_same]
          · rw [upd_ne _ _ h0]; exact a5 k' hk i' hi'
        · rw [upd_ne _ _ h]; exact a5 k' hk i' hi'
    | destroy k hd =>
      refine ⟨a1, a2, a3, a4, fun k' hk => ?_, fun hrel k' => ?_⟩ <;> dsimp only at *
      · by_cases h : k' = k
        · subst h; exact hd
        · rw [upd_ne _ _ h] at hk; exact a5 k' hk
      · by_cases h : k' = k
        · subst h; rw [upd_same]
        · rw [upd_ne _ _ h]; exact a6 hrel k'
    | parFree hp' hd =>
      refine ⟨a1.release hp', a2, a3, fun k hk => ?_, a5, fun _ => hd⟩
      dsimp only at *
      rw [upd_same]; decide

/-- **Sub-pipelined and retiled matrices.**  While any access to a (new) tile made from a parent tile is
held, all accesses requested on the parent tile before the sub-matrix was created are released and all
those requested afterwards wait; and once one of the latter is granted, all accesses of every such tile
are released. -/
theorem C17_matrix_sub_pipelines {I : Type} [DecidableEq I] {user : I → Nat → Access} {n : I → Nat}
    (hp : rp p = some .readwrite) {s : MSubState I} (h : MSubReach rp p user n s) :
    (∀ k i, 1 ≤ i → i ≤ n k → s.sub k i = .held →
      (∀ j, j < p → rp j ≠ none → s.par j = .released) ∧ (∀ j, p < j → s.par j = .waiting)) ∧
    (∀ j, p < j → s.par j ≠ .waiting → ∀ k i, i ≤ n k → s.sub k i = .released) := by
  have hi := minv h
  refine ⟨fun k i h1 h2 hh => ?_, fun j hj hst => ?_⟩
  · have hfilled : s.filled k = true := by
      by_contra hc
      have hc : s.filled k = false := by simpa using hc
      have := (hi.subOrd k).after_writer (w := 0) (j := i) msubReq_zero (hi.notFilled k hc) (by omega)
      rw [hh] at this; cases this
    have hnw := hi.isFilled k hfilled
    have hnr : s.par p ≠ .released := by
      intro hc
      have := hi.isDestroyed k (hi.parReleased hc k) i h2
      rw [hh] at this; cases this
    exact ⟨fun j hj hr => hi.parOrd.before_writer hp hnw hj hr,
      fun j hj => hi.parOrd.after_writer hp hnr hj⟩
  · have hpr : s.par p = .released := by
      by_contra hc
      exact hst (hi.parOrd.after_writer hp hc hj)
    exact fun k i hik => hi.isDestroyed k (hi.parReleased hpr k) i hik

/-- Non-vacuity: a tile split in two, both halves accessed at the same time by writers. -/
example : ∃ s : MSubState Bool, MSubReach samplePar 0 (fun _ _ => .readwrite) (fun _ => 1) s ∧
    s.sub true 1 = .held ∧ s.sub false 1 = .held ∧ s.par 2 = .waiting := by
  have g0 : ∀ {r : Requests} {st : Nat → Status}, r 0 ≠ none → st 0 = .waiting → canGrant r st 0 :=
    fun {r st} h1 h2 => ⟨h1, h2, fun j _ hlt => by have := groupOf_mono r (Nat.zero_le j); omega⟩
  have g1 : ∀ {r : Requests} {st : Nat → Status}, r 1 ≠ none → st 1 = .waiting → st 0 = .released →
      canGrant r st 1 :=
    fun {r st} h1 h2 h3 => ⟨h1, h2, fun j hj hlt => by
      have hj0 : j = 0 := by
        by_contra hc
        have := groupOf_mono r (i := 1) (j := j) (by omega); omega
      subst hj0; exact h3⟩
  have r1 := MSubReach.init (I := Bool) (rp := samplePar) (p := 0) (user := fun _ _ => .readwrite)
    (n := fun _ => 1)
  have r2 := r1.step (.parGrant _ 0 (g0 (by decide) rfl))
  have r3 := r2.step (.subGrant _ true 0 (g0 (by decide) rfl))
  have r4 := r3.step (.subGrant _ false 0 (g0 (by decide) (by simp [upd])))
  have r5 := r4.step (.fill _ true (by simp [upd]) (by simp [upd]) rfl)
  have r6 := r5.step (.fill _ false (by simp [upd]) (by simp [upd]) (by simp [upd]))
  have r7 := r6.step (.subGrant _ true 1 (g1 (by decide) (by simp [upd]) (by simp [upd])))
  have r8 := r7.step (.subGrant _ false 1 (g1 (by decide) (by simp [upd]) (by simp [upd])))
  exact ⟨_, r8, by simp [upd], by simp [upd], by simp [upd]⟩

end DLAF.C17
