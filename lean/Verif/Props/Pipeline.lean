import Verif.Lemmas.Async

/-! # C16: tile pipelines grant many readers or one writer, in request order

Every theorem ranges over all request sequences `r`, and all histories (`PReach`): any interleaving of
grants, releases and destruction of requests that were never used. -/
namespace DLAF.C16
open DLAF

/-- Invariant: a held request is a request, and everything in earlier shared states is released. -/
theorem inv {r : Requests} {st : Nat → Status} (h : PReach r st) :
    ∀ i, st i = .held → r i ≠ none ∧ ∀ j, r j ≠ none → groupOf r j < groupOf r i → st j = .released := by
  induction h with
  | init => intro i hi; simp at hi
  | @step st st' hr hs ih =>
    cases hs with
    | grant i hg =>
      intro k hk
      obtain ⟨h1, h2, h3⟩ := hg
      by_cases hki : k = i
      · subst hki
        refine ⟨h1, fun j hj hlt => ?_⟩
        have hne : j ≠ k := by rintro rfl; omega
        rw [upd_ne _ _ hne]; exact h3 j hj hlt
      · rw [upd_ne _ _ hki] at hk
        obtain ⟨h4, h5⟩ := ih k hk
        refine ⟨h4, fun j hj hlt => ?_⟩
        have h6 := h5 j hj hlt
        have hne : j ≠ i := by rintro rfl; rw [h2] at h6; cases h6
        rw [upd_ne _ _ hne]; exact h6
    | release i hi =>
      intro k hk
      by_cases hki : k = i
      · subst hki; rw [upd_same] at hk; cases hk
      · rw [upd_ne _ _ hki] at hk
        obtain ⟨h4, h5⟩ := ih k hk
        refine ⟨h4, fun j hj hlt => ?_⟩
        by_cases hji : j = i
        · subst hji; rw [upd_same]
        · rw [upd_ne _ _ hji]; exact h5 j hj hlt
    | drop i hri hi =>
      intro k hk
      by_cases hki : k = i
      · subst hki; rw [upd_same] at hk; cases hk
      · rw [upd_ne _ _ hki] at hk
        obtain ⟨h4, h5⟩ := ih k hk
        refine ⟨h4, fun j hj hlt => ?_⟩
        by_cases hji : j = i
        · subst hji; rw [upd_same]
        · rw [upd_ne _ _ hji]; exact h5 j hj hlt

/-- **Many readers or one writer.** Two requests held at the same time are both reads. -/
theorem C16_exclusive {r : Requests} {st : Nat → Status} (h : PReach r st) {i j : Nat} (hij : i ≠ j)
    (hi : st i = .held) (hj : st j = .held) : r i = some .read ∧ r j = some .read := by
  have key : ∀ a b, a < b → st a = .held → st b = .held → r a = some .read ∧ r b = some .read := by
    intro a b hab ha hb
    obtain ⟨ra, _⟩ := inv h a ha
    obtain ⟨rb, hb'⟩ := inv h b hb
    have hn : ¬ groupOf r a < groupOf r b := by
      intro hc; rw [hb' a ra hc] at ha; cases ha
    rw [groupOf_lt_iff ra rb] at hn
    have hno : ∀ k, a ≤ k → k ≤ b → r k ≠ some .readwrite := fun k h1 h2 h3 => hn ⟨hab, k, h1, h2, h3⟩
    have t1 := hno a (Nat.le_refl _) (by omega)
    have t2 := hno b (by omega) (Nat.le_refl _)
    constructor
    · rcases hr : r a with _ | c
      · exact absurd hr ra
      · cases c
        · rfl
        · exact absurd hr t1
    · rcases hr : r b with _ | c
      · exact absurd hr rb
      · cases c
        · rfl
        · exact absurd hr t2
  rcases Nat.lt_or_gt_of_ne hij with h1 | h1
  · exact key i j h1 hi hj
  · exact (key j i h1 hj hi).symm

/-- **A writer is granted only after all earlier requests are released.** -/
theorem C16_writer_after_all_earlier {r : Requests} {st : Nat → Status} (h : PReach r st) {i : Nat}
    (hi : st i = .held) (hw : r i = some .readwrite) {j : Nat} (hji : j < i) (hj : r j ≠ none) :
    st j = .released :=
  (inv h i hi).2 j hj (groupOf_lt_of_writer hji hw)

/-- **A reader is granted only after all earlier writers are released**, and everything requested before
those writers too. -/
theorem C16_reader_after_earlier_writers {r : Requests} {st : Nat → Status} (h : PReach r st) {i : Nat}
    (hi : st i = .held) {w : Nat} (hw : r w = some .readwrite) (hwi : w < i) :
    st w = .released ∧ ∀ j, j < w → r j ≠ none → st j = .released := by
  obtain ⟨ri, hi'⟩ := inv h i hi
  refine ⟨hi' w (by simp [hw]) (groupOf_lt_of_prev_writer hwi hw ri), fun j hj hr => ?_⟩
  exact hi' j hr (by
    rw [groupOf_lt_iff hr ri]
    exact ⟨by omega, w, by omega, by omega, hw⟩)

/-- **Exactly when a request can be granted**: it has not been granted yet, and every earlier request
separated from it by a writer (one of the two itself, or one in between) is released.  In particular
reads requested one after the other never wait for each other. -/
theorem C16_grant_iff {r : Requests} {st : Nat → Status} {i : Nat} (hi : r i ≠ none) :
    canGrant r st i ↔ st i = .waiting ∧ ∀ j, j < i → r j ≠ none →
      (∃ k, j ≤ k ∧ k ≤ i ∧ r k = some .readwrite) → st j = .released := by
  constructor
  · rintro ⟨_, h2, h3⟩
    exact ⟨h2, fun j hj hr hk => h3 j hr ((groupOf_lt_iff hr hi).2 ⟨hj, hk⟩)⟩
  · rintro ⟨h1, h2⟩
    refine ⟨hi, h1, fun j hr hlt => ?_⟩
    obtain ⟨hj, hk⟩ := (groupOf_lt_iff hr hi).1 hlt
    exact h2 j hj hr hk

/-- **Progress**: a request that waits can be granted as soon as the earlier requests are released. -/
theorem C16_progress {r : Requests} {st : Nat → Status} {i : Nat} (hi : r i ≠ none)
    (hw : st i = .waiting) (hall : ∀ j, j < i → r j ≠ none → st j = .released) : canGrant r st i :=
  (C16_grant_iff hi).2 ⟨hw, fun j hj hr _ => hall j hj hr⟩

/-- Steps a pipeline makes without anybody giving up a request: grants and releases. -/
inductive Runs (r : Requests) : (Nat → Status) → (Nat → Status) → Prop
  | refl (st) : Runs r st st
  | grant {st st'} (i) : Runs r st st' → canGrant r st' i → Runs r st (upd st' i .held)
  | release {st st'} (i) : Runs r st st' → st' i = .held → Runs r st (upd st' i .released)

theorem Runs.reach {r : Requests} {st st' : Nat → Status} (h : PReach r st) (hr : Runs r st st') :
    PReach r st' := by
  induction hr with
  | refl => exact h
  | grant i _ hg ih => exact .step ih (.grant _ i hg)
  | release i _ hi ih => exact .step ih (.release _ i hi)

/-- From any state the requests before `i` can be served one after the other, leaving the others as they
are. -/
theorem drain {r : Requests} {st : Nat → Status} : ∀ i, ∃ st', Runs r st st' ∧
    (∀ j, j < i → r j ≠ none → st' j = .released) ∧ (∀ j, i ≤ j → st' j = st j) := by
  intro i
  induction i with
  | zero => exact ⟨st, .refl _, by simp, by simp⟩
  | succ i ih =>
    obtain ⟨s1, h1, h2, h3⟩ := ih
    by_cases hri : r i = none
    · refine ⟨s1, h1, fun j hj hr => ?_, fun j hj => h3 j (by omega)⟩
      rcases Nat.lt_or_eq_of_le (Nat.le_of_lt_succ hj) with h | h
      · exact h2 j h hr
      · subst h; exact absurd hri hr
    · -- bring i to held, then release it
      rcases hs : s1 i with _ | _ | _
      · have hg := C16_progress hri hs h2
        have hh : upd s1 i .held i = .held := upd_same _ _ _
        refine ⟨_, (h1.grant i hg).release i hh, fun j hj hr => ?_, fun j hj => ?_⟩
        · by_cases hji : j = i
          · subst hji; rw [upd_same]
          · rw [upd_ne _ _ hji, upd_ne _ _ hji]; exact h2 j (by omega) hr
        · rw [upd_ne _ _ (by omega), upd_ne _ _ (by omega)]; exact h3 j (by omega)
      · refine ⟨_, h1.release i hs, fun j hj hr => ?_, fun j hj => ?_⟩
        · by_cases hji : j = i
          · subst hji; rw [upd_same]
          · rw [upd_ne _ _ hji]; exact h2 j (by omega) hr
        · rw [upd_ne _ _ (by omega)]; exact h3 j (by omega)
      · refine ⟨s1, h1, fun j hj hr => ?_, fun j hj => h3 j (by omega)⟩
        rcases Nat.lt_or_eq_of_le (Nat.le_of_lt_succ hj) with h | h
        · exact h2 j h hr
        · subst h; exact hs

/-- **No deadlock**: from every state, any waiting request is granted after finitely many grants and
releases of the requests before it (nobody has to give up a request). -/
theorem C16_every_request_grantable {r : Requests} {st : Nat → Status} {i : Nat}
    (hi : r i ≠ none) (hw : st i = .waiting) :
    ∃ st', Runs r st st' ∧ st' i = .held ∧ ∀ j, i < j → st' j = st j := by
  obtain ⟨s1, h1, h2, h3⟩ := drain (r := r) (st := st) i
  have hs : s1 i = .waiting := (h3 i (Nat.le_refl _)).trans hw
  exact ⟨_, h1.grant i (C16_progress hi hs h2), upd_same _ _ _, fun j hj => by
    rw [upd_ne _ _ (by omega)]; exact h3 j (by omega)⟩

/-- The sequence: write, read, read, write. -/
def sample : Requests := fun i =>
  if i = 0 then some .readwrite else if i = 1 then some .read else if i = 2 then some .read
  else if i = 3 then some .readwrite else none

/-- Non-vacuity: a reachable state in which two readers hold the tile, the earlier writer is released
and the later writer waits. -/
example : ∃ st, PReach sample st ∧ st 0 = .released ∧ st 1 = .held ∧ st 2 = .held ∧ st 3 = .waiting := by
  refine ⟨upd (upd (upd (upd (fun _ => .waiting) 0 .held) 0 .released) 1 .held) 2 .held, ?_, ?_⟩
  · refine .step (.step (.step (.step .init (.grant _ 0 ?_)) (.release _ 0 (by simp [upd]))) (.grant _ 1 ?_))
      (.grant _ 2 ?_)
    · exact (C16_grant_iff (by decide)).2 ⟨rfl, fun j hj => by omega⟩
    · refine (C16_grant_iff (by decide)).2 ⟨by simp [upd], fun j hj hr _ => ?_⟩
      have : j = 0 := by omega
      subst this; simp [upd]
    · refine (C16_grant_iff (by decide)).2 ⟨by simp [upd], fun j hj hr hk => ?_⟩
      obtain ⟨k, h1, h2, h3⟩ := hk
      have hk0 : k = 0 := by
        have : k = 0 ∨ k = 1 ∨ k = 2 := by omega
        rcases this with h | h | h
        · exact h
        · subst h; simp [sample] at h3
        · subst h; simp [sample] at h3
      have : j = 0 := by omega
      subst this; simp [upd]
  · simp [upd]

end DLAF.C16
