import Verif.Model.Async
import Mathlib.Tactic.Common

/-! Helper lemmas on shared states ("groups") of the read/write mutex. -/
namespace DLAF

theorem upd_same {α β : Type} [DecidableEq α] (f : α → β) (a : α) (b : β) : upd f a b a = b := by
  simp [upd]

theorem upd_ne {α β : Type} [DecidableEq α] (f : α → β) {a x : α} (b : β) (h : x ≠ a) :
    upd f a b x = f x := by simp [upd, h]

theorem mutexState_le_succ (r : Requests) (i : Nat) :
    (mutexState r i).2 ≤ (mutexState r (i + 1)).2 := by
  simp only [mutexState]
  split
  · exact Nat.le_refl _
  · simp
  · simp only; split <;> omega

theorem mutexState_mono (r : Requests) {i j : Nat} (h : i ≤ j) :
    (mutexState r i).2 ≤ (mutexState r j).2 := by
  induction h with
  | refl => exact Nat.le_refl _
  | step _ ih => exact Nat.le_trans ih (mutexState_le_succ r _)

theorem groupOf_mono (r : Requests) {i j : Nat} (h : i ≤ j) : groupOf r i ≤ groupOf r j :=
  mutexState_mono r (by omega)

theorem groupOf_writer {r : Requests} {i : Nat} (h : r i = some .readwrite) :
    groupOf r i = (mutexState r i).2 + 1 := by
  simp [groupOf, mutexState, h]

theorem groupOf_lt_of_writer {r : Requests} {j i : Nat} (hji : j < i) (h : r i = some .readwrite) :
    groupOf r j < groupOf r i := by
  rw [groupOf_writer h]
  have := mutexState_mono r (i := j + 1) (j := i) (by omega)
  simp only [groupOf]; omega

/-- After a writer, the state is either still the writer's or a later shared state. -/
theorem mutexState_after_writer {r : Requests} {j : Nat} (h : r j = some .readwrite) :
    ∀ i, j < i → mutexState r i = (.readwrite, groupOf r j) ∨ groupOf r j < (mutexState r i).2 := by
  intro i hi
  induction i with
  | zero => omega
  | succ i ih =>
    by_cases hij : i = j
    · subst hij
      left
      simp [groupOf, mutexState, h]
    · have ih := ih (by omega)
      rcases hr : r i with _ | a
      · simpa [mutexState, hr] using ih
      · right
        cases a <;> simp only [mutexState, hr] <;> rcases ih with ih | ih
        · simp [ih]
        · split <;> omega
        · simp [ih]
        · omega

theorem groupOf_lt_of_prev_writer {r : Requests} {j i : Nat} (hji : j < i)
    (hj : r j = some .readwrite) (hi : r i ≠ none) : groupOf r j < groupOf r i := by
  have h := mutexState_after_writer hj i hji
  rcases hr : r i with _ | a
  · exact absurd hr hi
  · cases a
    · generalize groupOf r j = g at h ⊢
      simp only [groupOf, mutexState, hr]
      rcases h with h | h
      · simp [h]
      · split <;> omega
    · exact groupOf_lt_of_writer hji hr

theorem groupOf_eq_of_reads {r : Requests} {j i : Nat} (hji : j ≤ i) (hj : r j = some .read)
    (hbet : ∀ k, j ≤ k → k ≤ i → r k ≠ some .readwrite) : groupOf r i = groupOf r j := by
  have : ∀ k, j < k → k ≤ i + 1 → mutexState r k = (.read, groupOf r j) := by
    intro k hjk hki
    induction k with
    | zero => omega
    | succ k ih =>
      by_cases hkj : k = j
      · subst hkj
        simp [groupOf, mutexState, hj]
      · have ih := ih (by omega) (by omega)
        have hb := hbet k (by omega) (by omega)
        rcases hr : r k with _ | a
        · simpa [mutexState, hr] using ih
        · cases a
          · simp [mutexState, hr, ih]
          · exact absurd hr hb
  have h := this (i + 1) (by omega) (by omega)
  simp only [groupOf] at h ⊢
  rw [h]

/-- Two requests are in different shared states exactly if a `readwrite` lies between them (ends
included). -/
theorem groupOf_lt_iff {r : Requests} {j i : Nat} (hj : r j ≠ none) (hi : r i ≠ none) :
    groupOf r j < groupOf r i ↔ j < i ∧ ∃ k, j ≤ k ∧ k ≤ i ∧ r k = some .readwrite := by
  constructor
  · intro h
    have hji : j < i := by
      by_contra hc
      have := groupOf_mono r (i := i) (j := j) (by omega)
      omega
    refine ⟨hji, ?_⟩
    by_contra hc
    have hb : ∀ k, j ≤ k → k ≤ i → r k ≠ some .readwrite := fun k h1 h2 h3 => hc ⟨k, h1, h2, h3⟩
    have hjr : r j = some .read := by
      rcases hr : r j with _ | a
      · exact absurd hr hj
      · cases a
        · rfl
        · exact absurd hr (hb j (Nat.le_refl _) (by omega))
    have := groupOf_eq_of_reads (Nat.le_of_lt hji) hjr hb
    omega
  · rintro ⟨hji, k, hjk, hki, hk⟩
    rcases Nat.eq_or_lt_of_le hjk with h1 | h1
    · subst h1; exact groupOf_lt_of_prev_writer hji hk hi
    · have h2 := groupOf_lt_of_writer h1 hk
      have h3 := groupOf_mono r hki
      omega

end DLAF
