import Verif.Spec.Threads
import Mathlib.Algebra.BigOperators.Group.Finset.Basic
import Mathlib.Algebra.Order.BigOperators.Group.Finset
/- Bulks whose workers do not interfere between two barriers have one result. -/
namespace DLAF.Bulk
variable {S C : Type*}

/-- Actions of different workers commute. -/
def Apart (n : Nat) (todo : Nat → List (S → S)) : Prop :=
  ∀ v < n, ∀ w < n, v ≠ w → ∀ a ∈ todo v, ∀ b ∈ todo w, ∀ s, a (b s) = b (a s)

/-- The sequential execution, with the number of steps. -/
inductive Seq (code : Code S C) (n : Nat) : C → S → S → Nat → Prop
  | stop {c s} (h : code c s = none) : Seq code n c s s 0
  | phase {c s p s' m} (h : code c s = some p) (ha : Apart n p.1) (hr : Seq code n p.2 (runAll p.1 n s) s' m) :
      Seq code n c s s' (m + (∑ w ∈ Finset.range n, (p.1 w).length) + 1)

theorem runList_nil (s : S) : runList [] s = s := rfl
theorem runList_cons (a : S → S) (l : List (S → S)) (s : S) : runList (a :: l) s = runList l (a s) := rfl
theorem runList_append (l l' : List (S → S)) (s : S) : runList (l ++ l') s = runList l' (runList l s) := by
  simp [runList]

theorem runList_comm (l : List (S → S)) (a : S → S) (h : ∀ b ∈ l, ∀ s, a (b s) = b (a s)) (s : S) :
    runList l (a s) = a (runList l s) := by
  induction l generalizing s with
  | nil => rfl
  | cons b l ih =>
    rw [runList_cons, runList_cons, ← h b List.mem_cons_self, ih fun b hb => h b (List.mem_cons_of_mem _ hb)]

theorem runAll_congr {n : Nat} {t t' : Nat → List (S → S)} (h : ∀ w < n, t w = t' w) (s : S) :
    runAll t n s = runAll t' n s := by
  induction n with
  | zero => rfl
  | succ n ih => rw [runAll, runAll, ih fun w hw => h w (by omega), h n (by omega)]

theorem runAll_comm {n : Nat} {t : Nat → List (S → S)} (a : S → S) (h : ∀ w < n, ∀ b ∈ t w, ∀ s, a (b s) = b (a s))
    (s : S) : runAll t n (a s) = a (runAll t n s) := by
  induction n with
  | zero => rfl
  | succ n ih => rw [runAll, runAll, ih fun w hw => h w (by omega), runList_comm _ _ (h n (by omega))]

theorem runAll_nil {n : Nat} {t : Nat → List (S → S)} (h : ∀ w < n, t w = []) (s : S) : runAll t n s = s := by
  induction n with
  | zero => rfl
  | succ n ih => rw [runAll, ih fun w hw => h w (by omega), h n (by omega)]; rfl

/-- Performing the first action of some worker first changes nothing. -/
theorem runAll_act {n w : Nat} {t : Nat → List (S → S)} {a : S → S} {r : List (S → S)} (hw : w < n) (ht : t w = a :: r)
    (h : Apart n t) (s : S) : runAll (fun v => if v = w then r else t v) n (a s) = runAll t n s := by
  induction n with
  | zero => omega
  | succ n ih =>
    by_cases hn : w = n
    · subst hn
      rw [runAll, runAll, if_pos rfl, ht, runList_cons]
      rw [runAll_congr (t' := t) (fun v hv => by rw [if_neg (by omega)]), runAll_comm a]
      intro v hv b hb s
      exact h w (by omega) v (by omega) (by omega) a (by rw [ht]; exact List.mem_cons_self) b hb s
    · rw [runAll, runAll, ih (by omega) fun v hv w' hw' => h v (by omega) w' (by omega), if_neg (by omega)]

theorem Apart.act {n w : Nat} {t : Nat → List (S → S)} {a : S → S} {r : List (S → S)} (ht : t w = a :: r)
    (h : Apart n t) : Apart n (fun v => if v = w then r else t v) := by
  have hs : ∀ v, ∀ b ∈ (if v = w then r else t v), b ∈ t v := by
    intro v b hb
    split at hb
    · subst v; rw [ht]; exact List.mem_cons_of_mem _ hb
    · exact hb
  intro v hv v' hv' hne b hb b' hb'
  exact h v hv v' hv' hne b (hs v b hb) b' (hs v' b' hb')

/-- The invariant of an execution. -/
def Inv (code : Code S C) (n : Nat) (k : Conf S C) (s' : S) (m : Nat) : Prop :=
  Apart n k.todo ∧ ∃ m', Seq code n k.c (runAll k.todo n k.s) s' m' ∧ m = m' + ∑ w ∈ Finset.range n, (k.todo w).length

theorem Inv.step {code : Code S C} {n : Nat} {k k' : Conf S C} {s' : S} {m : Nat} (h : Inv code n k s' m)
    (hs : Step code n k k') : ∃ m', Inv code n k' s' m' ∧ m = m' + 1 := by
  obtain ⟨h1, m', h2, h3⟩ := h
  cases hs with
  | @act w a r hw ht =>
    refine ⟨m' + ∑ v ∈ Finset.range n, (if v = w then r else k.todo v).length, ⟨h1.act ht, m', ?_, rfl⟩, ?_⟩
    · dsimp only
      rw [runAll_act hw ht h1]
      exact h2
    · rw [h3]
      have hm := Finset.mem_range.2 hw
      rw [← Finset.sum_erase_add _ _ hm, ← Finset.sum_erase_add (Finset.range n) _ hm, if_pos rfl, ht]
      have : ∑ v ∈ (Finset.range n).erase w, (if v = w then r else k.todo v).length =
          ∑ v ∈ (Finset.range n).erase w, (k.todo v).length :=
        Finset.sum_congr rfl fun v hv => by rw [if_neg (Finset.ne_of_mem_erase hv)]
      rw [this, List.length_cons]
      omega
  | @barrier p he hc =>
    rw [runAll_nil he] at h2
    have h0 : ∑ w ∈ Finset.range n, (k.todo w).length = 0 :=
      Finset.sum_eq_zero fun w hw => by rw [he w (Finset.mem_range.1 hw)]; rfl
    cases h2 with
    | stop h => rw [h] at hc; exact absurd hc (by simp)
    | @phase _ _ p' _ m0 h ha hr =>
      rw [hc] at h
      cases h
      refine ⟨_, ⟨ha, m0, hr, rfl⟩, ?_⟩
      dsimp only
      omega

theorem Inv.steps {code : Code S C} {n : Nat} {k k' : Conf S C} {s' : S} {m l : Nat} (h : Inv code n k s' m)
    (hs : Steps code n k k' l) : ∃ m', Inv code n k' s' m' ∧ m = m' + l := by
  induction hs with
  | refl => exact ⟨m, h, rfl⟩
  | tail _ hst ih =>
    obtain ⟨m', h1, h2⟩ := ih
    obtain ⟨m'', h3, h4⟩ := h1.step hst
    exact ⟨m'', h3, by omega⟩

theorem Inv.progress {code : Code S C} {n : Nat} {k : Conf S C} {s' : S} {m : Nat} (h : Inv code n k s' m) :
    (Done code n k ∧ k.s = s') ∨ ∃ k', Step code n k k' := by
  obtain ⟨_, m', h2, _⟩ := h
  by_cases he : ∀ w < n, k.todo w = []
  · rw [runAll_nil he] at h2
    cases h2 with
    | stop h => exact Or.inl ⟨⟨he, h⟩, rfl⟩
    | phase h _ _ => exact Or.inr ⟨_, .barrier he h⟩
  · obtain ⟨w, h1⟩ := Classical.not_forall.1 he
    obtain ⟨hw, h3⟩ := Classical.not_imp.1 h1
    obtain ⟨a, r, h4⟩ := List.exists_cons_of_ne_nil h3
    exact Or.inr ⟨_, .act hw h4⟩

theorem Inv.done {code : Code S C} {n : Nat} {k : Conf S C} {s' : S} {m : Nat} (h : Inv code n k s' m)
    (hd : Done code n k) : k.s = s' := by
  rcases h.progress with h | ⟨k', hs⟩
  · exact h.2
  · cases hs with
    | act hw ht => rw [hd.1 _ hw] at ht; simp at ht
    | barrier _ hc => rw [hd.2] at hc; simp at hc

theorem Seq.inv {code : Code S C} {n : Nat} {c : C} {s s' : S} {m : Nat} (h : Seq code n c s s' m) :
    Inv code n (start c s) s' m := by
  refine ⟨fun v _ w _ _ a ha => by simp [start] at ha, m, ?_, by simp [start]⟩
  rw [show runAll (start c s : Conf S C).todo n (start c s : Conf S C).s = s from runAll_nil (fun _ _ => rfl) _]
  exact h

theorem Seq.one {code : Code S C} {n : Nat} {c : C} {s s' : S} {m : Nat} (h : Seq code n c s s' m) :
    OneResult code n c s s' := by
  refine ⟨⟨m, fun k l hs => ?_⟩, fun k l hs => ?_, fun k l hs hd => ?_⟩
  · obtain ⟨m', _, h2⟩ := h.inv.steps hs; omega
  · obtain ⟨m', h1, _⟩ := h.inv.steps hs
    rcases h1.progress with h | h
    · exact Or.inl h.1
    · exact Or.inr h
  · obtain ⟨m', h1, _⟩ := h.inv.steps hs
    exact h1.done hd

end DLAF.Bulk
