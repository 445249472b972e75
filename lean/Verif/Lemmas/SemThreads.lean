import Verif.Spec.SemThreads
import Mathlib.Algebra.BigOperators.Fin
import Mathlib.Algebra.Order.BigOperators.Group.Finset
import Mathlib.Data.Nat.Find
/- Tasks with semaphores: actions that commute with the earlier unfinished ones give one result. -/
namespace DLAF.Sem
variable {S : Type*} {C : Type*} {V : C → Type*}

theorem bump_self (f : Nat → Nat) (t k : Nat) : bump f t k t = f t + k := if_pos rfl
theorem bump_ne (f : Nat → Nat) {t u : Nat} (k : Nat) (h : u ≠ t) : bump f t k u = f u := if_neg h

/-- Actions with disjoint footprints commute. -/
theorem Local.comm {view : (c : C) → S → V c} (hv : ∀ s s', (∀ c, view c s = view c s') → s = s') {F G : C → Prop} {f g : S → S}
    (hf : Local view F f) (hg : Local view G g) (hd : ∀ c, ¬ (F c ∧ G c)) (s : S) : f (g s) = g (f s) := by
  apply hv
  intro c
  by_cases hF : F c
  · have hG : ¬ G c := fun h => hd c ⟨hF, h⟩
    rw [hg.1 _ c hG]
    exact hf.2 _ _ (fun c' hc' => hg.1 s c' fun h => hd c' ⟨hc', h⟩) c hF
  · rw [hf.1 _ c hF]
    by_cases hG : G c
    · exact (hg.2 _ _ (fun c' hc' => hf.1 s c' fun h => hd c' ⟨h, hc'⟩) c hG).symm
    · rw [hg.1 _ c hG, hg.1 _ c hG, hf.1 _ c hF]

theorem Local.id {view : (c : C) → S → V c} (F : C → Prop) : Local view F (fun s => s) :=
  ⟨fun _ _ _ => rfl, fun _ _ h c hc => h c hc⟩

/-- A smaller footprint. -/
theorem Local.mono {view : (c : C) → S → V c} {F G : C → Prop} {f : S → S} (hf : Local view F f) (h : ∀ c, F c → G c) :
    Local view G f := by
  refine ⟨fun s c hc => hf.1 s c fun h' => hc (h c h'), fun s s' hs c hc => ?_⟩
  by_cases hF : F c
  · exact hf.2 s s' (fun c' hc' => hs c' (h c' hc')) c hF
  · rw [hf.1 _ c hF, hf.1 _ c hF]; exact hs c hc

theorem Local.comp {view : (c : C) → S → V c} {F : C → Prop} {f g : S → S} (hf : Local view F f) (hg : Local view F g) :
    Local view F (fun s => g (f s)) :=
  ⟨fun s c hc => by rw [hg.1 _ c hc, hf.1 _ c hc], fun s s' hs => hg.2 _ _ (hf.2 s s' hs)⟩

/-! ### positions only grow -/

theorem Steps.pc_le {P : Prog S} {s : S} {k : Conf S} {l : Nat} (h : Steps P (start s) k l) : ∀ t, k.pc t ≤ P.len t := by
  generalize hk0 : start s = k0 at h
  induction h with
  | refl => subst hk0; intro t; exact Nat.zero_le _
  | @tail k' k'' m h1 h2 ih =>
    subst hk0
    cases h2 with
    | @step t ht hl he =>
      intro u
      show bump k'.pc t 1 u ≤ _
      by_cases hu : u = t
      · subst hu; rw [bump_self]; exact hl
      · rw [bump_ne _ _ hu]; exact ih u

theorem sum_bump {n t : Nat} (pc : Nat → Nat) (ht : t < n) :
    ∑ u ∈ Finset.range n, bump pc t 1 u = (∑ u ∈ Finset.range n, pc u) + 1 := by
  have : ∀ u ∈ Finset.range n, bump pc t 1 u = pc u + if u = t then 1 else 0 := by
    intro u _
    unfold bump
    by_cases h : u = t <;> simp [h]
  rw [Finset.sum_congr rfl this, Finset.sum_add_distrib]
  simp [ht]

theorem Steps.count {P : Prog S} {s : S} {k : Conf S} {l : Nat} (h : Steps P (start s) k l) :
    ∑ u ∈ Finset.range P.n, k.pc u = l := by
  generalize hk0 : start s = k0 at h
  induction h with
  | refl => subst hk0; simp [start]
  | @tail k' k'' m h1 h2 ih =>
    subst hk0
    cases h2 with
    | @step t ht hl he =>
      rw [← ih]
      exact sum_bump _ ht

theorem runT_succ_last (P : Prog S) (t : Nat) : ∀ (m p : Nat) (s : S),
    runT P t p (m + 1) s = eff (P.instr t (p + m)) (runT P t p m s)
  | 0, _, _ => rfl
  | m + 1, p, s => by
    have := runT_succ_last P t m (p + 1) (eff (P.instr t p) s)
    rw [show p + 1 + m = p + (m + 1) by omega] at this
    exact this

theorem runT_comm {P : Prog S} {t : Nat} {f : S → S} : ∀ (m p : Nat) (s : S),
    (∀ q, p ≤ q → q < p + m → ∀ s, eff (P.instr t q) (f s) = f (eff (P.instr t q) s)) →
    runT P t p m (f s) = f (runT P t p m s)
  | 0, _, _, _ => rfl
  | m + 1, p, s, h => by
    unfold runT
    rw [h p (Nat.le_refl _) (by omega), runT_comm m (p + 1) _ (fun q h1 h2 => h q (by omega) (by omega))]

theorem runAll_comm {P : Prog S} {pc : Nat → Nat} {f : S → S} : ∀ (n : Nat) (s : S),
    (∀ t < n, ∀ q, pc t ≤ q → q < P.len t → ∀ s, eff (P.instr t q) (f s) = f (eff (P.instr t q) s)) →
    runAll P pc n (f s) = f (runAll P pc n s)
  | 0, _, _ => rfl
  | n + 1, s, h => by
    unfold runAll
    rw [runAll_comm n s (fun t ht => h t (by omega)), runT_comm]
    intro q h1 h2
    exact h n (Nat.lt_succ_self n) q h1 (by omega)

theorem runAll_congr {P : Prog S} {pc pc' : Nat → Nat} : ∀ (n : Nat) (s : S), (∀ t < n, pc t = pc' t) →
    runAll P pc n s = runAll P pc' n s
  | 0, _, _ => rfl
  | n + 1, s, h => by
    unfold runAll
    rw [runAll_congr n s (fun t ht => h t (by omega)), h n (Nat.lt_succ_self n)]

theorem runAll_step {P : Prog S} {pc : Nat → Nat} {t : Nat} (hl : pc t < P.len t) : ∀ (n : Nat) (s : S), t < n →
    (∀ t' < t, ∀ q, pc t' ≤ q → q < P.len t' → ∀ s,
      eff (P.instr t' q) (eff (P.instr t (pc t)) s) = eff (P.instr t (pc t)) (eff (P.instr t' q) s)) →
    runAll P (bump pc t 1) n (eff (P.instr t (pc t)) s) = runAll P pc n s
  | 0, _, ht, _ => absurd ht (Nat.not_lt_zero _)
  | n + 1, s, ht, h => by
    unfold runAll
    by_cases hn : n = t
    · subst hn
      rw [runAll_congr n _ (fun t' ht' => bump_ne pc 1 (show t' ≠ n by omega)), runAll_comm n s h, bump_self,
        show P.len n - pc n = (P.len n - (pc n + 1)) + 1 by omega]
      rfl
    · rw [runAll_step hl n s (by omega) h, bump_ne pc 1 hn]

theorem runAll_done {P : Prog S} {pc : Nat → Nat} : ∀ (n : Nat) (s : S), (∀ t < n, P.len t ≤ pc t) → runAll P pc n s = s
  | 0, _, _ => rfl
  | n + 1, s, h => by
    unfold runAll
    rw [runAll_done n s (fun t ht => h t (by omega)), show P.len n - pc n = 0 by have := h n (Nat.lt_succ_self n); omega]
    rfl

/-- If each action commutes with what remains of the earlier tasks, and the first unfinished task is never blocked, then every
schedule ends, and with the result of the sequential execution. -/
theorem one_result {P : Prog S} {s0 : S}
    (hc : ∀ k l, Steps P (start s0) k l → ∀ t < P.n, k.pc t < P.len t → ∀ f, P.instr t (k.pc t) = .act f →
      ∀ t' < t, ∀ q, k.pc t' ≤ q → q < P.len t' → ∀ s, eff (P.instr t' q) (f s) = f (eff (P.instr t' q) s))
    (hp : ∀ k l, Steps P (start s0) k l → ∀ t < P.n, k.pc t < P.len t → (∀ t' < t, P.len t' ≤ k.pc t') →
      Enabled P k (P.instr t (k.pc t))) :
    OneResult P s0 (runAll P (fun _ => 0) P.n s0) := by
  refine ⟨⟨∑ u ∈ Finset.range P.n, P.len u, fun k l h => ?_⟩, fun k l h => ?_, fun k l h hd => ?_⟩
  · rw [← h.count]
    exact Finset.sum_le_sum fun u _ => h.pc_le u
  · by_cases hd : Done P k
    · exact Or.inl hd
    · right
      have hex : ∃ t, t < P.n ∧ k.pc t < P.len t := by
        unfold Done at hd
        push Not at hd
        exact hd
      classical
      have hmin := fun t' (ht' : t' < Nat.find hex) => Nat.find_min hex ht'
      obtain ⟨h1, h2⟩ := Nat.find_spec hex
      refine ⟨_, Step.step h1 h2 (hp k l h _ h1 h2 fun t' ht' => ?_)⟩
      have := hmin t' ht'
      push Not at this
      exact this (by omega)
  · have key : runAll P k.pc P.n k.s = runAll P (fun _ => 0) P.n s0 := by
      clear hd
      generalize hk0 : start s0 = k0 at h
      induction h with
      | refl => subst hk0; rfl
      | @tail k' k'' m h1 h2 ih =>
        subst hk0
        rw [← ih]
        cases h2 with
        | @step t ht hl he =>
          refine runAll_step hl P.n k'.s ht ?_
          intro t' ht' q hq hq' s
          cases hi : P.instr t (k'.pc t) with
          | act f => exact hc k' m h1 t ht hl f hi t' ht' q hq hq' s
          | acquire i => rfl
          | release i j => rfl
          | wait u => rfl
    rw [runAll_done P.n k.s hd] at key
    exact key

end DLAF.Sem
