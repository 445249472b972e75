import Verif.Model.SpmdLift
import Verif.Lemmas.Spmd
namespace DLAF
variable {S V X : Type*}

theorem onFstL_append : ∀ p q : List (Instr S V), Instr.onFstL (X := X) (p ++ q) = Instr.onFstL p ++ Instr.onFstL q
  | [], _ => rfl
  | i :: p, q => by
    exact congrArg (i.onFst :: ·) (onFstL_append p q)

/-- A configuration with more state, followed by `q`. -/
def Conf.onFst (c : Conf S V) (x : Coord2 → X) (q : Coord2 → List (Instr (S × X) V)) : Conf (S × X) V :=
  ⟨fun r => Instr.onFstL (c.prog r) ++ q r, fun r => (c.st r, x r), c.cnt, c.net⟩

theorem onFst_prog (c : Coord2 → List (Instr S V)) (q : Coord2 → List (Instr (S × X) V)) (r : Coord2) (p : List (Instr S V)) :
    (fun r' => Instr.onFstL (X := X) (set1 c r p r') ++ q r') = set1 (fun r' => Instr.onFstL (c r') ++ q r') r (Instr.onFstL p ++ q r) := by
  funext r'
  unfold set1
  by_cases h : r' = r
  · subst h; simp
  · simp [h]

theorem onFst_st (s : Coord2 → S) (x : Coord2 → X) (r : Coord2) (v : S) :
    (fun r' => (set1 s r v r', x r')) = set1 (fun r' => (s r', x r')) r (v, x r) := by
  funext r'
  unfold set1
  by_cases h : r' = r
  · subst h; simp
  · simp [h]

theorem step_onFst {c c' : Conf S V} {r : Coord2} (x : Coord2 → X) (q : Coord2 → List (Instr (S × X) V)) (h : c.step r = some c') :
    (c.onFst x q).step r = some (c'.onFst x q) := by
  unfold Conf.step at h ⊢
  cases hp : c.prog r with
  | nil => rw [hp] at h; cases h
  | cons i p =>
    rw [hp] at h
    have hq : (c.onFst x q).prog r = (i.onFst (X := X)) :: (Instr.onFstL p ++ q r) := by
      show Instr.onFstL (c.prog r) ++ q r = _
      rw [hp]
      rfl
    rw [hq]
    cases i with
    | loc f =>
      simp only [Option.map_eq_some_iff] at h
      obtain ⟨s, h1, rfl⟩ := h
      have e : Instr.onFst (X := X) (.loc f : Instr S V) = .loc fun s => (f s.1).map fun y => (y, s.2) := by unfold Instr.onFst; rfl
      rw [e]
      simp only [Conf.onFst, h1, Option.map_some, onFst_prog, onFst_st]
    | post ch g =>
      have e : Instr.onFst (X := X) (.post ch g : Instr S V) = .post ch fun s => (g s.1).map fun y => ((y.1, s.2), y.2) := by
        unfold Instr.onFst; rfl
      rw [e]
      simp only at h ⊢
      have e2 : ((c.onFst x q).net ch ((c.onFst x q).cnt r ch) r) = c.net ch (c.cnt r ch) r := rfl
      rw [e2]
      split at h
      · cases h
      · rename_i hn
        rw [if_neg hn]
        obtain ⟨s, h1, rfl⟩ := Option.map_eq_some_iff.1 h
        simp only [Conf.onFst, h1, Option.map_some, onFst_prog, onFst_st]
    | take ch sg srcs f =>
      have e : Instr.onFst (X := X) (.take ch sg srcs f : Instr S V) = .take ch sg srcs fun s vs => (f s.1 vs).map fun y => (y, s.2) := by
        unfold Instr.onFst; rfl
      rw [e]
      simp only at h ⊢
      obtain ⟨vs, h1, h2⟩ := Option.bind_eq_some_iff.1 h
      have e2 : allSome (srcs.map ((c.onFst x q).net ch ((c.onFst x q).cnt r ch))) = some vs := h1
      rw [e2, Option.bind_some]
      obtain ⟨s, h3, rfl⟩ := Option.map_eq_some_iff.1 h2
      simp only [Conf.onFst, h3, Option.map_some, onFst_prog, onFst_st]
    | dyn f =>
      have e : Instr.onFst (X := X) (.dyn f : Instr S V) = .dyn fun s => Instr.onFstL (f s.1) := by unfold Instr.onFst; rfl
      rw [e]
      simp only [Option.some.injEq] at h ⊢
      subst h
      simp only [Conf.onFst, onFst_prog, onFstL_append, List.append_assoc]

theorem steps_onFst {n : Nat} {c c' : Conf S V} (x : Coord2 → X) (q : Coord2 → List (Instr (S × X) V)) (h : Conf.Steps n c c') :
    Conf.Steps n (c.onFst x q) (c'.onFst x q) := by
  induction h with
  | refl c => exact .refl _
  | cons r h _ ih => exact .cons r (step_onFst x q h) ih

/-- A run of a program is a run of the program on the first component. -/
theorem Runs.onFst {p : Coord2 → List (Instr S V)} {g g' : Glob S V} (h : Runs p g g') (x : Coord2 → X) :
    Runs (fun r => Instr.onFstL (p r)) ⟨fun r => (g.st r, x r), g.cnt, g.net⟩ ⟨fun r => (g'.st r, x r), g'.cnt, g'.net⟩ := by
  intro q
  obtain ⟨n, hn⟩ := h fun _ => []
  have := steps_onFst x q hn
  refine ⟨n, ?_⟩
  have e1 : (Conf.onFst (g.conf fun r => p r ++ []) x q) = (Glob.conf ⟨fun r => (g.st r, x r), g.cnt, g.net⟩ fun r => Instr.onFstL (p r) ++ q r) := by
    simp [Conf.onFst, Glob.conf]
  have e2 : (Conf.onFst (g'.conf fun _ => []) x q) = (Glob.conf ⟨fun r => (g'.st r, x r), g'.cnt, g'.net⟩ q) := by
    have : ∀ l : List (Instr (S × X) V), Instr.onFstL (X := X) ([] : List (Instr S V)) ++ l = l := fun _ => by unfold Instr.onFstL; rfl
    simp [Conf.onFst, Glob.conf, this]
  rwa [e1, e2] at this

theorem sigs_onFst (c : Chan) : ∀ p : List (Instr S V), sigs c (Instr.onFstL (X := X) p) = sigs c p
  | [] => by unfold Instr.onFstL; rfl
  | i :: p => by
    have ih := sigs_onFst c p
    cases i with
    | loc f => unfold Instr.onFstL Instr.onFst sigs; exact ih
    | post ch g => unfold Instr.onFstL Instr.onFst sigs; exact ih
    | take ch sg srcs f => unfold Instr.onFstL Instr.onFst sigs; rw [ih]
    | dyn f => unfold Instr.onFstL Instr.onFst sigs; exact ih

end DLAF
