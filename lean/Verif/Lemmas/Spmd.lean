import Verif.Model.Spmd
import Verif.Spec.Spmd
import Mathlib.Tactic.Common
import Mathlib.Order.Basic
/- Executions of the distributed machine: the result does not depend on the interleaving. -/
namespace DLAF
variable {S V : Type*}

@[simp] theorem set1_same {α β : Type*} [DecidableEq α] (f : α → β) (a : α) (b : β) : set1 f a b a = b := by
  simp [set1]

theorem set1_ne {α β : Type*} [DecidableEq α] (f : α → β) {a x : α} (b : β) (h : x ≠ a) : set1 f a b x = f x := by
  simp [set1, h]

theorem set1_comm {α β : Type*} [DecidableEq α] (f : α → β) {a b : α} (x y : β) (h : a ≠ b) :
    set1 (set1 f a x) b y = set1 (set1 f b y) a x := by
  funext z
  unfold set1
  by_cases h1 : z = a
  · by_cases h2 : z = b
    · exact absurd (h1.symm.trans h2) h
    · simp [h1, h]
  · simp [h1]

theorem set1_self {α β : Type*} [DecidableEq α] (f : α → β) (a : α) : set1 f a (f a) = f := by
  funext z
  unfold set1
  split
  · rename_i h; rw [h]
  · rfl

theorem set1_set1 {α β : Type*} [DecidableEq α] (f : α → β) (a : α) (x y : β) :
    set1 (set1 f a x) a y = set1 f a y := by
  funext z
  unfold set1
  split <;> rfl

/-- A contribution added to the network. -/
def addCell (net : Chan → Nat → Coord2 → Option V) (ch : Chan) (n : Nat) (r : Coord2) (v : V) :
    Chan → Nat → Coord2 → Option V :=
  set1 net ch (set1 (net ch) n (set1 (net ch n) r (some v)))

theorem addCell_apply (net : Chan → Nat → Coord2 → Option V) (ch : Chan) (n : Nat) (r : Coord2) (v : V)
    (ch' : Chan) (n' : Nat) (r' : Coord2) :
    addCell net ch n r v ch' n' r' = if ch' = ch ∧ n' = n ∧ r' = r then some v else net ch' n' r' := by
  unfold addCell set1
  by_cases h1 : ch' = ch
  · subst h1
    by_cases h2 : n' = n
    · subst h2
      by_cases h3 : r' = r <;> simp [h3]
    · simp [h2]
  · simp [h1]

/-- What one step of a process does. -/
structure Effect (S V : Type*) where
  prog : List (Instr S V)
  st : S
  cnt : Chan → Nat
  cell : Option (Chan × Nat × V)

/-- The effect of the next instruction of process `r`. -/
def effect (r : Coord2) (net : Chan → Nat → Coord2 → Option V) (cnt : Chan → Nat) (s : S) :
    List (Instr S V) → Option (Effect S V)
  | [] => none
  | .loc f :: p => (f s).map fun s' => ⟨p, s', cnt, none⟩
  | .post ch g :: p =>
    if (net ch (cnt ch) r).isSome then none else (g s).map fun sv => ⟨p, sv.1, cnt, some (ch, cnt ch, sv.2)⟩
  | .take ch _ srcs f :: p =>
    (allSome (srcs.map (net ch (cnt ch)))).bind fun vs => (f s vs).map fun s' => ⟨p, s', set1 cnt ch (cnt ch + 1), none⟩
  | .dyn f :: p => some ⟨f s ++ p, s, cnt, none⟩

/-- Apply an effect. -/
def addOpt (net : Chan → Nat → Coord2 → Option V) (r : Coord2) : Option (Chan × Nat × V) → Chan → Nat → Coord2 → Option V
  | none => net
  | some (ch, n, v) => addCell net ch n r v

def Effect.apply (c : Conf S V) (r : Coord2) (e : Effect S V) : Conf S V :=
  ⟨set1 c.prog r e.prog, set1 c.st r e.st, set1 c.cnt r e.cnt, addOpt c.net r e.cell⟩

theorem step_eq (c : Conf S V) (r : Coord2) :
    c.step r = (effect r c.net (c.cnt r) (c.st r) (c.prog r)).map (Effect.apply c r) := by
  unfold Conf.step
  cases hp : c.prog r with
  | nil => rfl
  | cons i p =>
    cases i with
    | loc f =>
      simp only [effect, Option.map_map]
      congr 1
      funext s
      simp only [Function.comp, Effect.apply, addOpt]
      rw [set1_self]
    | post ch g =>
      simp only [effect]
      split
      · rfl
      · rw [Option.map_map]
        congr 1
        funext sv
        simp only [Function.comp, Effect.apply, addOpt]
        rw [set1_self]
        rfl
    | take ch sg srcs f =>
      simp only [effect, Option.map_bind]
      congr 1
      funext vs
      simp only [Function.comp, Option.map_map]
      rfl
    | dyn f =>
      simp only [effect, Option.map_some, Effect.apply, addOpt, set1_self]

theorem effect_cell {r : Coord2} {net : Chan → Nat → Coord2 → Option V} {cnt : Chan → Nat} {s : S}
    {p : List (Instr S V)} {e : Effect S V} (h : effect r net cnt s p = some e) {ch : Chan} {n : Nat} {v : V}
    (hc : e.cell = some (ch, n, v)) : net ch n r = none := by
  cases p with
  | nil => simp [effect] at h
  | cons i p =>
    cases i with
    | loc f =>
      simp only [effect, Option.map_eq_some_iff] at h
      obtain ⟨_, _, rfl⟩ := h
      simp at hc
    | post ch' g =>
      simp only [effect] at h
      split at h
      · simp at h
      · rename_i hn
        simp only [Option.map_eq_some_iff] at h
        obtain ⟨_, _, rfl⟩ := h
        simp only [Option.some.injEq, Prod.mk.injEq] at hc
        obtain ⟨rfl, rfl, _⟩ := hc
        simpa using hn
    | take ch' sg srcs f =>
      simp only [effect, Option.bind_eq_some_iff, Option.map_eq_some_iff] at h
      obtain ⟨_, _, _, _, rfl⟩ := h
      simp at hc
    | dyn f =>
      simp only [effect, Option.some.injEq] at h
      rw [← h] at hc
      simp at hc

theorem allSome_mono {α : Type*} {f g : Coord2 → Option α} (h : ∀ r v, f r = some v → g r = some v) :
    ∀ {l : List Coord2} {vs : List α}, allSome (l.map f) = some vs → allSome (l.map g) = some vs
  | [], _, hv => hv
  | a :: l, vs, hv => by
    simp only [List.map_cons, allSome, Option.bind_eq_some_iff, Option.map_eq_some_iff] at hv ⊢
    obtain ⟨x, h1, ys, h2, h3⟩ := hv
    exact ⟨x, h _ _ h1, ys, allSome_mono h h2, h3⟩

/-- Contributions of other processes do not change what a process does. -/
theorem effect_mono {r s : Coord2} (hrs : r ≠ s) {net : Chan → Nat → Coord2 → Option V} {cnt : Chan → Nat} {x : S}
    {p : List (Instr S V)} {e : Effect S V} (h : effect r net cnt x p = some e) {cell : Option (Chan × Nat × V)}
    (hc : ∀ ch n v, cell = some (ch, n, v) → net ch n s = none) :
    effect r (addOpt net s cell) cnt x p = some e := by
  cases cell with
  | none => exact h
  | some c =>
    obtain ⟨ch, n, v⟩ := c
    have hn := hc ch n v rfl
    cases p with
    | nil => simp [effect] at h
    | cons i p =>
      cases i with
      | loc f => exact h
      | post ch' g =>
        have : addOpt net s (some (ch, n, v)) ch' (cnt ch') r = net ch' (cnt ch') r := by
          simp only [addOpt, addCell_apply]
          exact if_neg (fun hh => hrs hh.2.2)
        simp only [effect] at h ⊢
        rw [this]
        exact h
      | take ch' sg srcs f =>
        simp only [effect, Option.bind_eq_some_iff] at h ⊢
        obtain ⟨vs, h1, h2⟩ := h
        refine ⟨vs, allSome_mono ?_ h1, h2⟩
        intro q w hq
        simp only [addOpt, addCell_apply]
        rw [if_neg]
        · exact hq
        · rintro ⟨h1, h2, h3⟩
          rw [h2, h1, h3, hn] at hq
          simp at hq
      | dyn f => exact h

theorem addOpt_comm {r s : Coord2} (hrs : r ≠ s) (net : Chan → Nat → Coord2 → Option V)
    (a b : Option (Chan × Nat × V)) : addOpt (addOpt net r a) s b = addOpt (addOpt net s b) r a := by
  cases a with
  | none => rfl
  | some a =>
    cases b with
    | none => rfl
    | some b =>
      obtain ⟨c1, n1, v1⟩ := a
      obtain ⟨c2, n2, v2⟩ := b
      funext c n q
      simp only [addOpt, addCell_apply]
      by_cases h1 : q = r
      · have : q ≠ s := fun h => hrs (h1.symm.trans h)
        simp [this]
      · simp [h1]

/-- Steps of different processes commute. -/
theorem step_diamond {c a b : Conf S V} {r s : Coord2} (hrs : r ≠ s) (ha : c.step r = some a)
    (hb : c.step s = some b) : ∃ d, a.step s = some d ∧ b.step r = some d := by
  rw [step_eq, Option.map_eq_some_iff] at ha hb
  obtain ⟨e, he, rfl⟩ := ha
  obtain ⟨g, hg, rfl⟩ := hb
  refine ⟨Effect.apply (Effect.apply c r e) s g, ?_, ?_⟩
  · rw [step_eq]
    have : effect s (addOpt c.net r e.cell) (c.cnt s) (c.st s) (c.prog s) = some g :=
      effect_mono (Ne.symm hrs) hg (fun ch n v h => effect_cell he h)
    simp only [Effect.apply, set1_ne _ _ (Ne.symm hrs), this, Option.map_some]
  · rw [step_eq]
    have : effect r (addOpt c.net s g.cell) (c.cnt r) (c.st r) (c.prog r) = some e :=
      effect_mono hrs he (fun ch n v h => effect_cell hg h)
    simp only [Effect.apply, set1_ne _ _ hrs, this, Option.map_some, Option.some.injEq, Conf.mk.injEq]
    exact ⟨set1_comm _ _ _ (Ne.symm hrs), set1_comm _ _ _ (Ne.symm hrs), set1_comm _ _ _ (Ne.symm hrs),
      addOpt_comm (Ne.symm hrs) _ _ _⟩

theorem step_done {c d : Conf S V} (h : c.Done) {r : Coord2} (hs : c.step r = some d) : False := by
  unfold Conf.step at hs
  rw [h r] at hs
  simp at hs

theorem steps_one {n : Nat} {c a f : Conf S V} {r : Coord2} (ha : c.step r = some a) (h : Conf.Steps n c f)
    (hf : f.Done) : ∃ k, n = k + 1 ∧ Conf.Steps k a f := by
  induction h generalizing a with
  | refl c => exact (step_done hf ha).elim
  | @cons n c b f s hb hs ih =>
    by_cases hrs : r = s
    · subst hrs
      rw [ha, Option.some.injEq] at hb
      exact ⟨n, rfl, hb ▸ hs⟩
    · obtain ⟨d, h1, h2⟩ := step_diamond hrs ha hb
      obtain ⟨k, rfl, h3⟩ := ih h2 hf
      exact ⟨k + 1, rfl, .cons s h1 h3⟩

/-- If one interleaving runs to the end, every interleaving can only be a part of a run to the same end, of the
same length. -/
theorem steps_confluent {n : Nat} {c f : Conf S V} (h : Conf.Steps n c f) (hf : f.Done) {m : Nat} {a : Conf S V}
    (ha : Conf.Steps m c a) : ∃ k, n = m + k ∧ Conf.Steps k a f := by
  induction ha generalizing n with
  | refl c => exact ⟨n, by omega, h⟩
  | @cons m c b a r hb hs ih =>
    obtain ⟨k, rfl, h1⟩ := steps_one hb h hf
    obtain ⟨j, rfl, h2⟩ := ih h1
    exact ⟨j, by omega, h2⟩

theorem Conf.Steps.trans {n m : Nat} {a b c : Conf S V} (h : Conf.Steps n a b) (h' : Conf.Steps m b c) :
    Conf.Steps (n + m) a c := by
  induction h with
  | refl => simpa using h'
  | @cons n a b c r hr hs ih =>
    rw [show n + 1 + m = n + m + 1 by omega]
    exact .cons r hr (ih h')

/-! ### Phases -/

/-- The state of the machine without the programs. -/
structure Glob (S V : Type*) where
  st : Coord2 → S
  cnt : Coord2 → Chan → Nat
  net : Chan → Nat → Coord2 → Option V

/-- The machine with programs `p` in state `g`. -/
def Glob.conf (g : Glob S V) (p : Coord2 → List (Instr S V)) : Conf S V := ⟨p, g.st, g.cnt, g.net⟩

/-- The programs `p` can be run from `g` to `g'`, whatever follows them. -/
def Runs (p : Coord2 → List (Instr S V)) (g g' : Glob S V) : Prop :=
  ∀ q, ∃ n, Conf.Steps n (g.conf fun r => p r ++ q r) (g'.conf q)

theorem Runs.nil {p : Coord2 → List (Instr S V)} (h : ∀ r, p r = []) (g : Glob S V) : Runs p g g := by
  intro q
  refine ⟨0, ?_⟩
  have : (fun r => p r ++ q r) = q := by funext r; rw [h r, List.nil_append]
  rw [this]
  exact .refl _

theorem Runs.append {p p' : Coord2 → List (Instr S V)} {g g' g'' : Glob S V} (h : Runs p g g') (h' : Runs p' g' g'') :
    Runs (fun r => p r ++ p' r) g g'' := by
  intro q
  obtain ⟨n, h1⟩ := h (fun r => p' r ++ q r)
  obtain ⟨m, h2⟩ := h' q
  refine ⟨n + m, ?_⟩
  simp only [List.append_assoc]
  exact h1.trans h2

theorem Runs.congr {p p' : Coord2 → List (Instr S V)} {g g' : Glob S V} (h : Runs p g g') (e : ∀ r, p' r = p r) :
    Runs p' g g' := by
  have : p' = p := funext e
  rwa [this]

/-- Result of one instruction of each process of `L`, each with its own effect. -/
def par (g : Glob S V) (L : List Coord2) (e : Coord2 → Effect S V) : Glob S V :=
  ⟨fun r => if r ∈ L then (e r).st else g.st r, fun r => if r ∈ L then (e r).cnt else g.cnt r,
   fun c n s => if s ∈ L then addOpt g.net s (e s).cell c n s else g.net c n s⟩

theorem effect_append {r : Coord2} {net : Chan → Nat → Coord2 → Option V} {cnt : Chan → Nat} {s : S}
    {i : Instr S V} {e : Effect S V} (h : effect r net cnt s [i] = some e) (h0 : e.prog = []) (q : List (Instr S V)) :
    e.prog = [] ∧ effect r net cnt s ([i] ++ q) = some { e with prog := q } := by
  cases i with
  | loc f =>
    simp only [effect, Option.map_eq_some_iff, List.cons_append, List.nil_append] at h ⊢
    obtain ⟨s', h1, rfl⟩ := h
    exact ⟨rfl, s', h1, rfl⟩
  | post ch g =>
    simp only [effect, List.cons_append, List.nil_append] at h ⊢
    split at h
    · simp at h
    · rename_i hn
      simp only [Option.map_eq_some_iff] at h
      obtain ⟨s', h1, rfl⟩ := h
      refine ⟨rfl, ?_⟩
      rw [if_neg hn, Option.map_eq_some_iff]
      exact ⟨s', h1, rfl⟩
  | take ch sg srcs f =>
    simp only [effect, Option.bind_eq_some_iff, Option.map_eq_some_iff, List.cons_append, List.nil_append] at h ⊢
    obtain ⟨vs, h1, s', h2, rfl⟩ := h
    exact ⟨rfl, vs, h1, s', h2, rfl⟩
  | dyn f =>
    simp only [effect, Option.some.injEq, List.append_nil] at h
    subst h
    have h0' : f s = [] := h0
    exact ⟨h0, by simp only [effect, List.cons_append, List.nil_append, h0']⟩

theorem addOpt_key (net : Chan → Nat → Coord2 → Option V) {r s : Coord2} (h : s ≠ r) (a : Option (Chan × Nat × V))
    (c : Chan) (n : Nat) : addOpt net r a c n s = net c n s := by
  cases a with
  | none => rfl
  | some a =>
    obtain ⟨c1, n1, v1⟩ := a
    simp only [addOpt, addCell_apply]
    exact if_neg fun hh => h hh.2.2

/-- One instruction of each process of `L`, each able to run in the initial state. -/
theorem Runs.par {p : Coord2 → List (Instr S V)} {g : Glob S V} {L : List Coord2} (hL : L.Nodup)
    (e : Coord2 → Effect S V) (hout : ∀ r, r ∉ L → p r = [])
    (hp : ∀ r ∈ L, ∃ i, p r = [i] ∧ effect r g.net (g.cnt r) (g.st r) [i] = some (e r))
    (he0 : ∀ r ∈ L, (e r).prog = [] := by intros; rfl) : Runs p g (DLAF.par g L e) := by
  induction L generalizing g p with
  | nil =>
    have : DLAF.par g [] e = g := by simp [DLAF.par]
    rw [this]
    exact .nil (fun r => hout r (by simp)) g
  | cons a L ih =>
    obtain ⟨haL, hL'⟩ := List.nodup_cons.1 hL
    obtain ⟨i, hi, he⟩ := hp a List.mem_cons_self
    let g1 : Glob S V := ⟨set1 g.st a (e a).st, set1 g.cnt a (e a).cnt, addOpt g.net a (e a).cell⟩
    have h1 : Runs (fun r => if r = a then [i] else []) g g1 := by
      intro q
      refine ⟨1, .cons a ?_ (.refl _)⟩
      rw [step_eq]
      simp only [Glob.conf, if_true]
      rw [(effect_append he (he0 a List.mem_cons_self) (q a)).2, Option.map_some, Option.some.injEq]
      simp only [Effect.apply, Conf.mk.injEq, and_true, g1]
      funext r
      unfold set1
      split
      · rename_i h; rw [h]
      · rename_i h; simp [h]
    have h2 : Runs (fun r => if r = a then [] else p r) g1 (DLAF.par g1 L e) := by
      refine ih hL' ?_ ?_ ?_
      · intro r hr
        by_cases h : r = a
        · simp [h]
        · simp only [h, if_false]
          exact hout r (by simp [h, hr])
      · intro r hr
        have hra : r ≠ a := fun h => haL (h ▸ hr)
        obtain ⟨j, hj, hej⟩ := hp r (List.mem_cons_of_mem _ hr)
        refine ⟨j, by simp [hra, hj], ?_⟩
        simp only [g1, set1_ne _ _ hra]
        exact effect_mono hra hej (fun ch n v h => effect_cell he h)
      · exact fun r hr => he0 r (List.mem_cons_of_mem _ hr)
    have h3 := h1.append h2
    have hpe : ∀ r, p r = (if r = a then [i] else []) ++ (if r = a then [] else p r) := by
      intro r
      by_cases h : r = a
      · simp [h, hi]
      · simp [h]
    have hg : DLAF.par g1 L e = DLAF.par g (a :: L) e := by
      simp only [DLAF.par, g1, Glob.mk.injEq]
      refine ⟨?_, ?_, ?_⟩
      · funext r
        by_cases h : r = a
        · subst h; simp [haL]
        · simp [h, set1_ne]
      · funext r
        by_cases h : r = a
        · subst h; simp [haL]
        · simp [h, set1_ne]
      · funext c n s
        by_cases h : s = a
        · subst h; simp [haL]
        · simp only [List.mem_cons, h, false_or]
          split
          · cases hc : (e s).cell with
            | none => simp only [addOpt]; exact addOpt_key _ h _ _ _
            | some x =>
              obtain ⟨c1, n1, v1⟩ := x
              show addCell _ c1 n1 s v1 c n s = addCell _ c1 n1 s v1 c n s
              rw [addCell_apply, addCell_apply, addOpt_key _ h]
          · exact addOpt_key _ h _ _ _
    rw [← hg]
    exact h3.congr hpe

/-- Branches on every process of `L`. -/
theorem Runs.dyn {L : List Coord2} (hL : L.Nodup) {g g' : Glob S V} (f : Coord2 → S → List (Instr S V))
    (h : Runs (fun r => if r ∈ L then f r (g.st r) else []) g g') : Runs (fun r => if r ∈ L then [.dyn (f r)] else []) g g' := by
  have key : ∀ M : List Coord2, M.Nodup → (∀ r ∈ M, r ∈ L) → ∀ q : Coord2 → List (Instr S V), Conf.Steps M.length
      (g.conf fun r => (if r ∈ L then if r ∈ M then [.dyn (f r)] else f r (g.st r) else []) ++ q r)
      (g.conf fun r => (if r ∈ L then f r (g.st r) else []) ++ q r) := by
    intro M
    induction M with
    | nil => intro _ _ q; simp only [List.not_mem_nil, if_false]; exact .refl _
    | cons a M ih =>
      intro hM hs q
      obtain ⟨ha, hM'⟩ := List.nodup_cons.1 hM
      refine .cons a ?_ (ih hM' (fun r hr => hs r (List.mem_cons_of_mem _ hr)) q)
      have haL := hs a List.mem_cons_self
      rw [step_eq]
      simp only [Glob.conf, if_pos haL, List.mem_cons_self, if_true, List.cons_append, List.nil_append, effect, Option.map_some,
        Effect.apply, addOpt, set1_self, Option.some.injEq, Conf.mk.injEq, and_true]
      funext r
      by_cases hr : r = a
      · subst hr
        rw [set1_same, if_neg ha, if_pos haL]
      · rw [set1_ne _ _ hr]
        simp [hr]
  intro q
  obtain ⟨n, hn⟩ := h q
  refine ⟨L.length + n, ?_⟩
  have e : (fun r => (if r ∈ L then [Instr.dyn (f r)] else []) ++ q r) =
      fun r => (if r ∈ L then if r ∈ L then [Instr.dyn (f r)] else f r (g.st r) else []) ++ q r := by
    funext r
    by_cases hr : r ∈ L <;> simp [hr]
  rw [e]
  exact (key L hL (fun _ h => h) q).trans hn

/-- Local work on every process of `L`. -/
theorem Runs.loc {p : Coord2 → List (Instr S V)} {g : Glob S V} {L : List Coord2} (hL : L.Nodup)
    (f : Coord2 → S → Option S) (s' : Coord2 → S) (hp : ∀ r, p r = if r ∈ L then [.loc (f r)] else [])
    (hf : ∀ r ∈ L, f r (g.st r) = some (s' r)) :
    Runs p g { g with st := fun r => if r ∈ L then s' r else g.st r } := by
  have h := Runs.par (p := p) (g := g) hL (fun r => ⟨[], s' r, g.cnt r, none⟩) (fun r hr => by rw [hp, if_neg hr])
    (fun r hr => ⟨.loc (f r), by rw [hp, if_pos hr], by simp [effect, hf r hr]⟩)
  have : DLAF.par g L (fun r => (⟨[], s' r, g.cnt r, none⟩ : Effect S V))
      = { g with st := fun r => if r ∈ L then s' r else g.st r } := by
    simp [DLAF.par, addOpt]
  rwa [this] at h

/-- Between collectives: the members of a communicator have completed the same number of collectives, and nothing
has been contributed to later ones. -/
structure Clean (G : List Coord2) (g : Glob S V) : Prop where
  agree : ∀ c, ∀ r ∈ G, ∀ s ∈ G, c.has r = true → c.has s = true → g.cnt r c = g.cnt s c
  fresh : ∀ c, ∀ r ∈ G, c.has r = true → ∀ n, g.cnt r c ≤ n → ∀ s, g.net c n s = none

theorem Clean.init (G : List Coord2) (st : Coord2 → S) :
    Clean G (⟨st, fun _ _ => 0, fun _ _ _ => none⟩ : Glob S V) :=
  ⟨fun _ _ _ _ _ _ _ => rfl, fun _ _ _ _ _ _ _ => rfl⟩

theorem Clean.withSt {G : List Coord2} {g : Glob S V} (h : Clean G g) (st : Coord2 → S) : Clean G { g with st := st } :=
  ⟨h.agree, h.fresh⟩

theorem allSome_map {α : Type*} {f : Coord2 → Option α} {v : Coord2 → α} : ∀ {l : List Coord2},
    (∀ r ∈ l, f r = some (v r)) → allSome (l.map f) = some (l.map v)
  | [], _ => rfl
  | a :: l, h => by
    simp only [List.map_cons, allSome, h a List.mem_cons_self, Option.bind_some,
      allSome_map (fun r hr => h r (List.mem_cons_of_mem _ hr)), Option.map_some]

/-- One collective on each of some communicators: every member of those communicators takes part, some contribute,
and each waits for contributors of its communicator. -/
theorem collective_phase {G : List Coord2} (hG : G.Nodup) {g : Glob S V} (hc : Clean G g)
    {p : Coord2 → List (Instr S V)} (part : Coord2 → Option Chan) (posts : Coord2 → Bool)
    (gp : Coord2 → S → Option (S × V)) (sg : Coord2 → Sig) (srcs : Coord2 → List Coord2)
    (ft : Coord2 → S → List V → Option S) (s1 s' : Coord2 → S) (v : Coord2 → V)
    (hp : ∀ r ∈ G, p r = match part r with
      | none => []
      | some c => (if posts r then [.post c (gp r)] else []) ++ [.take c (sg r) (srcs r) (ft r)])
    (hout : ∀ r, r ∉ G → p r = [])
    (hmem : ∀ r ∈ G, ∀ c, part r = some c → c.has r = true ∧ ∀ s ∈ G, c.has s = true → part s = some c)
    (hpost : ∀ r ∈ G, ∀ c, part r = some c →
      if posts r then gp r (g.st r) = some (s1 r, v r) else s1 r = g.st r)
    (hsrc : ∀ r ∈ G, ∀ c, part r = some c → ∀ s ∈ srcs r, s ∈ G ∧ c.has s = true ∧ posts s = true)
    (htake : ∀ r ∈ G, ∀ c, part r = some c → ft r (s1 r) ((srcs r).map v) = some (s' r)) :
    ∃ g', Runs p g g' ∧ Clean G g' ∧ ∀ r, g'.st r = if r ∈ G ∧ (part r).isSome then s' r else g.st r := by
  let L1 := G.filter fun r => posts r && (part r).isSome
  let L2 := G.filter fun r => (part r).isSome
  have hL1 : L1.Nodup := hG.filter _
  have hL2 : L2.Nodup := hG.filter _
  have m1 : ∀ r, r ∈ L1 ↔ r ∈ G ∧ posts r = true ∧ (part r).isSome = true := by
    intro r; simp [L1]
  have m2 : ∀ r, r ∈ L2 ↔ r ∈ G ∧ (part r).isSome = true := by
    intro r; simp [L2]
  let ch : Coord2 → Chan := fun r => (part r).getD (.row 0)
  have hch : ∀ r c, part r = some c → ch r = c := by intro r c h; simp [ch, h]
  let e1 : Coord2 → Effect S V := fun r => ⟨[], s1 r, g.cnt r, some (ch r, g.cnt r (ch r), v r)⟩
  let gA := DLAF.par g L1 e1
  have A : Runs (fun r => if r ∈ L1 then [.post (ch r) (gp r)] else []) g gA := by
    refine Runs.par hL1 e1 (fun r hr => by simp [hr]) ?_
    intro r hr
    obtain ⟨h1, h2, h3⟩ := (m1 r).1 hr
    obtain ⟨c, hc'⟩ := Option.isSome_iff_exists.1 h3
    refine ⟨.post (ch r) (gp r), by simp [hr], ?_⟩
    have hr' := hpost r h1 c hc'
    rw [if_pos h2] at hr'
    have hn : g.net (ch r) (g.cnt r (ch r)) r = none := by
      rw [hch r c hc']
      exact hc.fresh c r h1 (hmem r h1 c hc').1 _ (Nat.le_refl _) r
    simp [effect, hn, hr', e1]
  let e2 : Coord2 → Effect S V := fun r => ⟨[], s' r, set1 (g.cnt r) (ch r) (g.cnt r (ch r) + 1), none⟩
  have stA : ∀ r ∈ G, ∀ c, part r = some c → gA.st r = s1 r := by
    intro r hr c hc'
    show (if r ∈ L1 then (e1 r).st else g.st r) = s1 r
    have := hpost r hr c hc'
    by_cases hps : posts r = true
    · rw [if_pos ((m1 r).2 ⟨hr, hps, by simp [hc']⟩)]
    · rw [if_neg (fun h => hps ((m1 r).1 h).2.1)]
      rw [if_neg hps] at this
      exact this.symm
  have cntA : ∀ r, gA.cnt r = g.cnt r := by
    intro r
    show (if r ∈ L1 then (e1 r).cnt else g.cnt r) = g.cnt r
    split <;> rfl
  have netA : ∀ r ∈ L1, gA.net (ch r) (g.cnt r (ch r)) r = some (v r) := by
    intro r hr
    show (if r ∈ L1 then addOpt g.net r (e1 r).cell _ _ r else _) = _
    rw [if_pos hr]
    simp [e1, addOpt, addCell_apply]
  have B : Runs (fun r => if r ∈ L2 then [.take (ch r) (sg r) (srcs r) (ft r)] else []) gA (DLAF.par gA L2 e2) := by
    refine Runs.par hL2 e2 (fun r hr => by simp [hr]) ?_
    intro r hr
    obtain ⟨h1, h3⟩ := (m2 r).1 hr
    obtain ⟨c, hc'⟩ := Option.isSome_iff_exists.1 h3
    refine ⟨.take (ch r) (sg r) (srcs r) (ft r), by simp [hr], ?_⟩
    have hall : allSome ((srcs r).map (gA.net (ch r) (gA.cnt r (ch r)))) = some ((srcs r).map v) := by
      apply allSome_map
      intro s hs
      obtain ⟨a1, a2, a3⟩ := hsrc r h1 c hc' s hs
      have hps := (hmem r h1 c hc').2 s a1 a2
      have := netA s ((m1 s).2 ⟨a1, a3, by simp [hps]⟩)
      rw [hch s c hps] at this
      rw [hch r c hc', cntA, hc.agree c r h1 s a1 (hmem r h1 c hc').1 a2]
      exact this
    simp only [cntA] at hall ⊢
    simp only [effect, hall, Option.bind_some, stA r h1 c hc', htake r h1 c hc', Option.map_some]
    rfl
  refine ⟨_, (A.append B).congr ?_, ?_, ?_⟩
  · intro r
    by_cases hr : r ∈ G
    · rw [hp r hr]
      cases hpr : part r with
      | none =>
        have n1 : r ∉ L1 := fun h => by have := ((m1 r).1 h).2.2; simp [hpr] at this
        have n2 : r ∉ L2 := fun h => by have := ((m2 r).1 h).2; simp [hpr] at this
        simp [n1, n2]
      | some c =>
        have n2 : r ∈ L2 := (m2 r).2 ⟨hr, by simp [hpr]⟩
        have n1 : r ∈ L1 ↔ posts r = true := by rw [m1]; simp [hr, hpr]
        simp only [n2, n1, if_true, hch r c hpr]
    · have n1 : r ∉ L1 := fun h => hr ((m1 r).1 h).1
      have n2 : r ∉ L2 := fun h => hr ((m2 r).1 h).1
      simp [n1, n2, hout r hr]
  · have cB : ∀ r ∈ G, ∀ c, (DLAF.par gA L2 e2).cnt r c = if part r = some c then g.cnt r c + 1 else g.cnt r c := by
      intro r hr c
      show (if r ∈ L2 then (e2 r).cnt else gA.cnt r) c = _
      by_cases h : r ∈ L2
      · rw [if_pos h]
        obtain ⟨c', hc'⟩ := Option.isSome_iff_exists.1 ((m2 r).1 h).2
        simp only [e2, hch r c' hc', hc', Option.some.injEq, set1]
        by_cases hcc : c' = c
        · subst hcc; simp
        · rw [if_neg (Ne.symm hcc), if_neg hcc]
      · rw [if_neg h, cntA, if_neg]
        intro hh
        exact h ((m2 r).2 ⟨hr, by simp [hh]⟩)
    have partAgree : ∀ c, ∀ r ∈ G, ∀ s ∈ G, c.has r = true → c.has s = true → (part r = some c ↔ part s = some c) :=
      fun c r hr s hs h1 h2 => ⟨fun h => (hmem r hr c h).2 s hs h2, fun h => (hmem s hs c h).2 r hr h1⟩
    refine ⟨?_, ?_⟩
    · intro c r hr s hs h1 h2
      rw [cB r hr c, cB s hs c, hc.agree c r hr s hs h1 h2]
      simp only [partAgree c r hr s hs h1 h2]
    · intro c r hr h1 n hn s
      rw [cB r hr c] at hn
      have e0 : (DLAF.par gA L2 e2).net c n s = gA.net c n s := by
        show (if s ∈ L2 then _ else _) = _
        split <;> rfl
      have hle : g.cnt r c ≤ n := by split at hn <;> omega
      rw [e0]
      show (if s ∈ L1 then addOpt g.net s (e1 s).cell c n s else g.net c n s) = none
      split
      · rename_i hs
        obtain ⟨a1, a2, a3⟩ := (m1 s).1 hs
        obtain ⟨c', hc'⟩ := Option.isSome_iff_exists.1 a3
        simp only [e1, addOpt, addCell_apply, hch s c' hc']
        rw [if_neg]
        · exact hc.fresh c r hr h1 n hle s
        · rintro ⟨rfl, rfl, _⟩
          have hps : part r = some c := (hmem s a1 c hc').2 r hr h1
          rw [if_pos hps, hc.agree c r hr s a1 h1 (hmem s a1 c hc').1] at hn
          omega
      · exact hc.fresh c r hr h1 n hle s
  · intro r
    show (if r ∈ L2 then (e2 r).st else gA.st r) = _
    by_cases h : r ∈ L2
    · rw [if_pos h, if_pos ((m2 r).1 h)]
    · rw [if_neg h, if_neg (fun hh => h ((m2 r).2 hh))]
      show (if r ∈ L1 then (e1 r).st else g.st r) = _
      rw [if_neg]
      intro h1
      exact h ((m2 r).2 ⟨((m1 r).1 h1).1, ((m1 r).1 h1).2.2⟩)

/-- A broadcast on each of some communicators, from the member with rank `root`. -/
theorem bcast_phase {G : List Coord2} (hG : G.Nodup) {g : Glob S V} (hc : Clean G g)
    {p : Coord2 → List (Instr S V)} (part : Coord2 → Option Chan) (root : Int)
    (gp : Coord2 → S → Option (S × V)) (ft : Coord2 → S → V → Option S) (s' : Coord2 → S) (v : Chan → V)
    (hp : ∀ r ∈ G, p r = match part r with
      | none => []
      | some c => if r = c.rankOf root then bcastSend c root (gp r) else bcastRecv c root (ft r))
    (hout : ∀ r, r ∉ G → p r = [])
    (hmem : ∀ r ∈ G, ∀ c, part r = some c → c.has r = true ∧ ∀ s ∈ G, c.has s = true → part s = some c)
    (hroot : ∀ r ∈ G, ∀ c, part r = some c → c.rankOf root ∈ G)
    (hpost : ∀ r ∈ G, ∀ c, part r = some c → r = c.rankOf root → gp r (g.st r) = some (s' r, v c))
    (htake : ∀ r ∈ G, ∀ c, part r = some c → r ≠ c.rankOf root → ft r (g.st r) (v c) = some (s' r)) :
    ∃ g', Runs p g g' ∧ Clean G g' ∧ ∀ r, g'.st r = if r ∈ G ∧ (part r).isSome then s' r else g.st r := by
  have hhas : ∀ c : Chan, c.has (c.rankOf root) = true := by
    intro c; cases c <;> simp [Chan.has, Chan.rankOf]
    all_goals by_cases h : root = 0 <;> simp [h]
  let isRoot : Coord2 → Bool := fun r => match part r with
    | none => false
    | some c => decide (r = c.rankOf root)
  have hir : ∀ r c, part r = some c → isRoot r = decide (r = c.rankOf root) := by
    intro r c h; simp [isRoot, h]
  refine collective_phase hG hc part isRoot gp (fun _ => .bcast root)
    (fun r => match part r with
      | none => []
      | some c => if r = c.rankOf root then [] else [c.rankOf root])
    (fun r => if isRoot r then fun s _ => some s else recvOne (ft r))
    (fun r => if isRoot r then s' r else g.st r) s'
    (fun r => match part r with
      | none => v (.row 0)
      | some c => v c) ?_ hout hmem ?_ ?_ ?_
  · intro r hr
    rw [hp r hr]
    cases hpr : part r with
    | none => rfl
    | some c =>
      dsimp only
      rw [hir r c hpr]
      by_cases hx : r = c.rankOf root
      · simp only [← hx, decide_true, if_true]
        rfl
      · simp only [hx, decide_false, if_false]
        rfl
  · intro r hr c hcr
    rw [hir r c hcr, hcr]
    by_cases hx : r = c.rankOf root
    · simp only [← hx, decide_true, if_true]
      exact hpost r hr c hcr hx
    · simp [hx]
  · intro r hr c hcr q hq
    rw [hcr] at hq
    dsimp only at hq
    split at hq
    · simp at hq
    · rw [List.mem_singleton] at hq
      subst hq
      have hg := hroot r hr c hcr
      refine ⟨hg, hhas c, ?_⟩
      rw [hir _ c ((hmem r hr c hcr).2 _ hg (hhas c))]
      simp
  · intro r hr c hcr
    rw [hir r c hcr, hcr]
    by_cases hx : r = c.rankOf root
    · simp [← hx]
    · have hg := hroot r hr c hcr
      simp only [hx, decide_false, Bool.false_eq_true, if_false, List.map_cons, List.map_nil,
        (hmem r hr c hcr).2 _ hg (hhas c), recvOne]
      exact htake r hr c hcr hx

/-- Local work in sequence. -/
abbrev runLocs (fs : List (S → Option S)) (s : S) : Option S := fs.foldlM (fun s f => f s) s

theorem runLocs_append (fs gs : List (S → Option S)) (s : S) :
    runLocs (fs ++ gs) s = (runLocs fs s).bind (runLocs gs) := by
  unfold runLocs
  rw [List.foldlM_append]
  rfl

/-- Local work of one process. -/
theorem Runs.locals1 (a : Coord2) : ∀ (fs : List (S → Option S)) (g : Glob S V) (s' : S),
    fs.foldlM (fun s f => f s) (g.st a) = some s' →
    Runs (fun r => if r = a then fs.map Instr.loc else []) g { g with st := set1 g.st a s' }
  | [], g, s', h => by
    simp only [List.foldlM_nil, pure, Option.some.injEq] at h
    subst h
    rw [set1_self]
    exact .nil (fun r => by simp) g
  | f :: fs, g, s', h => by
    rw [List.foldlM_cons] at h
    simp only [bind, Option.bind_eq_some_iff] at h
    obtain ⟨s1, h1, h2⟩ := h
    have A := Runs.loc (V := V) (p := fun r => if r = a then [.loc f] else []) (g := g) (L := [a]) (by simp)
      (fun _ => f) (fun _ => s1) (fun r => by simp) (fun r hr => by rw [List.mem_singleton.1 hr]; exact h1)
    have e : (fun r => if r ∈ [a] then s1 else g.st r) = set1 g.st a s1 := by
      funext r; simp [set1]
    rw [e] at A
    have B := Runs.locals1 a fs { g with st := set1 g.st a s1 } s' (by rw [show ({ g with st := set1 g.st a s1 } : Glob S V).st a = s1 from set1_same _ _ _]; exact h2)
    have e2 : ({ ({ g with st := set1 g.st a s1 } : Glob S V) with st := set1 (set1 g.st a s1) a s' } : Glob S V)
        = { g with st := set1 g.st a s' } := by rw [set1_set1]
    rw [e2] at B
    refine (A.append B).congr ?_
    intro r
    by_cases h : r = a <;> simp [h]

/-- Local work of several processes. -/
theorem Runs.locals {G : List Coord2} (hG : G.Nodup) {p : Coord2 → List (Instr S V)} {g : Glob S V}
    (fs : Coord2 → List (S → Option S)) (s' : Coord2 → S) (hp : ∀ r, p r = if r ∈ G then (fs r).map Instr.loc else [])
    (hf : ∀ r ∈ G, (fs r).foldlM (fun s f => f s) (g.st r) = some (s' r)) :
    Runs p g { g with st := fun r => if r ∈ G then s' r else g.st r } := by
  induction G generalizing g p with
  | nil => simpa using Runs.nil (fun r => by simp [hp]) g
  | cons a G ih =>
    obtain ⟨haG, hG'⟩ := List.nodup_cons.1 hG
    have A := Runs.locals1 (V := V) a (fs a) g (s' a) (hf a List.mem_cons_self)
    have B := ih hG' (p := fun r => if r ∈ G then (fs r).map Instr.loc else []) (g := { g with st := set1 g.st a (s' a) })
      (fun r => rfl) (by
        intro r hr
        have : r ≠ a := by rintro rfl; exact haG hr
        rw [show ({ g with st := set1 g.st a (s' a) } : Glob S V).st r = g.st r from set1_ne _ _ this]
        exact hf r (List.mem_cons_of_mem _ hr))
    have e : (fun r => if r ∈ G then s' r else (set1 g.st a (s' a)) r) = fun r => if r ∈ a :: G then s' r else g.st r := by
      funext r
      by_cases h : r = a
      · subst h; simp [haG, set1_same]
      · simp [h, set1_ne _ _ h]
    rw [← e]
    refine (A.append B).congr ?_
    intro r
    rw [hp]
    by_cases h : r = a
    · subst h; simp [haG]
    · simp [h]

/-- A complete run shows that every schedule ends. -/
theorem Runs.alwaysEnds {p : Coord2 → List (Instr S V)} {st : Coord2 → S} {g' : Glob S V} {Q : (Coord2 → S) → Prop}
    (h : Runs p ⟨st, fun _ _ => 0, fun _ _ _ => none⟩ g') (hq : Q g'.st) : AlwaysEnds (Conf.init p st) Q := by
  obtain ⟨n, hn⟩ := h (fun _ => [])
  have e : (Glob.conf (⟨st, fun _ _ => 0, fun _ _ _ => none⟩ : Glob S V) fun r => p r ++ []) = Conf.init p st := by
    simp [Glob.conf, Conf.init]
  rw [e] at hn
  have hd : (g'.conf fun _ => []).Done := fun _ => rfl
  exact ⟨n, g'.conf fun _ => [], hd, hq, fun m a ha => steps_confluent hn hd ha⟩

theorem sigs_append (c : Chan) : ∀ (p q : List (Instr S V)), sigs c (p ++ q) = sigs c p ++ sigs c q
  | [], _ => rfl
  | .loc _ :: p, q => by simpa [sigs] using sigs_append c p q
  | .post _ _ :: p, q => by simpa [sigs] using sigs_append c p q
  | .dyn _ :: p, q => by simpa [sigs] using sigs_append c p q
  | .take c' s _ _ :: p, q => by
    simp only [List.cons_append, sigs]
    split <;> simp [sigs_append c p q]

theorem sigs_flatMap {X : Type*} (c : Chan) (xs : List X) (f : X → List (Instr S V)) :
    sigs c (xs.flatMap f) = xs.flatMap fun x => sigs c (f x) := by
  induction xs with
  | nil => rfl
  | cons x xs ih => rw [List.flatMap_cons, sigs_append, ih, List.flatMap_cons]

theorem sigs_locs (c : Chan) (fs : List (S → Option S)) : sigs (V := V) c (fs.map Instr.loc) = [] := by
  induction fs with
  | nil => rfl
  | cons f fs ih => simpa [sigs] using ih

theorem sigs_bcastSend (c c' : Chan) (root : Int) (g : S → Option (S × V)) :
    sigs c (bcastSend c' root g) = if c' = c then [.bcast root] else [] := by
  simp [bcastSend, sigs]

theorem sigs_bcastRecv (c c' : Chan) (root : Int) (f : S → V → Option S) :
    sigs c (bcastRecv c' root f) = if c' = c then [.bcast root] else [] := by
  simp [bcastRecv, sigs]

end DLAF
