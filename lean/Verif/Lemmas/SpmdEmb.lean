import Verif.Model.SpmdEmb
import Verif.Lemmas.Spmd
namespace DLAF
variable {S V S' V' : Type*}

/-- What the embedding must satisfy. -/
structure Emb.Ok (E : Emb S V S' V') : Prop where
  get_put : ∀ s x, E.get (E.put s x) = x
  put_put : ∀ s x y, E.put (E.put s x) y = E.put s y
  put_get : ∀ s, E.put s (E.get s) = s
  dec_inj : ∀ v, E.dec (E.inj v) = v

variable (E : Emb S V S' V')

theorem embL_append : ∀ p q : List (Instr S V), Instr.embL E (p ++ q) = Instr.embL E p ++ Instr.embL E q
  | [], _ => rfl
  | i :: p, q => congrArg (i.emb E :: ·) (embL_append p q)

/-- The messages of the larger program: those that were there, and the new ones of the part. -/
def Emb.net (N : Chan → Nat → Coord2 → Option V') (M : Chan → Nat → Coord2 → Option V) : Chan → Nat → Coord2 → Option V' :=
  fun ch n r => match N ch n r with
    | some w => some w
    | none => (M ch n r).map E.inj

/-- The configuration of the larger program, followed by `q`. -/
def Conf.emb (c : Conf S V) (x : Coord2 → S') (N : Chan → Nat → Coord2 → Option V') (q : Coord2 → List (Instr S' V')) : Conf S' V' :=
  ⟨fun r => Instr.embL E (c.prog r) ++ q r, fun r => E.put (x r) (c.st r), c.cnt, E.net N c.net⟩

/-- The messages that were there are still there. -/
def Emb.Keeps (N : Chan → Nat → Coord2 → Option V') (M : Chan → Nat → Coord2 → Option V) : Prop :=
  ∀ ch n r w, N ch n r = some w → M ch n r = some (E.dec w)

variable {E}

theorem Emb.Ok.net_dec (hE : E.Ok) {N : Chan → Nat → Coord2 → Option V'} {M : Chan → Nat → Coord2 → Option V} (h : E.Keeps N M) (ch : Chan) (n : Nat) (r : Coord2) :
    (E.net N M ch n r).map E.dec = M ch n r := by
  unfold Emb.net
  cases hN : N ch n r with
  | some w => exact (h _ _ _ _ hN).symm
  | none =>
    cases hM : M ch n r with
    | none => rfl
    | some v => simp [hE.dec_inj]

theorem emb_prog (c : Coord2 → List (Instr S V)) (q : Coord2 → List (Instr S' V')) (r : Coord2) (p : List (Instr S V)) :
    (fun r' => Instr.embL E (set1 c r p r') ++ q r') = set1 (fun r' => Instr.embL E (c r') ++ q r') r (Instr.embL E p ++ q r) := by
  funext r'
  unfold set1
  by_cases h : r' = r
  · subst h; simp
  · simp [h]

theorem emb_st (s : Coord2 → S) (x : Coord2 → S') (r : Coord2) (v : S) :
    (fun r' => E.put (x r') (set1 s r v r')) = set1 (fun r' => E.put (x r') (s r')) r (E.put (x r) v) := by
  funext r'
  unfold set1
  by_cases h : r' = r
  · subst h; simp
  · simp [h]

theorem allSome_dec (hE : E.Ok) {N : Chan → Nat → Coord2 → Option V'} {M : Chan → Nat → Coord2 → Option V} (h : E.Keeps N M) (ch : Chan) (n : Nat) :
    ∀ (l : List Coord2) (vs : List V), allSome (l.map (M ch n)) = some vs → ∃ ws, allSome (l.map (E.net N M ch n)) = some ws ∧ ws.map E.dec = vs
  | [], vs, hv => ⟨[], rfl, by simpa [allSome] using hv⟩
  | a :: l, vs, hv => by
    simp only [List.map_cons, allSome, Option.bind_eq_some_iff, Option.map_eq_some_iff] at hv
    obtain ⟨x, h1, ys, h2, rfl⟩ := hv
    obtain ⟨ws, w1, w2⟩ := allSome_dec hE h ch n l ys h2
    have e := hE.net_dec h ch n a
    rw [h1] at e
    obtain ⟨w, e1, e2⟩ := Option.map_eq_some_iff.1 e
    refine ⟨w :: ws, ?_, by simp [e2, w2]⟩
    simp only [List.map_cons, allSome, e1, w1, Option.bind_some, Option.map_some]

theorem step_emb (hE : E.Ok) {c c' : Conf S V} {r : Coord2} (x : Coord2 → S') {N : Chan → Nat → Coord2 → Option V'} (hN : E.Keeps N c.net)
    (q : Coord2 → List (Instr S' V')) (h : c.step r = some c') :
    (c.emb E x N q).step r = some (c'.emb E x N q) ∧ E.Keeps N c'.net := by
  unfold Conf.step at h ⊢
  cases hp : c.prog r with
  | nil => rw [hp] at h; cases h
  | cons i p =>
    rw [hp] at h
    have hq : (c.emb E x N q).prog r = (i.emb E) :: (Instr.embL E p ++ q r) := by
      show Instr.embL E (c.prog r) ++ q r = _
      rw [hp]
      rfl
    rw [hq]
    have hst : (c.emb E x N q).st r = E.put (x r) (c.st r) := rfl
    cases i with
    | loc f =>
      simp only [Option.map_eq_some_iff] at h
      obtain ⟨s, h1, rfl⟩ := h
      refine ⟨?_, hN⟩
      have e : Instr.emb E (.loc f : Instr S V) = .loc fun s => (f (E.get s)).map (E.put s) := by unfold Instr.emb; rfl
      rw [e]
      simp only [hst, hE.get_put, h1, Option.map_some, hE.put_put, Conf.emb, emb_prog, emb_st]
    | post ch g =>
      have e : Instr.emb E (.post ch g : Instr S V) = .post ch fun s => (g (E.get s)).map fun x => (E.put s x.1, E.inj x.2) := by unfold Instr.emb; rfl
      rw [e]
      simp only at h ⊢
      split at h
      · cases h
      · rename_i hn
        obtain ⟨s, h1, rfl⟩ := Option.map_eq_some_iff.1 h
        have hn' : c.net ch (c.cnt r ch) r = none := by simpa using hn
        have hNn : N ch (c.cnt r ch) r = none := by
          cases hh : N ch (c.cnt r ch) r with
          | none => rfl
          | some w => rw [hN _ _ _ _ hh] at hn'; cases hn'
        have e2 : (c.emb E x N q).net ch ((c.emb E x N q).cnt r ch) r = none := by
          show E.net N c.net ch (c.cnt r ch) r = none
          unfold Emb.net
          rw [hNn]
          simp [hn']
        have key : ∀ ch' n' r', E.net N (addCell c.net ch (c.cnt r ch) r s.2) ch' n' r' = addCell (E.net N c.net) ch (c.cnt r ch) r (E.inj s.2) ch' n' r' := by
          intro ch' n' r'
          rw [addCell_apply]
          unfold Emb.net
          rw [addCell_apply]
          split
          · rename_i w hw
            rw [if_neg]
            rintro ⟨rfl, rfl, rfl⟩
            rw [hNn] at hw
            cases hw
          · split <;> rfl
        refine ⟨?_, ?_⟩
        · rw [if_neg (by rw [e2]; simp)]
          simp only [hst, hE.get_put, h1, Option.map_some, hE.put_put, Option.some.injEq]
          unfold Conf.emb
          simp only [emb_prog, emb_st, Conf.mk.injEq, true_and]
          funext ch' n' r'
          exact (key ch' n' r').symm
        · intro ch' n' r' w hw
          show addCell c.net ch (c.cnt r ch) r s.2 ch' n' r' = _
          rw [addCell_apply, if_neg]
          · exact hN _ _ _ _ hw
          · rintro ⟨rfl, rfl, rfl⟩
            rw [hNn] at hw
            cases hw
    | take ch sg srcs f =>
      have e : Instr.emb E (.take ch sg srcs f : Instr S V) = .take ch sg srcs fun s vs => (f (E.get s) (vs.map E.dec)).map (E.put s) := by unfold Instr.emb; rfl
      rw [e]
      simp only at h ⊢
      obtain ⟨vs, h1, h2⟩ := Option.bind_eq_some_iff.1 h
      obtain ⟨s, h3, rfl⟩ := Option.map_eq_some_iff.1 h2
      refine ⟨?_, hN⟩
      obtain ⟨ws, w1, w2⟩ := allSome_dec hE hN ch (c.cnt r ch) srcs vs h1
      have w1' : allSome (srcs.map ((c.emb E x N q).net ch ((c.emb E x N q).cnt r ch))) = some ws := w1
      rw [w1', Option.bind_some]
      simp only [hst, hE.get_put, w2, h3, Option.map_some, hE.put_put, Conf.emb, emb_prog, emb_st]
    | dyn f =>
      have e : Instr.emb E (.dyn f : Instr S V) = .dyn fun s => Instr.embL E (f (E.get s)) := by unfold Instr.emb; rfl
      rw [e]
      simp only [Option.some.injEq] at h ⊢
      subst h
      refine ⟨?_, hN⟩
      simp only [hst, hE.get_put, Conf.emb, emb_prog, embL_append, List.append_assoc]

theorem steps_emb (hE : E.Ok) {n : Nat} {c c' : Conf S V} (x : Coord2 → S') {N : Chan → Nat → Coord2 → Option V'} (q : Coord2 → List (Instr S' V'))
    (h : Conf.Steps n c c') (hN : E.Keeps N c.net) : Conf.Steps n (c.emb E x N q) (c'.emb E x N q) ∧ E.Keeps N c'.net := by
  induction h with
  | refl c => exact ⟨.refl _, hN⟩
  | cons r h _ ih =>
    obtain ⟨a, b⟩ := step_emb hE x hN q h
    obtain ⟨a', b'⟩ := ih b
    exact ⟨.cons r a a', b'⟩

/-- The part of a global state. -/
def Emb.part (E : Emb S V S' V') (g : Glob S' V') : Glob S V := ⟨fun r => E.get (g.st r), g.cnt, fun ch n r => (g.net ch n r).map E.dec⟩

theorem Emb.part_clean {G : List Coord2} {g : Glob S' V'} (h : Clean G g) : Clean G (E.part g) :=
  ⟨h.agree, fun c r hr hc n hn s => by show (g.net c n s).map E.dec = none; rw [h.fresh c r hr hc n hn s]; rfl⟩

/-- A run of a program is a run of it as a part of the larger one. -/
theorem Runs.emb (hE : E.Ok) {p : Coord2 → List (Instr S V)} {G : Glob S' V'} {g' : Glob S V} (h : Runs p (E.part G) g') :
    ∃ G', Runs (fun r => Instr.embL E (p r)) G G' ∧ (∀ r, G'.st r = E.put (G.st r) (g'.st r)) ∧ ∀ L, Clean L g' → Clean L G' := by
  have hN : E.Keeps G.net (E.part G).net := fun ch n r w hw => by show (G.net ch n r).map E.dec = _; rw [hw]; rfl
  have nilL : ∀ l : List (Instr S' V'), Instr.embL E ([] : List (Instr S V)) ++ l = l := fun _ => by unfold Instr.embL; rfl
  have e0 : E.net G.net (E.part G).net = G.net := by
    funext ch n r
    unfold Emb.net Emb.part
    dsimp only
    cases hh : G.net ch n r <;> simp
  have hk : E.Keeps G.net g'.net := by
    obtain ⟨n, hn⟩ := h fun _ => []
    exact (steps_emb hE G.st (fun _ => []) hn hN).2
  refine ⟨⟨fun r => E.put (G.st r) (g'.st r), g'.cnt, E.net G.net g'.net⟩, fun q => ?_, fun _ => rfl, fun L hL => ⟨hL.agree, fun c r hr hc n hn s => ?_⟩⟩
  · obtain ⟨n, hn⟩ := h fun _ => []
    have := (steps_emb hE G.st q hn hN).1
    refine ⟨n, ?_⟩
    have e1 : Conf.emb E ((E.part G).conf fun r => p r ++ []) G.st G.net q = Glob.conf G fun r => Instr.embL E (p r) ++ q r := by
      simp only [Conf.emb, Glob.conf, List.append_nil, e0, Conf.mk.injEq, true_and, and_true]
      exact ⟨funext fun r => hE.put_get _, rfl⟩
    have e2 : Conf.emb E (g'.conf fun _ => []) G.st G.net q = Glob.conf ⟨fun r => E.put (G.st r) (g'.st r), g'.cnt, E.net G.net g'.net⟩ q := by
      simp [Conf.emb, Glob.conf, nilL]
    rwa [e1, e2] at this
  · have := hE.net_dec hk c n s
    rw [hL.fresh c r hr hc n hn s] at this
    simpa using this

theorem sigs_emb (c : Chan) : ∀ p : List (Instr S V), sigs c (Instr.embL E p) = sigs c p
  | [] => by unfold Instr.embL; rfl
  | i :: p => by
    have ih := sigs_emb c p
    cases i with
    | loc f => unfold Instr.embL Instr.emb sigs; exact ih
    | post ch g => unfold Instr.embL Instr.emb sigs; exact ih
    | take ch sg srcs f => unfold Instr.embL Instr.emb sigs; rw [ih]
    | dyn f => unfold Instr.embL Instr.emb sigs; exact ih

end DLAF
