import Verif.Model.Panel
import Verif.Lemmas.MatrixTiles
/- C26: reuse of panels. -/
namespace DLAF
namespace Panel
variable {V : Type*} {m : Bool}

/-- Calls that set the start of the range by tile index. -/
def Op.tileStart : Op V → Bool
  | .setRange _ _ => true
  | .setRangeStartTile _ => true
  | _ => false

/-- Calls that set the start of the range. -/
def Op.anyStart : Op V → Bool
  | .setRange _ _ => true
  | .setRangeStartTile _ => true
  | .setRangeStartElement _ => true
  | _ => false

/-- Every range start given by element index lies on a tile boundary. -/
def AlignedStarts (d : Dist1) (os : List (Op V)) : Prop :=
  ∀ e, Op.setRangeStartElement e ∈ os → d.tile_element_from_global_element e = 0

/-- The parts of a panel fixed at construction. -/
structure Fixed (p q : Panel V) : Prop where
  dist : q.dist = p.dist
  axisTile : q.axisTile = p.axisTile
  data : q.data = p.data
  bias : q.bias = p.bias
  len : q.external.length = p.external.length

theorem Fixed.refl (p : Panel V) : Fixed p p := ⟨rfl, rfl, rfl, rfl, rfl⟩

theorem Fixed.trans {p q r : Panel V} (a : Fixed p q) (b : Fixed q r) : Fixed p r :=
  ⟨b.dist.trans a.dist, b.axisTile.trans a.axisTile, b.data.trans a.data, b.bias.trans a.bias, b.len.trans a.len⟩

/-- What each call can do to the state. -/
theorem step_cases {p q : Panel V} {o : Op V} {b : Obs V} (h : p.step m o = some (q, b)) :
    Fixed p q ∧ (p.stop ≤ p.dist.nrTiles → q.stop ≤ q.dist.nrTiles) ∧
    ((p.startLocal = p.dist.next_local_tile_from_global_tile p.start ∧
        p.stopLocal = p.dist.next_local_tile_from_global_tile p.stop) →
      q.startLocal = q.dist.next_local_tile_from_global_tile q.start ∧
        q.stopLocal = q.dist.next_local_tile_from_global_tile q.stop) ∧
    ((p.dim < 0 ∨ (0 < p.dim ∧ p.dim ≤ p.axisTile)) → (q.dim < 0 ∨ (0 < q.dim ∧ q.dim ≤ q.axisTile))) ∧
    (p.bias ≤ p.startLocal → q.bias ≤ q.startLocal) ∧
    (o.anyStart = false → q.start = p.start ∧ q.startOffset = p.startOffset ∧ q.startLocal = p.startLocal ∧
      q.offsetElement = p.offsetElement) ∧
    (o.tileStart = true → q.startOffset = p.startOffset) ∧
    (∀ e, o = .setRangeStartElement e → q.startOffset = p.startOffset ∨
      q.startOffset = p.dist.tile_element_from_global_element e) := by
  cases o with
  | setRange s e =>
    simp only [step, setRange, Option.map_eq_some_iff] at h
    obtain ⟨q', h, h'⟩ := h
    obtain ⟨rfl, rfl⟩ := Prod.mk.inj h'
    split at h
    · simp at h
    · simp only [initRange] at h
      split at h
      · rename_i hc
        simp only [Option.some.injEq] at h
        subst h
        exact ⟨⟨rfl, rfl, rfl, rfl, rfl⟩, fun _ => hc.2.2, fun _ => ⟨rfl, rfl⟩, id, fun _ => hc.2.1,
          by simp [Op.anyStart], fun _ => rfl, by simp⟩
      · simp at h
  | setRangeStartTile s =>
    simp only [step, setRangeStartTile, Option.map_eq_some_iff] at h
    obtain ⟨q', h, h'⟩ := h
    obtain ⟨rfl, rfl⟩ := Prod.mk.inj h'
    split at h
    · simp at h
    · split at h
      · rename_i hc
        simp only [Option.some.injEq] at h
        subst h
        exact ⟨⟨rfl, rfl, rfl, rfl, rfl⟩, id, fun hh => ⟨rfl, hh.2⟩, id, fun _ => hc.1,
          by simp [Op.anyStart], fun _ => rfl, by simp⟩
      · simp at h
  | setRangeStartElement x =>
    simp only [step, setRangeStartElement, Option.map_eq_some_iff] at h
    obtain ⟨q', h, h'⟩ := h
    obtain ⟨rfl, rfl⟩ := Prod.mk.inj h'
    split at h
    · simp at h
    · by_cases ho : p.dist.rank_global_tile (p.dist.global_tile_from_global_element x) = p.dist.rank
      · simp only [ho, if_true] at h
        split at h
        · rename_i hc
          simp only [Option.some.injEq] at h
          subst h
          refine ⟨⟨rfl, rfl, rfl, rfl, rfl⟩, id, fun hh => ⟨rfl, hh.2⟩, id, fun _ => hc.1,
            by simp [Op.anyStart], by simp [Op.tileStart], ?_⟩
          intro e he
          cases he
          exact Or.inr rfl
        · simp at h
      · simp only [ho, if_false] at h
        split at h
        · rename_i hc
          simp only [Option.some.injEq] at h
          subst h
          exact ⟨⟨rfl, rfl, rfl, rfl, rfl⟩, id, fun hh => ⟨rfl, hh.2⟩, id, fun _ => hc.1,
            by simp [Op.anyStart], by simp [Op.tileStart], fun _ _ => Or.inl rfl⟩
        · simp at h
  | setRangeEnd e =>
    simp only [step, setRangeEnd, Option.map_eq_some_iff] at h
    obtain ⟨q', h, h'⟩ := h
    obtain ⟨rfl, rfl⟩ := Prod.mk.inj h'
    split at h
    · simp at h
    · split at h
      · rename_i hc
        simp only [Option.some.injEq] at h
        subst h
        exact ⟨⟨rfl, rfl, rfl, rfl, rfl⟩, fun _ => hc.2, fun hh => ⟨hh.1, rfl⟩, id, id,
          fun _ => ⟨rfl, rfl, rfl, rfl⟩, fun _ => rfl, by simp⟩
      · simp at h
  | setDim w =>
    simp only [step, setDim, Option.map_eq_some_iff] at h
    obtain ⟨q', h, h'⟩ := h
    obtain ⟨rfl, rfl⟩ := Prod.mk.inj h'
    split at h
    · simp at h
    · rename_i hc
      simp only [Option.some.injEq] at h
      subst h
      simp only [Bool.or_eq_true, Bool.and_eq_true, decide_eq_true_eq, Bool.not_eq_true',
        Bool.and_eq_false_imp, decide_eq_false_iff_not, not_or, not_forall] at hc
      obtain ⟨_, hc1, hc2⟩ := hc
      exact ⟨⟨rfl, rfl, rfl, rfl, rfl⟩, id, id, fun _ => Or.inr ⟨hc1, by simpa using hc2⟩, id,
        fun _ => ⟨rfl, rfl, rfl, rfl⟩, fun _ => rfl, by simp⟩
  | setTile i v =>
    simp only [step, setTile, Option.map_eq_some_iff, Option.bind_eq_some_iff] at h
    obtain ⟨q', ⟨k, hk, h⟩, h'⟩ := h
    obtain ⟨rfl, rfl⟩ := Prod.mk.inj h'
    split at h
    · simp at h
    · simp only [Option.some.injEq] at h
      subst h
      exact ⟨⟨rfl, rfl, rfl, rfl, by simp⟩, id, id, id, id, fun _ => ⟨rfl, rfl, rfl, rfl⟩, fun _ => rfl, by simp⟩
  | read i =>
    simp only [step, read, Option.bind_eq_some_iff] at h
    obtain ⟨k, hk, h⟩ := h
    split at h
    · simp only [Option.some.injEq, Prod.mk.injEq] at h
      obtain ⟨rfl, _⟩ := h
      exact ⟨⟨rfl, rfl, rfl, rfl, rfl⟩, id, id, id, id, fun _ => ⟨rfl, rfl, rfl, rfl⟩, fun _ => rfl, by simp⟩
    · simp only [Option.map_eq_some_iff, Prod.mk.injEq] at h
      obtain ⟨_, _, rfl, _⟩ := h
      exact ⟨⟨rfl, rfl, rfl, rfl, rfl⟩, id, id, id, id, fun _ => ⟨rfl, rfl, rfl, rfl⟩, fun _ => rfl, by simp⟩
  | readwrite i =>
    simp only [step, readwrite, Option.bind_eq_some_iff] at h
    obtain ⟨k, hk, h⟩ := h
    split at h
    · simp at h
    · simp only [Option.map_eq_some_iff, Prod.mk.injEq] at h
      obtain ⟨_, _, rfl, _⟩ := h
      exact ⟨⟨rfl, rfl, rfl, rfl, rfl⟩, id, id, id, id, fun _ => ⟨rfl, rfl, rfl, rfl⟩, fun _ => rfl, by simp⟩
  | reset =>
    simp only [step, Option.some.injEq, Prod.mk.injEq] at h
    obtain ⟨rfl, _⟩ := h
    exact ⟨⟨rfl, rfl, rfl, rfl, by simp [reset]⟩, id, id, fun _ => Or.inl (by simp [reset]), id,
      fun _ => ⟨rfl, rfl, rfl, rfl⟩, fun _ => rfl, by simp⟩
  | _ =>
    simp only [step, Option.some.injEq, Prod.mk.injEq] at h
    obtain ⟨rfl, _⟩ := h
    exact ⟨.refl _, id, id, id, id, fun _ => ⟨rfl, rfl, rfl, rfl⟩, fun _ => rfl, by simp⟩

/-- What holds for every panel obtained from `p0` by calls. -/
structure Reach (p0 p : Panel V) : Prop where
  fixed : Fixed p0 p
  stop : p.stop ≤ p.dist.nrTiles
  loc : p.startLocal = p.dist.next_local_tile_from_global_tile p.start ∧
    p.stopLocal = p.dist.next_local_tile_from_global_tile p.stop
  dim : p.dim < 0 ∨ (0 < p.dim ∧ p.dim ≤ p.axisTile)
  bias : p.bias ≤ p.startLocal

theorem Reach.step {p0 p q : Panel V} {o : Op V} {b : Obs V} (hr : Reach p0 p) (h : p.step m o = some (q, b)) :
    Reach p0 q := by
  obtain ⟨h1, h2, h3, h4, h5, _⟩ := step_cases h
  exact ⟨hr.fixed.trans h1, h2 hr.stop, h3 hr.loc, h4 hr.dim, h5 hr.bias⟩

theorem Reach.run {p0 : Panel V} : ∀ {os : List (Op V)} {p q : Panel V} {bs : List (Obs V)}, Reach p0 p →
    p.run m os = some (q, bs) → Reach p0 q
  | [], p, q, bs, hr, h => by
    simp only [Panel.run, Option.some.injEq, Prod.mk.injEq] at h
    exact h.1 ▸ hr
  | o :: os, p, q, bs, hr, h => by
    simp only [Panel.run, Option.bind_eq_some_iff, Option.map_eq_some_iff] at h
    obtain ⟨⟨r, b⟩, hs, ⟨s, cs⟩, hs', he⟩ := h
    obtain ⟨rfl, rfl⟩ := Prod.mk.inj he
    exact Reach.run (hr.step hs) hs'

/-- A new panel. -/
structure Fresh (d : Dist1) (ax s : Int) (p : Panel V) : Prop where
  data : setupInternal d s = some p.data
  single : d.blockSize = d.tileSize
  eq : p = { dist := d, axisTile := ax, data := p.data, bias := d.next_local_tile_from_global_tile s, start := s,
             startLocal := d.next_local_tile_from_global_tile s, stop := d.nrTiles,
             stopLocal := d.next_local_tile_from_global_tile d.nrTiles, dim := -1, startOffset := 0,
             offsetElement := s * d.tileSize, used := false,
             external := List.replicate p.data.nrTiles.toNat none, internal := [] }
  le : s ≤ d.nrTiles

theorem fresh_of_create {d : Dist1} {ax s : Int} {p : Panel V} (h : create d ax s = some p) : Fresh d ax s p := by
  simp only [create, Option.bind_eq_some_iff] at h
  obtain ⟨data, hd, h⟩ := h
  split at h
  · rename_i hb
    simp only [initRange] at h
    split at h
    · rename_i hc
      simp only [Option.some.injEq] at h
      subst h
      exact ⟨hd, hb, rfl, hc.1⟩
    · simp at h
  · simp at h

theorem Fresh.reach {d : Dist1} {ax s : Int} {p : Panel V} (h : Fresh d ax s p) : Reach p p := by
  refine ⟨.refl p, ?_, ?_, ?_, ?_⟩ <;> rw [h.eq]
  · exact ⟨rfl, rfl⟩
  · exact Or.inl (by simp)

/-- The start offset stays 0 while every start is on a tile boundary. -/
theorem offset_zero : ∀ {os : List (Op V)} {p q : Panel V} {bs : List (Obs V)}, p.startOffset = 0 →
    AlignedStarts p.dist os → p.run m os = some (q, bs) → q.startOffset = 0
  | [], p, q, bs, h0, _, h => by
    simp only [Panel.run, Option.some.injEq, Prod.mk.injEq] at h
    exact h.1 ▸ h0
  | o :: os, p, q, bs, h0, ha, h => by
    simp only [Panel.run, Option.bind_eq_some_iff, Option.map_eq_some_iff] at h
    obtain ⟨⟨r, b⟩, hs, ⟨s, cs⟩, hs', he⟩ := h
    obtain ⟨rfl, rfl⟩ := Prod.mk.inj he
    obtain ⟨h1, _, _, _, _, h6, h7, h8⟩ := step_cases hs
    refine offset_zero ?_ (fun e he => h1.dist ▸ ha e (List.mem_cons_of_mem _ he)) hs'
    cases hot : o.tileStart with
    | true => rw [h7 hot]; exact h0
    | false =>
      cases hoa : o.anyStart with
      | false => rw [(h6 hoa).2.1]; exact h0
      | true =>
        cases o with
        | setRangeStartElement e =>
          rcases h8 e rfl with h9 | h9
          · rw [h9]; exact h0
          · rw [h9]; exact ha e (List.mem_cons_self)
        | setRange => simp [Op.tileStart] at hot
        | setRangeStartTile => simp [Op.tileStart] at hot
        | _ => simp [Op.anyStart] at hoa

theorem replicate_of_all_none {l : List (Option V)} : (l.map fun _ => none) = List.replicate l.length (none : Option V) := by
  induction l with
  | nil => rfl
  | cons a l ih => simp [List.replicate_succ]

/-- C26, ranges given by tile index: after any history of calls in which element starts (if any) lay on tile
boundaries, a reset panel whose range is set behaves, for every later sequence of calls, exactly as a newly
constructed panel whose range is set. -/
theorem C26_reuse_partial {d : Dist1} {ax s0 : Int} {p0 p1 : Panel V} (hc : create d ax s0 = some p0)
    {hist : List (Op V)} {bs : List (Obs V)} (hrun : p0.run m hist = some (p1, bs)) (ha : AlignedStarts d hist)
    (s e : Int) (ops : List (Op V)) :
    behaviour m p1.reset (.setRange s e :: ops) = behaviour m p0 (.setRange s e :: ops) := by
  have hf := fresh_of_create hc
  have hr := hf.reach.run hrun
  have hz : p1.startOffset = 0 := offset_zero (by rw [hf.eq]) (by rw [hf.eq]; exact ha) hrun
  have key : p1.reset.step m (.setRange s e) = p0.step m (.setRange s e) := by
    have e1 := hr.fixed.dist
    have e2 := hr.fixed.axisTile
    have e3 := hr.fixed.data
    have e4 := hr.fixed.bias
    have e5 := hr.fixed.len
    have hext : p1.reset.external = p0.external := by
      show (p1.external.map fun _ => none) = _
      rw [replicate_of_all_none, e5, hf.eq, List.length_replicate]
    have hd0 : p0.dist = d := by rw [hf.eq]
    have hu0 : p0.used = false := by rw [hf.eq]
    have hdim : p0.dim = -1 := by rw [hf.eq]
    have ho0 : p0.startOffset = 0 := by rw [hf.eq]
    have hi0 : p0.internal = [] := by rw [hf.eq]
    have hset : p1.reset.setRange m s e = p0.setRange m s e := by
      unfold setRange isBoundToMatrixWithOffset initRange
      rw [show p1.reset.used = p0.used by rw [hu0]; rfl, show p1.reset.dist = p0.dist from e1]
      split
      · rfl
      · have a2 : p1.reset.axisTile = p0.axisTile := e2
        have a3 : p1.reset.data = p0.data := e3
        have a4 : p1.reset.bias = p0.bias := e4
        have a5 : p1.reset.dim = p0.dim := by rw [hdim]; rfl
        have a6 : p1.reset.startOffset = p0.startOffset := by rw [ho0]; exact hz
        have a8 : p1.reset.internal = p0.internal := by rw [hi0]; rfl
        simp only [a2, a3, a4, a5, a6, a8, hext]
    simp only [step, hset]
  unfold behaviour
  simp only [Panel.run, key]

/-- The two panels differ at most in the start offset, and only where it is not used. -/
def Rel (p q : Panel V) : Prop :=
  ∃ c, p = { q with startOffset := c } ∧
    (q.dist.rank_global_tile q.start = q.dist.rank → c = q.startOffset)

theorem Rel.internalTile {q : Panel V} {c : Int}
    (hc : q.dist.rank_global_tile q.start = q.dist.rank → c = q.startOffset) (i : Int) (k : Nat) :
    Panel.internalTile { q with startOffset := c } i k = Panel.internalTile q i k := by
  by_cases ho : q.dist.rank_global_tile q.start = q.dist.rank
  · rw [hc ho]
  · simp [Panel.internalTile, isFirstGlobalTile, Panel.tileSize, ho]

theorem Rel.step {p q : Panel V} (h : Rel p q) (o : Op V) (ho : o.tileStart = false) :
    (p.step m o = none ∧ q.step m o = none) ∨
    ∃ p' q' b, p.step m o = some (p', b) ∧ q.step m o = some (q', b) ∧ Rel p' q' := by
  obtain ⟨c, rfl, hc⟩ := h
  cases o with
  | setRange => simp [Op.tileStart] at ho
  | setRangeStartTile => simp [Op.tileStart] at ho
  | setRangeStartElement x =>
    simp only [Panel.step, setRangeStartElement, isBoundToMatrixWithOffset]
    split
    · left; simp
    · by_cases hown : q.dist.rank_global_tile (q.dist.global_tile_from_global_element x) = q.dist.rank
      · simp only [hown, if_true]
        split
        · right
          exact ⟨_, _, _, rfl, rfl, _, rfl, fun _ => rfl⟩
        · left; simp
      · simp only [hown, if_false]
        split
        · right
          exact ⟨_, _, _, rfl, rfl, c, rfl, fun hh => absurd hh hown⟩
        · left; simp
  | setRangeEnd e =>
    by_cases hg : (m && q.used || q.isBoundToMatrixWithOffset) = true
    · left
      exact ⟨congrArg (Option.map _) (if_pos hg), congrArg (Option.map _) (if_pos hg)⟩
    · by_cases hc2 : q.start ≤ e ∧ e ≤ q.dist.nrTiles
      · right
        exact ⟨_, _, _, congrArg (Option.map _) ((if_neg hg).trans (if_pos hc2)),
          congrArg (Option.map _) ((if_neg hg).trans (if_pos hc2)), c, rfl, hc⟩
      · left
        exact ⟨congrArg (Option.map _) ((if_neg hg).trans (if_neg hc2)),
          congrArg (Option.map _) ((if_neg hg).trans (if_neg hc2))⟩
  | setDim w =>
    simp only [Panel.step, setDim]
    split
    · left; simp
    · right
      exact ⟨_, _, _, rfl, rfl, c, rfl, hc⟩
  | setTile i v =>
    simp only [Panel.step, setTile]
    rw [show linearIndex m { q with startOffset := c } i = linearIndex m q i from rfl]
    cases linearIndex m q i with
    | none => left; simp
    | some k =>
      simp only [Option.bind_some]
      split
      · left; simp
      · right
        exact ⟨_, _, _, rfl, rfl, c, rfl, hc⟩
  | read i =>
    simp only [Panel.step, read]
    rw [show linearIndex m { q with startOffset := c } i = linearIndex m q i from rfl]
    cases linearIndex m q i with
    | none => left; simp
    | some k =>
      simp only [Option.bind_some]
      cases q.external[k]?.join with
      | some v => right; exact ⟨_, _, _, rfl, rfl, c, rfl, hc⟩
      | none =>
        dsimp only
        rw [Rel.internalTile (q := { q with used := true, internal := k :: q.internal }) hc]
        cases Panel.internalTile { q with used := true, internal := k :: q.internal } i k with
        | none => left; simp
        | some b => right; exact ⟨_, _, _, rfl, rfl, c, rfl, hc⟩
  | readwrite i =>
    simp only [Panel.step, readwrite]
    rw [show linearIndex m { q with startOffset := c } i = linearIndex m q i from rfl]
    cases linearIndex m q i with
    | none => left; simp
    | some k =>
      simp only [Option.bind_some]
      split
      · left; simp
      · rw [Rel.internalTile (q := { q with used := true, internal := k :: q.internal }) hc]
        cases Panel.internalTile { q with used := true, internal := k :: q.internal } i k with
        | none => left; simp
        | some b => right; exact ⟨_, _, _, rfl, rfl, c, rfl, hc⟩
  | _ =>
    right
    exact ⟨_, _, _, rfl, rfl, c, rfl, hc⟩

theorem Rel.behaviour : ∀ {ops : List (Op V)} {p q : Panel V}, Rel p q → (∀ o ∈ ops, o.tileStart = false) →
    Panel.behaviour m p ops = Panel.behaviour m q ops
  | [], _, _, _, _ => rfl
  | o :: ops, p, q, h, ho => by
    unfold Panel.behaviour
    simp only [Panel.run]
    rcases Rel.step (m := m) h o (ho o List.mem_cons_self) with ⟨h1, h2⟩ | ⟨p', q', b, h1, h2, hr⟩
    · rw [h1, h2]
    · rw [h1, h2]
      have ih := Rel.behaviour hr fun x hx => ho x (List.mem_cons_of_mem _ hx)
      unfold Panel.behaviour at ih
      simp only [Option.bind_some, Option.map_map]
      have : ∀ r : Option (Panel V × List (Obs V)),
          Option.map (Prod.snd ∘ fun s : Panel V × List (Obs V) => (s.1, b :: s.2)) r = (r.map Prod.snd).map (b :: ·) := by
        intro r; cases r <;> rfl
      rw [this, this, ih]

/-- C26, ranges given by element index: after *any* history of calls (unaligned starts included), if the calls
"set start element, set end, ..." succeed on a reset panel, a newly constructed panel gives the same answer to
each of them. -/
theorem C26_reuse_element_partial {d : Dist1} {ax s0 : Int} {p0 p1 : Panel V} (hc : create d ax s0 = some p0)
    {hist : List (Op V)} {bs : List (Obs V)} (hrun : p0.run m hist = some (p1, bs))
    (x y : Int) (ops : List (Op V)) (hops : ∀ o ∈ ops, o.tileStart = false) {obs : List (Obs V)}
    (hok : behaviour m p1.reset (.setRangeStartElement x :: .setRangeEnd y :: ops) = some obs) :
    behaviour m p0 (.setRangeStartElement x :: .setRangeEnd y :: ops) = some obs := by
  have hf := fresh_of_create hc
  have hr := hf.reach.run hrun
  have e1 := hr.fixed.dist
  have e2 := hr.fixed.axisTile
  have e3 := hr.fixed.data
  have e4 := hr.fixed.bias
  have e5 := hr.fixed.len
  have hext : (p1.external.map fun _ => none) = p0.external := by
    rw [replicate_of_all_none, e5, hf.eq, List.length_replicate]
  have hd0 : p0.dist = d := by rw [hf.eq]
  have hu0 : p0.used = false := by rw [hf.eq]
  have hdim : p0.dim = -1 := by rw [hf.eq]
  have ho0 : p0.startOffset = 0 := by rw [hf.eq]
  have hi0 : p0.internal = [] := by rw [hf.eq]
  have hst0 : p0.stop = p0.dist.nrTiles := by rw [hf.eq]
  have hstop := hr.stop
  -- the first two calls
  unfold behaviour at hok
  simp only [Panel.run, Option.map_eq_some_iff, Option.bind_eq_some_iff] at hok
  obtain ⟨r, ⟨⟨q1, b1⟩, h1, ⟨w, hw, hr1⟩⟩, hobs⟩ := hok
  obtain ⟨⟨q2, b2⟩, h2, ⟨w2, hw2, hr2⟩⟩ := hw
  subst hr1 hr2
  simp only [Panel.step, Option.map_eq_some_iff] at h1 h2
  obtain ⟨q1', h1, hq1⟩ := h1
  obtain ⟨q2', h2, hq2⟩ := h2
  obtain ⟨rfl, rfl⟩ := Prod.mk.inj hq1
  obtain ⟨rfl, rfl⟩ := Prod.mk.inj hq2
  have key : ∃ f1 f2, p0.setRangeStartElement m x = some f1 ∧ f1.setRangeEnd m y = some f2 ∧ Rel q2' f2 := by
    unfold setRangeStartElement at h1 ⊢
    unfold isBoundToMatrixWithOffset at h1 ⊢
    simp only [reset, e1, e2, e3, e4, hext, Bool.and_false, Bool.false_or] at h1
    simp only [hu0, Bool.and_false, Bool.false_or]
    split at h1
    · simp at h1
    · rename_i hoff
      rw [if_neg hoff]
      by_cases hown : p0.dist.rank_global_tile (p0.dist.global_tile_from_global_element x) = p0.dist.rank
      · simp only [hown, if_true] at h1 ⊢
        split at h1
        · rename_i hcond
          simp only [Option.some.injEq] at h1
          subst h1
          rw [if_pos ⟨hcond.1, by rw [hst0]; exact le_trans hcond.2 (e1 ▸ hstop)⟩]
          unfold setRangeEnd isBoundToMatrixWithOffset at h2
          dsimp only at h2
          simp only [Bool.and_false, Bool.false_or] at h2
          rw [if_neg hoff] at h2
          split at h2
          · rename_i hc2
            simp only [Option.some.injEq] at h2
            subst h2
            have hg : ¬ (m && false || decide (p0.dist.offset ≠ 0)) = true := by simpa using hoff
            refine ⟨_, _, rfl, (if_neg hg).trans (if_pos hc2), ?_⟩
            exact ⟨_, by simp only [hdim, hi0], fun _ => rfl⟩
          · simp at h2
        · simp at h1
      · simp only [hown, if_false] at h1 ⊢
        split at h1
        · rename_i hcond
          simp only [Option.some.injEq] at h1
          subst h1
          rw [if_pos ⟨hcond.1, by rw [hst0]; exact le_trans hcond.2 (e1 ▸ hstop)⟩]
          unfold setRangeEnd isBoundToMatrixWithOffset at h2
          dsimp only at h2
          simp only [Bool.and_false, Bool.false_or] at h2
          rw [if_neg hoff] at h2
          split at h2
          · rename_i hc2
            simp only [Option.some.injEq] at h2
            subst h2
            have hg : ¬ (m && false || decide (p0.dist.offset ≠ 0)) = true := by simpa using hoff
            refine ⟨_, _, rfl, (if_neg hg).trans (if_pos hc2), ?_⟩
            exact ⟨p1.startOffset, by simp only [hdim, hi0], fun hh => absurd hh hown⟩
          · simp at h2
        · simp at h1
  obtain ⟨f1, f2, k1, k2, krel⟩ := key
  have hb := Rel.behaviour (m := m) (ops := ops) krel hops
  unfold behaviour at hb ⊢
  rw [hw2] at hb
  obtain ⟨w3, hw3, hw4⟩ := Option.map_eq_some_iff.1 hb.symm
  simp only [Panel.run, Panel.step, k1, k2, Option.map_some, Option.bind_some, hw3, hw4]
  subst hobs
  rfl

/-- Tile `k` of the internal storage has the size of the matrix tile it stands for. -/
theorem data_tile {p : Params} (hp : p.Valid) (hoff : p.offset = 0) {s0 : Int}
    (hs0 : 0 ≤ s0) {data : Dist1} (hd : setupInternal p.dist s0 = some data) {i b k : Int}
    (hb : p.dist.next_local_tile_from_global_tile s0 = b) (hk : k = i - b)
    (hi : b ≤ i) (hi' : i < p.dist.localNrTiles) :
    data.local_tile_size_of k = p.dist.local_tile_size_of i ∧ 0 ≤ k ∧ k < data.nrTiles := by
  have w := hp.wf
  have ho : p.dist.offset = 0 := by rw [hp.offset_eq, hoff, Int.zero_emod]
  have hlo : p.dist.local_tile_element_offset = 0 := by
    have : p.dist.global_tile_element_offset = 0 := by rw [hp.gteo_eq, hoff, Int.zero_emod]
    unfold Dist1.local_tile_element_offset
    rw [this, ite_self]
  have htp : 0 < p.tile := hp.2.2.1
  have hts : p.dist.tileSize = p.tile := rfl
  have hb0 : 0 ≤ p.dist.next_local_tile_from_global_tile s0 := w.cyc.next_local_nonneg hs0
  rw [hb] at hb0
  simp only [setupInternal, hb, ho, Int.add_zero, ite_self, or_true, if_true] at hd
  split at hd
  · rename_i hc
    simp only [Option.some.injEq] at hd
    subst hd
    have hbnd := w.localSize_bounds (by omega)
    rw [hlo, hts] at hbnd
    have hn0 : (0:Int).tmod p.tile = 0 := by simp
    have hgo : Dist1.global_tile_element_offset (Dist1.buildLocal (p.dist.localSize - b * p.dist.tileSize) p.dist.tileSize 0) = 0 := by
      simp [Dist1.buildLocal, Dist1.normalize, Dist1.compute_global_nr_tiles, Dist1.global_tile_element_offset, cmod]
    have hll : Dist1.local_tile_element_offset (Dist1.buildLocal (p.dist.localSize - b * p.dist.tileSize) p.dist.tileSize 0) = 0 := by
      unfold Dist1.local_tile_element_offset
      rw [hgo, ite_self]
    have hsz : Dist1.localSize (Dist1.buildLocal (p.dist.localSize - b * p.dist.tileSize) p.dist.tileSize 0) =
      p.dist.localSize - b * p.dist.tileSize := rfl
    have htz : Dist1.tileSize (Dist1.buildLocal (p.dist.localSize - b * p.dist.tileSize) p.dist.tileSize 0) =
      p.dist.tileSize := rfl
    have hmul : (p.dist.localNrTiles - 1) * p.tile ≥ i * p.tile :=
      Int.mul_le_mul_of_nonneg_right (by omega) (by omega)
    have hkk : k * p.tile = i * p.tile - b * p.tile := by rw [hk]; ring
    refine ⟨?_, by omega, ?_⟩
    · unfold Dist1.local_tile_size_of
      rw [hll, hsz, htz, hlo, hts]
      by_cases hi0 : i = 0
      · have hk0 : k = 0 := by omega
        have hbz : b = 0 := by omega
        rw [if_pos hk0, if_pos hi0, hbz]
        omega
      · rw [if_neg hi0, Int.add_zero, Int.add_zero]
        by_cases hk0 : k = 0
        · rw [if_pos hk0]
          have : b = i := by omega
          rw [this]; omega
        · rw [if_neg hk0, hkk]; omega
    · have hpos : 0 < p.dist.localSize - b * p.tile := by
        have := Int.mul_le_mul_of_nonneg_right (show b ≤ i by omega) (le_of_lt htp)
        omega
      have hnt : (Dist1.buildLocal (p.dist.localSize - b * p.dist.tileSize) p.dist.tileSize 0).nrTiles =
          ceilDiv (p.dist.localSize - b * p.tile) p.tile := by
        refine (if_pos (show p.dist.localSize - b * p.dist.tileSize > 0 from hpos)).trans ?_
        refine congrArg (fun z => ceilDiv z p.tile) ?_
        refine (congrArg (fun z => p.dist.localSize - b * p.tile + z) (?_ : _ = (0:Int))).trans (Int.add_zero _)
        simp [Dist1.normalize, Dist1.global_tile_element_offset, cmod]
      rw [hnt]
      by_contra hcon
      have hcd : p.dist.localSize - b * p.tile ≤ ceilDiv (p.dist.localSize - b * p.tile) p.tile * p.tile := by
        obtain ⟨q, r, hq, hr, hr', he⟩ := exists_divmod (a := p.dist.localSize - b * p.tile + p.tile - 1) (by omega) htp
        rw [show ceilDiv (p.dist.localSize - b * p.tile) p.tile = q from cdiv_eq hq hr hr' he]
        omega
      have := Int.mul_le_mul_of_nonneg_right (show ceilDiv (p.dist.localSize - b * p.tile) p.tile ≤ k by omega) (le_of_lt htp)
      omega
  · simp at hd

/-- C26, sizes: after any history of calls and a reset, once the range starts at element `x`, every tile of the
range can be accessed and covers exactly the elements of its matrix tile from `x` on; distinct tiles have
distinct storage. -/
theorem C26_tile_sizes {p : Params} (hp : p.Valid) (hoff : p.offset = 0) {ax s0 : Int}
    (hax : 0 ≤ ax) (hs0 : 0 ≤ s0) {p0 p1 p2 : Panel V} (hc : create p.dist ax s0 = some p0)
    {hist : List (Op V)} {bs : List (Obs V)} (hrun : p0.run m hist = some (p1, bs))
    {x : Int} (hx : 0 ≤ x) (hx' : x ≤ p.size) (hset : p1.reset.setRangeStartElement m x = some p2)
    {i : Int} (hi : p2.startLocal ≤ i) (hi' : i < p2.stopLocal) :
    let t := p.dist.global_tile_from_local_tile i
    p.tileOf x ≤ t ∧ t < p2.stop ∧
    ∃ q, p2.readwrite m i =
      some (q, .tile (i - p.dist.next_local_tile_from_global_tile s0).toNat ax (p.tileEnd t - max (p.tileBegin t) x)) := by
  intro t
  have w := hp.wf
  have hf := fresh_of_create hc
  have hr := hf.reach.run hrun
  have e1 : p1.dist = p.dist := by rw [hr.fixed.dist, hf.eq]
  have e2 : p1.axisTile = ax := by rw [hr.fixed.axisTile, hf.eq]
  have e3 : p1.data = p0.data := hr.fixed.data
  have e4 : p1.bias = p.dist.next_local_tile_from_global_tile s0 := by rw [hr.fixed.bias, hf.eq]
  have e5 : p1.external.length = p0.data.nrTiles.toNat := by rw [hr.fixed.len, hf.eq, List.length_replicate]
  have hloc := hr.loc.2
  have hstop := hr.stop
  rw [e1] at hloc hstop
  have ho : p.dist.offset = 0 := by rw [hp.offset_eq, hoff, Int.zero_emod]
  have hgo : p.dist.global_tile_element_offset = 0 := by rw [hp.gteo_eq, hoff, Int.zero_emod]
  have htp : 0 < p.tile := hp.2.2.1
  have hts : p.dist.tileSize = p.tile := rfl
  have hg0 : p.dist.global_tile_from_global_element x = x / p.tile := by
    rw [hp.tileOf_eq hx, Params.tileOf, hoff]; simp
  have hst0 : 0 ≤ x / p.tile := Int.ediv_nonneg hx (by omega)
  -- the state after setting the start
  have hstart : p2.start = x / p.tile ∧ p2.startLocal = p.dist.next_local_tile_from_global_tile (x / p.tile) ∧
      p2.stop = p1.stop ∧ p2.stopLocal = p1.stopLocal ∧ p2.dist = p.dist ∧ p2.axisTile = ax ∧ p2.data = p0.data ∧
      p2.bias = p.dist.next_local_tile_from_global_tile s0 ∧ p2.dim = -1 ∧ p2.bias ≤ p2.startLocal ∧
      p2.start ≤ p2.stop ∧ p2.external = p1.external.map (fun _ => none) ∧
      (p.dist.rank_global_tile (x / p.tile) = p.dist.rank → p2.startOffset = p.dist.tile_element_from_global_element x) := by
    unfold setRangeStartElement isBoundToMatrixWithOffset at hset
    simp only [reset, e1, hg0, Bool.and_false, Bool.false_or, ho] at hset
    split at hset
    · simp at hset
    · by_cases hown : p.dist.rank_global_tile (x / p.tile) = p.dist.rank
      · simp only [hown, if_true] at hset
        split at hset
        · rename_i hcc
          simp only [Option.some.injEq] at hset
          subst hset
          exact ⟨rfl, rfl, rfl, rfl, rfl, e2, e3, e4, rfl, hcc.1, hcc.2, rfl, fun _ => rfl⟩
        · simp at hset
      · simp only [hown, if_false] at hset
        split at hset
        · rename_i hcc
          simp only [Option.some.injEq] at hset
          subst hset
          exact ⟨rfl, rfl, rfl, rfl, rfl, e2, e3, e4, rfl, hcc.1, hcc.2, rfl, fun hh => absurd hh hown⟩
        · simp at hset
  obtain ⟨a1, a2, a3, a4, a5, a6, a7, a8, a9, a10, a11, a12, a13⟩ := hstart
  have hb0 : 0 ≤ p.dist.next_local_tile_from_global_tile s0 := w.cyc.next_local_nonneg hs0
  rw [a8] at a10
  have hi0 : 0 ≤ i := by omega
  have hstop0 : 0 ≤ p1.stop := by rw [← a3]; omega
  have hib : i < p.dist.localNrTiles := by
    have : p.dist.next_local_tile_from_global_tile p1.stop ≤ p.dist.localNrTiles := by
      rw [w.localNrTiles_eq]; exact w.cyc.next_local_mono hstop0 hstop
    rw [a4, hloc] at hi'
    omega
  obtain ⟨g0, g1, g2⟩ := w.cyc.global_local hi0
  have ht0 : 0 ≤ t := g0
  have htlt : t < p2.stop := by
    rw [a3]
    exact w.cyc.global_lt hi0 hstop0 (by rw [a4, hloc] at hi'; exact hi')
  have htN : t < p.dist.nrTiles := by omega
  have hnl : p.dist.next_local_tile_from_global_tile t = i := by
    rw [← g2]; exact (w.cyc.local_eq_next g0 g1.symm).symm
  have hge : x / p.tile ≤ t := by
    by_contra hlt
    have := w.cyc.next_local_strict (a := t) (b := x / p.tile) ht0 (by omega) g1.symm
    change p.dist.next_local_tile_from_global_tile t < p.dist.next_local_tile_from_global_tile (x / p.tile) at this
    omega
  have hdt := data_tile hp hoff hs0 (data := p0.data) hf.data rfl (i := i) rfl (by omega) hib
  have htof : p.tileOf x = x / p.tile := by rw [Params.tileOf, hoff]; simp
  have htb : p.tileBegin t = t * p.tile := by
    unfold Params.tileBegin
    rw [hoff]
    have := Int.mul_nonneg ht0 (le_of_lt htp)
    simp only [Int.zero_ediv, Int.zero_add, Int.sub_zero]
    omega
  have hte : p.tileEnd t = min p.size ((t + 1) * p.tile) := by
    unfold Params.tileEnd
    rw [hoff]; simp
  refine ⟨by omega, htlt, ?_⟩
  have hlin : p2.linearIndex m i = some (i - p.dist.next_local_tile_from_global_tile s0).toNat := by
    unfold linearIndex
    have : (m && !(decide (p2.startLocal ≤ i) && decide (i < p2.stopLocal))) = false := by
      simp [hi, hi']
    rw [this, a8, a12, List.length_map, e5]
    simp only [Bool.false_eq_true, if_false]
    rw [if_pos (by omega)]
  have hnone : ∀ k : Nat, (p2.external[k]?.join).isSome = false := by
    intro k
    rw [a12, List.getElem?_map]
    cases p1.external[k]? <;> rfl
  have htsz : p.dist.global_tile_size_of t = min p.size ((t + 1) * p.tile) - t * p.tile := by
    have he : (t + 1) * p.tile = t * p.tile + p.tile := by ring
    unfold Dist1.global_tile_size_of
    rw [hgo, hts, he]
    show (if t = 0 then min (p.tile - 0) p.size else min p.tile (p.size + 0 - t * p.tile)) = _
    split
    · rename_i h; rw [h]; omega
    · omega
  have hpos := w.global_tsz_pos ht0 htN
  have hlt : p.dist.local_tile_size_of i = p.dist.global_tile_size_of t := w.local_tsz_eq hi0 hib
  have hkn : (((i - p.dist.next_local_tile_from_global_tile s0).toNat : Nat) : Int) =
      i - p.dist.next_local_tile_from_global_tile s0 := Int.toNat_of_nonneg (by omega)
  -- position of x in its tile
  have hxd := Int.emod_add_mul_ediv x p.tile
  have hx0 := Int.emod_nonneg x (by omega : p.tile ≠ 0)
  have hx1 := Int.emod_lt_of_pos x htp
  have hxe : p.dist.tile_element_from_global_element x = x - x / p.tile * p.tile := by
    have h := tile_element_eq (e := x) (off := p.dist.global_tile_element_offset) (t := x / p.tile) (re := x % p.tile)
      htp hst0 hx0 hx1 (by rw [hgo, Int.add_zero]; linarith [mul_comm p.tile (x / p.tile)])
    unfold Dist1.tile_element_from_global_element
    rw [hts, h, hgo, ite_self]
    linarith [mul_comm p.tile (x / p.tile)]
  have hxt : x = x / p.tile * p.tile + x % p.tile := by linarith [mul_comm p.tile (x / p.tile)]
  have hfirst : p2.isFirstGlobalTile i = decide (t = x / p.tile) := by
    unfold isFirstGlobalTile
    rw [a1, a2, a5]
    by_cases ht : t = x / p.tile
    · have hown : p.dist.rank_global_tile (x / p.tile) = p.dist.rank := by rw [← ht]; exact g1
      rw [← ht, hnl]
      simp
      exact g1
    · have : ¬ (p.dist.rank_global_tile (x / p.tile) = p.dist.rank ∧
          p.dist.next_local_tile_from_global_tile (x / p.tile) = i) := by
        rintro ⟨h1, h2⟩
        have := w.cyc.next_local_strict (a := x / p.tile) (b := t) hst0 (by omega) h1.symm
        change p.dist.next_local_tile_from_global_tile (x / p.tile) < p.dist.next_local_tile_from_global_tile t at this
        omega
      simp [ht]
      intro h1 h2
      exact this ⟨h1, h2⟩
  have hsize : p.dist.global_tile_size_of t - (if p2.isFirstGlobalTile i then p2.startOffset else 0) =
      p.tileEnd t - max (p.tileBegin t) x := by
    rw [hfirst, htsz, htb, hte]
    by_cases ht : t = x / p.tile
    · have hown : p.dist.rank_global_tile (x / p.tile) = p.dist.rank := by rw [← ht]; exact g1
      have hso := a13 hown
      rw [hxe] at hso
      simp only [ht, decide_true, if_true, hso]
      omega
    · have : (x / p.tile + 1) * p.tile ≤ t * p.tile := Int.mul_le_mul_of_nonneg_right (by omega) (by omega)
      have he : (x / p.tile + 1) * p.tile = x / p.tile * p.tile + p.tile := by ring
      simp only [ht, decide_false, Bool.false_eq_true, if_false]
      omega
  have hle : p.tileEnd t - max (p.tileBegin t) x ≤ p.dist.global_tile_size_of t := by
    rw [htsz, htb, hte]; omega
  have hnn : 0 ≤ p.tileEnd t - max (p.tileBegin t) x := by
    rw [htb, hte]
    rw [htsz] at hpos
    by_cases ht : t = x / p.tile
    · have he : (t + 1) * p.tile = t * p.tile + p.tile := by ring
      rw [← ht] at hxt
      omega
    · have : (x / p.tile + 1) * p.tile ≤ t * p.tile := Int.mul_le_mul_of_nonneg_right (by omega) (by omega)
      have he : (x / p.tile + 1) * p.tile = x / p.tile * p.tile + p.tile := by ring
      omega
  unfold readwrite
  rw [hlin]
  simp only [Option.bind_some, hnone, Bool.false_eq_true, if_false]
  have hint : ∀ u : Panel V, u.dist = p2.dist → u.axisTile = p2.axisTile → u.data = p2.data → u.dim = p2.dim →
      u.start = p2.start → u.startLocal = p2.startLocal → u.startOffset = p2.startOffset →
      u.internalTile i (i - p.dist.next_local_tile_from_global_tile s0).toNat =
        some (.tile (i - p.dist.next_local_tile_from_global_tile s0).toNat ax (p.tileEnd t - max (p.tileBegin t) x)) := by
    intro u u1 u2 u3 u4 u5 u6 u7
    have hfu : u.isFirstGlobalTile i = p2.isFirstGlobalTile i := by
      unfold isFirstGlobalTile; rw [u1, u5, u6]
    unfold internalTile isFirstGlobalTileFull isBoundToMatrixWithOffset Panel.tileSize
    rw [hfu, u1, u2, u3, u4, u7, a5, a6, a7, a9, ho, hkn, hdt.1, hlt]
    simp only [ne_eq, not_true_eq_false, decide_false, Bool.not_false, Bool.and_true]
    split
    · rename_i hh
      simp only [Bool.and_eq_true, decide_eq_true_eq] at hh
      rw [hh.2.1, hh.2.2] at hsize
      simp only [if_true, Int.sub_zero] at hsize
      rw [hsize]
    · simp only [show ((-1:Int) < 0) from by omega, if_true]
      rw [show p.dist.global_tile_from_local_tile i = t from rfl, hsize, if_pos ⟨⟨hax, le_refl _⟩, hnn, hle⟩]
  exact ⟨_, congrArg (Option.map _) (hint { p2 with used := true, internal := _ :: p2.internal } rfl rfl rfl rfl rfl rfl rfl)⟩

/-- The witness that the alignment hypothesis is needed: `start_offset_` of an element start survives
`reset()` and cuts the first tile of a range later set by tile index. A new panel hands out a 2-row tile, the
reused one a 1-row tile. -/
theorem C26_stale_start_offset :
    ∃ (d : Dist1) (p0 p1 : Panel Unit) (bs : List (Obs Unit)), create d 2 0 = some p0 ∧
      p0.run false [.setRangeStartElement 1, .reset] = some (p1, bs) ∧
      behaviour false p1 [.setRange 0 3, .readwrite 0] = some [.done, .tile 0 2 1] ∧
      behaviour false p0 [.setRange 0 3, .readwrite 0] = some [.done, .tile 0 2 2] := by
  refine ⟨(Params.mk 6 2 2 1 0 0 0).dist, ?_⟩
  obtain ⟨p0, h0⟩ : ∃ p0 : Panel Unit, create (Params.mk 6 2 2 1 0 0 0).dist 2 0 = some p0 :=
    Option.isSome_iff_exists.1 (by decide)
  obtain ⟨⟨p1, bs⟩, h1⟩ : ∃ r, p0.run false [.setRangeStartElement 1, .reset] = some r := by
    have : ((create (V := Unit) (Params.mk 6 2 2 1 0 0 0).dist 2 0).bind fun p0 =>
      p0.run false [.setRangeStartElement 1, .reset]).isSome = true := by decide
    rw [h0] at this
    exact Option.isSome_iff_exists.1 this
  refine ⟨p0, p1, bs, h0, h1, ?_, ?_⟩
  · have : ((create (V := Unit) (Params.mk 6 2 2 1 0 0 0).dist 2 0).bind fun p0 =>
      (p0.run false [.setRangeStartElement 1, .reset]).bind fun r =>
        behaviour false r.1 [.setRange 0 3, .readwrite 0]) = some [.done, .tile 0 2 1] := by decide
    rw [h0, Option.bind_some, h1] at this
    exact this
  · have : ((create (V := Unit) (Params.mk 6 2 2 1 0 0 0).dist 2 0).bind fun p0 =>
      behaviour false p0 [.setRange 0 3, .readwrite 0]) = some [.done, .tile 0 2 2] := by decide
    rw [h0] at this
    exact this

/-- The panel of a 10-row matrix with tiles of 3 rows on the first of two ranks (tiles 0 and 2). -/
private def ex : Option (Panel Nat) := create (Params.mk 10 3 3 2 0 0 0).dist 2 0

/-- Non-vacuity of `C26_reuse_partial`: a history that fills and narrows the panel, then reuse. -/
example : ∃ (p0 p1 : Panel Nat) (bs : List (Obs Nat)), create (Params.mk 10 3 3 2 0 0 0).dist 2 0 = some p0 ∧
    p0.run true [.setRange 1 3, .setDim 1, .setTile 1 7, .read 1] = some (p1, bs) ∧
    AlignedStarts (Params.mk 10 3 3 2 0 0 0).dist [.setRange 1 3, .setDim 1, .setTile 1 7, (.read 1 : Op Nat)] ∧
    behaviour true p1.reset [.setRange 0 4, .readwrite 0, .read 1] = some [.done, .tile 0 2 3, .tile 1 2 3] := by
  have h : ∃ p0 p1 bs, ex = some p0 ∧ p0.run true [.setRange 1 3, .setDim 1, .setTile 1 7, .read 1] = some (p1, bs) ∧
      behaviour true p1.reset [.setRange 0 4, .readwrite 0, .read 1] = some [.done, .tile 0 2 3, .tile 1 2 3] := by
    refine ⟨_, _, _, rfl, rfl, ?_⟩
    decide
  obtain ⟨p0, p1, bs, h1, h2, h3⟩ := h
  refine ⟨p0, p1, bs, h1, h2, ?_, h3⟩
  intro e he
  simp at he

/-- Non-vacuity of `C26_reuse_element_partial` and `C26_tile_sizes`: a history with an unaligned start, then a
range starting inside tile 2 (elements 6..8): the tile has 2 rows. -/
example : ∃ (p0 p1 p2 : Panel Nat) (bs : List (Obs Nat)), create (Params.mk 10 3 3 2 0 0 0).dist 2 0 = some p0 ∧
    p0.run true [.setRangeStartElement 1, .readwrite 0] = some (p1, bs) ∧
    p1.reset.setRangeStartElement true 7 = some p2 ∧ p2.startLocal = 1 ∧ p2.stopLocal = 2 ∧
    behaviour true p1.reset [.setRangeStartElement 7, .setRangeEnd 4, .readwrite 1] =
      some [.done, .done, .tile 1 2 2] := by
  have h : ∃ p0 p1 p2 bs, ex = some p0 ∧ p0.run true [.setRangeStartElement 1, .readwrite 0] = some (p1, bs) ∧
      p1.reset.setRangeStartElement true 7 = some p2 ∧ p2.startLocal = 1 ∧ p2.stopLocal = 2 ∧
      behaviour true p1.reset [.setRangeStartElement 7, .setRangeEnd 4, .readwrite 1] =
      some [.done, .done, .tile 1 2 2] := by
    refine ⟨_, _, _, _, rfl, rfl, rfl, ?_⟩
    decide
  exact h

/-- The witness that success on the reused panel must be assumed: `reset()` keeps the old range, so moving the
start past the old end aborts on the reused panel although the same calls succeed on a new one. -/
theorem C26_reset_keeps_range :
    ∃ (d : Dist1) (p0 p1 : Panel Nat) (bs : List (Obs Nat)), create d 2 0 = some p0 ∧
      p0.run false [.setRange 0 1, .reset] = some (p1, bs) ∧
      behaviour false p1 [.setRangeStartElement 7, .setRangeEnd 4] = none ∧
      behaviour false p0 [.setRangeStartElement 7, .setRangeEnd 4] = some [.done, .done] := by
  refine ⟨(Params.mk 10 3 3 2 0 0 0).dist, ?_⟩
  have h : ∃ p0 p1 bs, ex = some p0 ∧ p0.run false [.setRange 0 1, .reset] = some (p1, bs) ∧
      behaviour false p1 [.setRangeStartElement 7, .setRangeEnd 4] = none ∧
      behaviour false p0 [.setRangeStartElement 7, .setRangeEnd 4] = some [.done, .done] := by
    refine ⟨_, _, _, rfl, rfl, ?_⟩
    decide
  exact h

/-- A panel that starts one past the last tile (allowed by "start <= 1 past the panel last tile") cannot be
constructed on the rank whose last tile is not full. -/
theorem C26_empty_panel_aborts :
    (create (Params.mk 10 3 3 2 1 0 0).dist 2 4 : Option (Panel Nat)) = none ∧
    (create (Params.mk 10 3 3 2 0 0 0).dist 2 4 : Option (Panel Nat)) ≠ none := by
  constructor
  · decide
  · intro h
    have : (create (Params.mk 10 3 3 2 0 0 0).dist 2 4 : Option (Panel Nat)).isSome = true := by decide
    rw [h] at this
    exact absurd this (by decide)

end Panel
end DLAF
