import Verif.Model.DistAlg
import Verif.Lemmas.DistCholesky
/- Reasoning about distributed algorithms: an abstract state per process, the effect of local work on it, and phases of all processes. -/
namespace DLAF
section
variable {K : Type*}

theorem PanelIs.setDim {p : Params} {tall : Bool} {tile ax s e : Int} {v : VPanel K} {dbg : Bool}
    (h : PanelIs p tall tile ax s e (fun _ => none) v) {w : Int} (h0 : 0 < w) (h1 : w ≤ tile) :
    ∃ v', v.setDim dbg w = some v' ∧ PanelIs p tall tile w s e (fun _ => none) v' := by
  have hu : v.p.used = false := by
    by_contra hc
    obtain ⟨i, hi⟩ := h.used (by simpa using hc)
    exact hi rfl
  have hcond : (dbg && v.p.used || !(decide (0 < w) && decide (w ≤ v.p.axisTile))) = false := by
    rw [hu, h.axis]
    simp [h0, h1]
  refine ⟨{ v with p := { v.p with dim := w } }, by
    unfold VPanel.setDim Panel.setDim
    rw [hcond]
    rfl, ?_⟩
  exact ⟨h.dist, h.axis, h.tallEq, h.data, h.bias, h.len, Or.inr ⟨rfl, h0, h1⟩, h.off, h.start, h.stop, h.startLocal, h.stopLocal, h.rng,
    h.used, h.supp, h.empty, by simp⟩

/-- The memory of a tile that has not been written. -/
def junkBlk (tall : Bool) (ax co : Int) (j : Nat → Nat → K) : Blk K :=
  if tall then ⟨co.toNat, ax.toNat, j⟩ else ⟨ax.toNat, co.toNat, j⟩

theorem junkBlk_fits {tall : Bool} {ax co : Int} (j : Nat → Nat → K) (h1 : 0 ≤ ax) (h2 : 0 ≤ co) :
    VPanel.fits tall (junkBlk tall ax co j) ax co = true := by
  unfold junkBlk VPanel.fits
  cases tall <;> simp [h1, h2]

theorem PanelIs.tileSize_eq {p : Params} {tall : Bool} {tile ax s e : Int} {f : Int → Option (Blk K)} {v : VPanel K}
    (h : PanelIs p tall tile ax s e f v) (i : Int) : v.p.tileSize i = (ax, tsz p i) := by
  unfold Panel.tileSize
  rw [h.off, h.axis, h.dist]
  rcases h.dim with ⟨h4, rfl⟩ | ⟨h4, h6, _⟩
  · rw [h4]; simp [tsz]
  · rw [h4, if_neg (by omega)]; simp [tsz]

/-- A panel with uninitialized tiles: some content, and the tiles that are set. -/
theorem PanelIs.fill {p : Params} {tall : Bool} {tile ax s e : Int} {f : Int → Option (Blk K)} {v : VPanel K}
    (h : PanelIs p tall tile ax s e f v) (hp : Tiled p) (hax : 0 ≤ ax) (junk : Nat → Nat → Nat → K) :
    ∃ W : Int → Blk K, PanelIs p tall tile ax s e (fun i => if 0 ≤ i ∧ i < p.dist.localNrTiles then some ((f i).getD (W i)) else none)
      (v.fill junk) ∧ ∀ i, 0 ≤ i → i < p.dist.localNrTiles → VPanel.fits tall (W i) ax (tsz p i) = true := by
  have hsz := h.tileSize_eq
  let J : Int → Blk K := fun i => junkBlk tall ax (tsz p i) (junk i.toNat)
  have hJ : ∀ i, 0 ≤ i → i < p.dist.localNrTiles → VPanel.fits tall (J i) ax (tsz p i) = true :=
    fun i h0 h1 => junkBlk_fits _ hax (tsz_nonneg hp h0 h1)
  have hm : ∀ i : Int, 0 ≤ i → (v.fill junk).mem i.toNat = some ((v.mem i.toNat).getD (J i)) := by
    intro i hi
    unfold VPanel.fill
    dsimp only
    rw [h.bias, show (((i.toNat : Nat) : Int) + 0) = i by omega, hsz, h.tallEq]
    rfl
  have hcl : ∀ i, f i = none → 0 ≤ i → i < p.dist.localNrTiles → v.p.external[i.toNat]?.join = none :=
    fun i h1 h2 h3 => (h.empty i h2 h3 h1).1
  refine ⟨J, ?_, hJ⟩
  refine ⟨h.dist, h.axis, h.tallEq, h.data, h.bias, h.len, h.dim, h.off, h.start, h.stop, h.startLocal, h.stopLocal, h.rng, ?_, ?_, ?_, ?_⟩
  · intro hu
    obtain ⟨i, hi⟩ := h.used hu
    obtain ⟨h1, h2⟩ := h.supp i hi
    exact ⟨i, by simp [h1, h2]⟩
  · intro i hi
    by_contra hc
    rw [if_neg hc] at hi
    exact hi rfl
  · intro i h0 h1 hi
    rw [if_pos ⟨h0, h1⟩] at hi
    cases hi
  · intro i b h0 h1 hi
    rw [if_pos ⟨h0, h1⟩, Option.some.injEq] at hi
    subst hi
    cases hf : f i with
    | none =>
      have := h.empty i h0 h1 hf
      simp only [Option.getD_none]
      refine ⟨hJ i h0 h1, Or.inr ⟨this.1, ?_⟩⟩
      rw [hm i h0, this.2.2]
      rfl
    | some b =>
      simp only [Option.getD_some]
      obtain ⟨q1, q2⟩ := h.full i b h0 h1 hf
      refine ⟨q1, q2.imp id fun q => ⟨q.1, ?_⟩⟩
      rw [hm i h0, q.2]
      rfl


/-! ### Processes -/

/-- The panels of an algorithm: the distribution of the matrix of each panel, its axis and shape; whether the algorithm changes the start or
end of its range. -/
structure DEnv where
  G : List Coord2
  pd : Nat → Params2
  axis : Nat → Coord
  tall : Nat → Bool
  tile : Nat → Int
  freeS : Nat → Bool
  freeE : Nat → Bool
  /-- The panel never refers to tiles of a matrix. -/
  own : Nat → Bool := fun _ => false
  /-- The algorithm changes the range of panels: the matrices have no offset. -/
  ranged : Bool := true

/-- The panel does not refer to tiles of a matrix. -/
def NoExt (v : VPanel K) : Prop := ∀ i : Nat, v.p.external[i]?.join = none

theorem PanelIs.noExt {p : Params} {tall : Bool} {tile ax s e : Int} {v : VPanel K} (h : PanelIs p tall tile ax s e (fun _ => none) v) : NoExt v := by
  intro i
  by_cases hi : i < p.dist.localNrTiles.toNat
  · exact (h.empty (i : Int) (by omega) (by omega) rfl).1
  · rw [List.getElem?_eq_none (by rw [h.len]; omega)]
    rfl

theorem NoExt.setDim {dbg : Bool} {w : Int} {v v' : VPanel K} (h : NoExt v) (e : v.setDim dbg w = some v') : NoExt v' := by
  unfold VPanel.setDim Panel.setDim at e
  split at e
  · cases e
  · cases e; exact h

theorem NoExt.setRange {dbg : Bool} {s t : Int} {v v' : VPanel K} (h : NoExt v) (e : v.setRange dbg s t = some v') : NoExt v' := by
  unfold VPanel.setRange Panel.setRange Panel.initRange at e
  split at e
  · cases e
  · dsimp only at e
    split at e
    · cases e; exact h
    · cases e

theorem NoExt.setRangeStart {dbg : Bool} {s : Int} {v v' : VPanel K} (h : NoExt v) (e : v.setRangeStart dbg s = some v') : NoExt v' := by
  unfold VPanel.setRangeStart Panel.setRangeStartTile at e
  split at e
  · cases e
  · dsimp only at e
    split at e
    · cases e; exact h
    · cases e

theorem NoExt.read {dbg : Bool} {i : Int} {v v' : VPanel K} {b : Blk K} (h : NoExt v) (e : v.read dbg i = some (v', b)) : NoExt v' := by
  unfold VPanel.read Panel.read at e
  cases hl : v.p.linearIndex dbg i with
  | none => rw [hl] at e; cases e
  | some k =>
    rw [hl, Option.bind_some, h k] at e
    dsimp only at e
    rw [Option.bind_eq_some_iff] at e
    obtain ⟨r, e1, e2⟩ := e
    rw [Option.map_eq_some_iff] at e1
    obtain ⟨q, _, rfl⟩ := e1
    dsimp only at e2
    split at e2
    · cases e2; exact h
    · rw [Option.bind_eq_some_iff] at e2
      obtain ⟨_, _, e3⟩ := e2
      split at e3
      · cases e3; exact h
      · cases e3
    · cases e2

theorem NoExt.reset (v : VPanel K) : NoExt v.reset := by
  intro i
  simp only [VPanel.reset, Panel.reset, List.getElem?_map]
  cases v.p.external[i]? <;> rfl

theorem NoExt.fill {junk : Nat → Nat → Nat → K} {v : VPanel K} (h : NoExt v) : NoExt (v.fill junk) := h

/-- The distribution of panel `n` along its tiles, on process `r`. -/
abbrev DEnv.crd (E : DEnv) (n : Nat) (r : Coord2) : Params := (E.pd n).at' (E.axis n).orth r

structure DEnv.OK (E : DEnv) : Prop where
  plain : ∀ n c, Tiled ((E.pd n).get c)
  ranks : ∀ n, (E.pd n).ranks = E.G
  tile : ∀ n, 0 ≤ E.tile n
  range : E.ranged = true → ∀ n c, Plain ((E.pd n).get c)

theorem DEnv.OK.crdP {E : DEnv} (h : E.OK) (he : E.ranged = true) (n : Nat) {r : Coord2} (hr : r ∈ E.G) : Plain (E.crd n r) :=
  Params2.plain (h.range he n _) (h.ranks n ▸ hr)

theorem DEnv.OK.nodup {E : DEnv} (h : E.OK) : E.G.Nodup := h.ranks 0 ▸ Params2.ranks_nodup _

theorem DEnv.OK.crd {E : DEnv} (h : E.OK) (n : Nat) {r : Coord2} (hr : r ∈ E.G) : Tiled (E.crd n r) :=
  Params2.tiled (h.plain n _) (h.ranks n ▸ hr)

/-- What is known about a panel. -/
structure PanD (K : Type*) where
  ax : Int
  s : Int
  e : Int
  f : Int → Option (Blk K)

/-- The matrices of a process, and its current panels. -/
structure Abs (K : Type*) where
  mat : Nat → Coord2 → Blk K
  cur : Nat → PanD K

/-- An unused panel. -/
def IdlePanel (E : DEnv) (n : Nat) (r : Coord2) (v : VPanel K) : Prop :=
  ∃ s e, (E.freeS n = false → s = 0) ∧ (E.freeE n = false → e = (E.crd n r).dist.nrTiles) ∧ 0 ≤ s ∧
    PanelIs (E.crd n r) (E.tall n) (E.tile n) (E.tile n) s e (fun _ => none) v

/-- State `x` of process `r` is described by `a`; `w` is the workspace in use. -/
structure PInv (E : DEnv) (r : Coord2) (w : Bool) (a : Abs K) (x : DSt K) : Prop where
  mat : x.mat = a.mat
  cur : ∀ n, PanelIs (E.crd n r) (E.tall n) (E.tile n) (a.cur n).ax (a.cur n).s (a.cur n).e (a.cur n).f (x.pan n w)
  own : ∀ n, E.own n = true → NoExt (x.pan n w)
  idle : ∀ n, IdlePanel E n r (x.pan n (!w))

/-- Between iterations: no panel is in use. -/
structure DIdle (E : DEnv) (r : Coord2) (M : Nat → Coord2 → Blk K) (x : DSt K) : Prop where
  mat : x.mat = M
  idle : ∀ n b, IdlePanel E n r (x.pan n b)

theorem DIdle.start {E : DEnv} {r : Coord2} {M : Nat → Coord2 → Blk K} {x : DSt K} (h : DIdle E r M x) (w : Bool) :
    ∃ ss se : Nat → Int, PInv E r w ⟨M, fun n => ⟨E.tile n, ss n, se n, fun _ => none⟩⟩ x ∧
      ∀ n, 0 ≤ ss n ∧ (E.freeS n = false → ss n = 0) ∧ (E.freeE n = false → se n = (E.crd n r).dist.nrTiles) := by
  choose ss se h1 h2 h3 h4 using fun n => h.idle n w
  exact ⟨ss, se, ⟨h.mat, h4, fun n _ => (h4 n).noExt, fun n => h.idle n _⟩, fun n => ⟨h3 n, h1 n, h2 n⟩⟩

theorem PInv.stop {E : DEnv} {r : Coord2} {w : Bool} {a : Abs K} {x : DSt K} (h : PInv E r w a x)
    (he : ∀ n, (a.cur n).ax = E.tile n ∧ (a.cur n).f = (fun _ => none) ∧ 0 ≤ (a.cur n).s ∧ (E.freeS n = false → (a.cur n).s = 0) ∧
      (E.freeE n = false → (a.cur n).e = (E.crd n r).dist.nrTiles)) : DIdle E r a.mat x := by
  refine ⟨h.mat, fun n b => ?_⟩
  by_cases hb : b = w
  · subst hb
    obtain ⟨e1, e2, e3, e4, e5⟩ := he n
    have := h.cur n
    rw [e1, e2] at this
    exact ⟨_, _, e4, e5, e3, this⟩
  · have : b = !w := by cases b <;> cases w <;> simp_all
    subst this
    exact h.idle n

/-- Local work. -/
def LStep (E : DEnv) (r : Coord2) (w : Bool) (fs : List (DSt K → Option (DSt K))) (a a' : Abs K) : Prop :=
  ∀ x, PInv E r w a x → ∃ x', runLocs fs x = some x' ∧ PInv E r w a' x'

section
variable {E : DEnv} {r : Coord2} {w : Bool} {a b c : Abs K}

theorem LStep.nil (a : Abs K) : LStep E r w [] a a := fun x h => ⟨x, rfl, h⟩

theorem LStep.append {fs gs : List (DSt K → Option (DSt K))} (h : LStep E r w fs a b) (h' : LStep E r w gs b c) :
    LStep E r w (fs ++ gs) a c := by
  intro x hx
  obtain ⟨y, e1, hy⟩ := h x hx
  obtain ⟨z, e2, hz⟩ := h' y hy
  exact ⟨z, by rw [runLocs_append, e1]; exact e2, hz⟩

theorem LStep.cons {f : DSt K → Option (DSt K)} {gs : List (DSt K → Option (DSt K))} (h : LStep E r w [f] a b) (h' : LStep E r w gs b c) :
    LStep E r w (f :: gs) a c := h.append h'

theorem LStep.list {X : Type*} (xs : List X) (ops : X → List (DSt K → Option (DSt K))) (A : List X → Abs K)
    (h : ∀ pre x post, xs = pre ++ x :: post → LStep E r w (ops x) (A pre) (A (pre ++ [x]))) :
    LStep E r w (xs.flatMap ops) (A []) (A xs) := by
  suffices H : ∀ post pre, xs = pre ++ post → LStep E r w (post.flatMap ops) (A pre) (A xs) from H xs [] rfl
  intro post
  induction post with
  | nil =>
    intro pre e
    rw [e, List.append_nil]
    exact .nil _
  | cons x post ih =>
    intro pre e
    rw [List.flatMap_cons]
    exact (h pre x post e).append (ih (pre ++ [x]) (by rw [e, List.append_assoc]; rfl))

theorem LStep.one {f : DSt K → Option (DSt K)} (h : ∀ x, PInv E r w a x → ∃ x', f x = some x' ∧ PInv E r w b x') :
    LStep E r w [f] a b := by
  intro x hx
  rw [runLocs_one]
  exact h x hx

/-- The description of panel `n` changes. -/
def Abs.setPan (a : Abs K) (n : Nat) (d : PanD K) : Abs K := { a with cur := set1 a.cur n d }
/-- Matrix `n` changes. -/
def Abs.setMat (a : Abs K) (n : Nat) (m : Coord2 → Blk K) : Abs K := { a with mat := set1 a.mat n m }

@[simp] theorem Abs.setPan_mat (a : Abs K) (n : Nat) (d : PanD K) : (a.setPan n d).mat = a.mat := rfl
@[simp] theorem Abs.setMat_cur (a : Abs K) (n : Nat) (m : Coord2 → Blk K) : (a.setMat n m).cur = a.cur := rfl
@[simp] theorem Abs.setPan_same (a : Abs K) (n : Nat) (d : PanD K) : (a.setPan n d).cur n = d := set1_same _ _ _
theorem Abs.setPan_ne (a : Abs K) {n q : Nat} (d : PanD K) (h : q ≠ n) : (a.setPan n d).cur q = a.cur q := set1_ne _ _ h
@[simp] theorem Abs.setMat_same (a : Abs K) (n : Nat) (m : Coord2 → Blk K) : (a.setMat n m).mat n = m := set1_same _ _ _
theorem Abs.setMat_ne (a : Abs K) {n q : Nat} (m : Coord2 → Blk K) (h : q ≠ n) : (a.setMat n m).mat q = a.mat q := set1_ne _ _ h

theorem DSt.panel_lawful (n : Nat) (it : Int) : (DSt.panel (K := K) n it).Lawful := by
  refine ⟨fun s v => ?_, fun s => ?_, fun s v w => ?_⟩
  · simp only [DSt.panel]; rw [set1_same, set1_same]
  · simp only [DSt.panel]; rw [set1_self, set1_self]
  · simp only [DSt.panel]; rw [set1_set1, set1_same, set1_set1]

theorem PInv.setPanel {x : DSt K} {it : Int} (h : PInv E r (rrIdx it) a x) {n : Nat} {v : VPanel K} {d : PanD K}
    (hv : PanelIs (E.crd n r) (E.tall n) (E.tile n) d.ax d.s d.e d.f v) (ho : E.own n = true → NoExt v) :
    PInv E r (rrIdx it) (a.setPan n d) ((DSt.panel n it).set x v) := by
  refine ⟨h.mat, fun q => ?_, fun q hq' => ?_, fun q => ?_⟩
  · by_cases hq : q = n
    · subst hq
      rw [Abs.setPan_same]
      simp only [DSt.panel, set1_same]
      exact hv
    · rw [Abs.setPan_ne _ _ hq]
      simp only [DSt.panel, set1_ne _ _ hq]
      exact h.cur q
  · by_cases hq : q = n
    · subst hq
      simp only [DSt.panel, set1_same]
      exact ho hq'
    · simp only [DSt.panel, set1_ne _ _ hq]
      exact h.own q hq'
  · by_cases hq : q = n
    · subst hq
      simp only [DSt.panel, set1_same]
      rw [set1_ne _ _ (by cases rrIdx it <;> simp)]
      exact h.idle q
    · simp only [DSt.panel, set1_ne _ _ hq]
      exact h.idle q

theorem Abs.setPan_self (a : Abs K) (n : Nat) : a.setPan n (a.cur n) = a := by
  unfold Abs.setPan
  rw [set1_self]

theorem LStep.upd {it : Int} {n : Nat} {d : PanD K} {f : VPanel K → Option (VPanel K)}
    (hf : ∀ v, PanelIs (E.crd n r) (E.tall n) (E.tile n) (a.cur n).ax (a.cur n).s (a.cur n).e (a.cur n).f v → ∃ v', f v = some v' ∧
      PanelIs (E.crd n r) (E.tall n) (E.tile n) d.ax d.s d.e d.f v') (ho : ∀ v v', NoExt v → f v = some v' → NoExt v') :
    LStep E r (rrIdx it) [(DSt.panel n it).upd f] a (a.setPan n d) := by
  refine .one fun x hx => ?_
  obtain ⟨v', e, hv'⟩ := hf _ (hx.cur n)
  exact ⟨_, upd_some e, hx.setPanel hv' fun h => ho _ _ (hx.own n h) e⟩

theorem LStep.setDim {it : Int} {n : Nat} {dbg : Bool} {wd : Int} (h0 : 0 < wd) (h1 : wd ≤ E.tile n) (hf : (a.cur n).f = fun _ => none) :
    LStep E r (rrIdx it) [(DSt.panel n it).upd fun v => v.setDim dbg wd] a (a.setPan n ⟨wd, (a.cur n).s, (a.cur n).e, (a.cur n).f⟩) := by
  refine .upd (fun v hv => ?_) fun _ _ h e => h.setDim e
  rw [hf] at hv ⊢
  exact hv.setDim h0 h1

theorem LStep.setRangeStart (hE : E.OK) (hr : r ∈ E.G) {it : Int} {n : Nat} {dbg : Bool} {s : Int} (h0 : 0 ≤ s) (h1 : s ≤ (a.cur n).e)
    (hf : (a.cur n).f = fun _ => none) (hrg : E.ranged = true := by rfl) :
    LStep E r (rrIdx it) [(DSt.panel n it).upd fun v => v.setRangeStart dbg s] a (a.setPan n ⟨(a.cur n).ax, s, (a.cur n).e, (a.cur n).f⟩) := by
  refine .upd (fun v hv => ?_) fun _ _ h e => h.setRangeStart e
  rw [hf] at hv ⊢
  exact hv.setRangeStart (hE.crdP hrg n hr) h0 h1

theorem LStep.setRange (hE : E.OK) (hr : r ∈ E.G) {it : Int} {n : Nat} {dbg : Bool} {s e : Int} (h0 : 0 ≤ s) (h1 : s ≤ e)
    (h2 : e ≤ (E.crd n r).dist.nrTiles) (hf : (a.cur n).f = fun _ => none) (hrg : E.ranged = true := by rfl) :
    LStep E r (rrIdx it) [(DSt.panel n it).upd fun v => v.setRange dbg s e] a (a.setPan n ⟨(a.cur n).ax, s, e, (a.cur n).f⟩) := by
  refine .upd (fun v hv => ?_) fun _ _ h e => h.setRange e
  rw [hf] at hv ⊢
  exact hv.setRange (hE.crdP hrg n hr) h0 h1 h2

theorem LStep.reset {it : Int} {n : Nat} :
    LStep E r (rrIdx it) [(DSt.panel n it).upd fun v => some v.reset] a (a.setPan n ⟨E.tile n, (a.cur n).s, (a.cur n).e, fun _ => none⟩) :=
  .upd (fun _ hv => ⟨_, rfl, hv.reset⟩) fun v _ _ e => by cases e; exact NoExt.reset v

theorem LStep.link (hE : E.OK) (hr : r ∈ E.G) {it : Int} {n q : Nat} {dbg : Bool} {i : Int} {idx : Coord2} (hs : 0 ≤ (a.cur n).s)
    (hi : InRange (E.crd n r) (a.cur n).s (a.cur n).e i) (hf : (a.cur n).f i = none)
    (hb : VPanel.fits (E.tall n) (a.mat q idx) (a.cur n).ax (tsz (E.crd n r) i) = true)
    (ho : E.own n = false := by rfl) :
    LStep E r (rrIdx it) [DSt.link (DSt.panel n it) dbg i q idx] a
      (a.setPan n ⟨(a.cur n).ax, (a.cur n).s, (a.cur n).e, set1 (a.cur n).f i (some (a.mat q idx))⟩) := by
  refine .one fun x hx => ?_
  unfold DSt.link
  rw [hx.mat]
  obtain ⟨v', e, hv'⟩ := (hx.cur n).setTile (dbg := dbg) (hE.crd n hr) hs hi hf hb
  exact ⟨_, upd_some e, hx.setPanel hv' fun h => by rw [ho] at h; cases h⟩

/-- Reading a panel. -/
theorem PInv.read (hE : E.OK) (hr : r ∈ E.G) {it : Int} {n : Nat} {dbg : Bool} {i : Int} {x : DSt K} (h : PInv E r (rrIdx it) a x)
    (hax : 0 ≤ (a.cur n).ax) (hs : 0 ≤ (a.cur n).s) (hi : InRange (E.crd n r) (a.cur n).s (a.cur n).e i) {v : Blk K}
    (hf : (a.cur n).f i = some v) : ∃ x', (DSt.panel n it).read dbg i x = some (x', v) ∧ PInv E r (rrIdx it) a x' := by
  obtain ⟨v', e, hv'⟩ := (h.cur n).read (dbg := dbg) (hE.crd n hr) hax hs hi hf
  refine ⟨_, read_some e, ?_⟩
  have := h.setPanel hv' fun ho => (h.own n ho).read e
  rwa [Abs.setPan_self] at this

theorem PInv.task {x : DSt K} (h : PInv E r w a x) {n : Nat} {idx : Coord2} {f : Blk K → Option (Blk K)} {v : Blk K}
    (hf : f (a.mat n idx) = some v) :
    ∃ x', DSt.task n idx f x = some x' ∧ PInv E r w (a.setMat n (set1 (a.mat n) idx v)) x' := by
  unfold DSt.task
  rw [h.mat, hf]
  exact ⟨_, rfl, rfl, h.cur, h.own, h.idle⟩

/-- Links of matrix tiles into a panel. -/
theorem LStep.links (hE : E.OK) (hr : r ∈ E.G) {it : Int} {n q : Nat} {dbg : Bool} (xs : List Int) (pos : Int → Coord2) (hnd : xs.Nodup)
    (hs : 0 ≤ (a.cur n).s) (hi : ∀ i ∈ xs, InRange (E.crd n r) (a.cur n).s (a.cur n).e i) (hf : ∀ i ∈ xs, (a.cur n).f i = none)
    (hb : ∀ i ∈ xs, VPanel.fits (E.tall n) (a.mat q (pos i)) (a.cur n).ax (tsz (E.crd n r) i) = true) (ho : E.own n = false := by rfl) :
    LStep E r (rrIdx it) (xs.map fun i => DSt.link (DSt.panel n it) dbg i q (pos i)) a
      (a.setPan n ⟨(a.cur n).ax, (a.cur n).s, (a.cur n).e, fun i => if i ∈ xs then some (a.mat q (pos i)) else (a.cur n).f i⟩) := by
  rw [List.map_eq_flatMap]
  have key := LStep.list (E := E) (r := r) (w := rrIdx it) xs (fun i => [DSt.link (DSt.panel n it) dbg i q (pos i)])
    (fun pre => a.setPan n ⟨(a.cur n).ax, (a.cur n).s, (a.cur n).e, fun i => if i ∈ pre then some (a.mat q (pos i)) else (a.cur n).f i⟩)
    (by
      intro pre i post e
      have himem : i ∈ xs := by rw [e]; simp
      have hpre : i ∉ pre := by
        intro hc
        rw [e] at hnd
        exact (List.nodup_append.1 hnd).2.2 i hc i List.mem_cons_self rfl
      have := LStep.link (a := a.setPan n ⟨(a.cur n).ax, (a.cur n).s, (a.cur n).e, fun i => if i ∈ pre then some (a.mat q (pos i)) else (a.cur n).f i⟩)
        hE hr (it := it) (n := n) (q := q) (dbg := dbg) (i := i) (idx := pos i) (by simpa using hs) (by simpa using hi i himem)
        (by simp [hpre, hf i himem]) (by simpa using hb i himem) ho
      convert this using 1
      unfold Abs.setPan
      dsimp only
      rw [set1_set1]
      congr 2
      simp only [set1_same]
      congr 1
      funext j
      unfold set1
      by_cases hj : j = i
      · subst hj; simp
      · simp [hj])
  simp only [List.not_mem_nil, if_false] at key
  convert key using 1
  exact (Abs.setPan_self a n).symm

/-- Tasks on different tiles of a matrix. -/
theorem LStep.tasks {n : Nat} {X : Type*} (xs : List X) (op : X → DSt K → Option (DSt K)) (pos : X → Coord2) (new : Coord2 → Blk K)
    (hnd : (xs.map pos).Nodup)
    (hop : ∀ x ∈ xs, ∀ m : Coord2 → Blk K, m (pos x) = a.mat n (pos x) → (∀ z, z ∉ xs.map pos → m z = a.mat n z) →
      LStep E r w [op x] (a.setMat n m) (a.setMat n (set1 m (pos x) (new (pos x))))) :
    LStep E r w (xs.map op) a (a.setMat n fun z => if z ∈ xs.map pos then new z else a.mat n z) := by
  rw [List.map_eq_flatMap]
  have key := LStep.list (E := E) (r := r) (w := w) xs (fun i => [op i])
    (fun pre => a.setMat n fun z => if z ∈ pre.map pos then new z else a.mat n z)
    (by
      intro pre i post e
      have himem : i ∈ xs := by rw [e]; simp
      have hpre : pos i ∉ pre.map pos := by
        intro hc
        rw [e, List.map_append, List.map_cons] at hnd
        exact (List.nodup_append.1 hnd).2.2 _ hc _ List.mem_cons_self rfl
      have := hop i himem (fun z => if z ∈ pre.map pos then new z else a.mat n z) (if_neg hpre) (by
        intro z hz
        refine if_neg fun hc => hz ?_
        rw [e, List.map_append, List.mem_append]
        exact Or.inl hc)
      convert this using 2
      funext z
      unfold set1
      by_cases hz : z = pos i
      · subst hz; simp
      · simp [hz])
  simp only [List.map_nil, List.not_mem_nil, if_false] at key
  convert key using 1
  unfold Abs.setMat
  rw [set1_self]

/-- A state with a list of panels. -/
def Abs.of (M : Nat → Coord2 → Blk K) (rest : Nat → PanD K) (l : List (PanD K)) : Abs K := ⟨M, fun n => (l[n]?).getD (rest n)⟩

theorem Abs.of_set (M : Nat → Coord2 → Blk K) (rest : Nat → PanD K) (l : List (PanD K)) {n : Nat} (d : PanD K) (h : n < l.length) :
    (Abs.of M rest l).setPan n d = Abs.of M rest (l.set n d) := by
  unfold Abs.of Abs.setPan
  dsimp only
  congr 1
  funext q
  unfold set1
  by_cases hq : q = n
  · subst hq; simp [h]
  · rw [if_neg hq, List.getElem?_set_ne (Ne.symm hq)]

theorem Abs.of2_0 (M : Nat → Coord2 → Blk K) (rest : Nat → PanD K) (x y d : PanD K) :
    Abs.of M rest [d, y] = (Abs.of M rest [x, y]).setPan 0 d := (Abs.of_set M rest [x, y] d (Nat.zero_lt_succ 1)).symm

theorem Abs.of2_1 (M : Nat → Coord2 → Blk K) (rest : Nat → PanD K) (x y d : PanD K) :
    Abs.of M rest [x, d] = (Abs.of M rest [x, y]).setPan 1 d := (Abs.of_set M rest [x, y] d (Nat.lt_succ_self 1)).symm

theorem LStep.to {fs : List (DSt K → Option (DSt K))} (h : LStep E r w fs a b) (e : c = b) : LStep E r w fs a c := e ▸ h

/-- A conditional piece of local work. -/
theorem LStep.ite {P : Prop} [Decidable P] {fs gs : List (DSt K → Option (DSt K))} (h1 : P → LStep E r w fs a b) (h2 : ¬ P → LStep E r w gs a b) :
    LStep E r w (if P then fs else gs) a b := by
  split
  · rename_i h; exact h1 h
  · rename_i h; exact h2 h

end

/-! ### All processes -/

structure GInv (E : DEnv) (w : Bool) (A : Coord2 → Abs K) (g : Glob (DSt K) (Blk K)) : Prop where
  clean : Clean E.G g
  all : ∀ r ∈ E.G, PInv E r w (A r) (g.st r)

structure GIdle (E : DEnv) (M : Coord2 → Nat → Coord2 → Blk K) (g : Glob (DSt K) (Blk K)) : Prop where
  clean : Clean E.G g
  all : ∀ r ∈ E.G, DIdle E r (M r) (g.st r)

/-- A phase of all processes. -/
def GStep (E : DEnv) (w : Bool) (p : Coord2 → List (Instr (DSt K) (Blk K))) (A A' : Coord2 → Abs K) : Prop :=
  ∀ g, GInv E w A g → ∃ g', Runs (fun r => if r ∈ E.G then p r else []) g g' ∧ GInv E w A' g'

section
variable {E : DEnv} {w : Bool} {A B C : Coord2 → Abs K}

theorem GStep.append {p q : Coord2 → List (Instr (DSt K) (Blk K))} (h : GStep E w p A B) (h' : GStep E w q B C) :
    GStep E w (fun r => p r ++ q r) A C := by
  intro g hg
  obtain ⟨g1, r1, i1⟩ := h g hg
  obtain ⟨g2, r2, i2⟩ := h' g1 i1
  refine ⟨g2, (r1.append r2).congr fun r => ?_, i2⟩
  split <;> rfl

theorem GStep.congr {p q : Coord2 → List (Instr (DSt K) (Blk K))} (h : GStep E w p A B) (e : ∀ r ∈ E.G, q r = p r) : GStep E w q A B := by
  intro g hg
  obtain ⟨g1, r1, i1⟩ := h g hg
  refine ⟨g1, r1.congr fun r => ?_, i1⟩
  split
  · rename_i hr; exact e r hr
  · rfl

theorem GStep.to {p : Coord2 → List (Instr (DSt K) (Blk K))} (h : GStep E w p A B) (e : ∀ r ∈ E.G, C r = B r) : GStep E w p A C := by
  intro g hg
  obtain ⟨g1, r1, i1⟩ := h g hg
  exact ⟨g1, r1, i1.clean, fun r hr => e r hr ▸ i1.all r hr⟩

theorem GStep.from {p : Coord2 → List (Instr (DSt K) (Blk K))} (h : GStep E w p A B) (e : ∀ r ∈ E.G, C r = A r) : GStep E w p C B := by
  intro g hg
  exact h g ⟨hg.clean, fun r hr => e r hr ▸ hg.all r hr⟩

theorem GStep.nil (A : Coord2 → Abs K) : GStep E w (fun _ => []) A A := fun g hg => ⟨g, .nil (fun r => by simp) g, hg⟩

theorem GStep.locals (hE : E.OK) {fs : Coord2 → List (DSt K → Option (DSt K))} (h : ∀ r ∈ E.G, LStep E r w (fs r) (A r) (B r)) :
    GStep E w (fun r => (fs r).map Instr.loc) A B := by
  intro g hg
  obtain ⟨g', h1, h2, h3⟩ := Runs.locals_ex hE.nodup hg.clean fs (fun r x => PInv E r w (B r) x)
    (fun r hr => h r hr _ (hg.all r hr))
  exact ⟨g', h1, h2, h3⟩

/-- The broadcast of a panel, in the lines of processes `act`. -/
theorem GStep.bcast (hE : E.OK) {it : Int} (n : Nat) {root : Int} (hroot : 0 ≤ root ∧ root < ((E.pd n).get (E.axis n)).grid) {dbg : Bool}
    {ax s e : Int} (hax : 0 ≤ ax) (hs : 0 ≤ s) (hse : s ≤ e) (he : e ≤ ((E.pd n).get (E.axis n).orth).dist.nrTiles) (act : Int → Bool)
    (W : Int → Blk K)
    (hW : ∀ t, s ≤ t → t < e → VPanel.fits (E.tall n) (W t) ax (((E.pd n).get (E.axis n).orth).dist.global_tile_size_of t) = true)
    (hA : ∀ r ∈ E.G, act (r.get (E.axis n).orth) = true → (A r).cur n =
      ⟨ax, s, e, if r.get (E.axis n) = root then content (E.crd n r) s e W else fun _ => none⟩) (ho : E.own n = false := by rfl) :
    GStep E (rrIdx it) (fun r => if act (r.get (E.axis n).orth) = true then
        bcastPanel dbg (E.axis n) ((E.pd n).on r) root (DSt.panel n it) s e else []) A
      (fun r => if act (r.get (E.axis n).orth) = true then (A r).setPan n ⟨ax, s, e, content (E.crd n r) s e W⟩ else A r) := by
  intro g hg
  have hG := hE.ranks n
  obtain ⟨g', h1, h2, h3, h4⟩ := bcastPanel_runs (P := E.pd n) (axis := E.axis n) (hE.plain n _) hroot (DSt.panel_lawful n it)
    (dbg := dbg) (tall := E.tall n) (tile := E.tile n) hax hs hse he act W hW (g := g) (hG ▸ hg.clean) (by
      intro r hr ha
      rw [hG] at hr
      have := (hg.all r hr).cur n
      rw [hA r hr ha] at this
      exact this)
  rw [hG] at h1 h2 h3 h4
  refine ⟨g', h1.congr fun r => ?_, h2, fun r hr => ?_⟩
  · dsimp only
    by_cases hr : r ∈ E.G
    · by_cases ha : act (r.get (E.axis n).orth) = true
      · rw [if_pos hr, if_pos ha, if_pos ⟨hr, ha⟩]
      · rw [if_pos hr, if_neg ha, if_neg (fun hc => ha hc.2)]
    · rw [if_neg hr, if_neg (fun hc => hr hc.1)]
  · by_cases ha : act (r.get (E.axis n).orth) = true
    · rw [if_pos ha]
      obtain ⟨v, hv⟩ := (h3 r).1
      have h5 := h4 r hr ha
      rw [hv] at h5 ⊢
      rw [(DSt.panel_lawful n it).get_set] at h5
      exact (hg.all r hr).setPanel h5 fun h => by rw [ho] at h; cases h
    · rw [if_neg ha, (h3 r).2 (fun hc => ha hc.2)]
      exact hg.all r hr

/-- An iteration that starts and ends without panels in use. -/
theorem GStep.iter {p : Coord2 → List (Instr (DSt K) (Blk K))} {M M' : Coord2 → Nat → Coord2 → Blk K}
    (h : ∀ ss se : Coord2 → Nat → Int, (∀ r ∈ E.G, ∀ n, 0 ≤ ss r n ∧ (E.freeS n = false → ss r n = 0) ∧
        (E.freeE n = false → se r n = (E.crd n r).dist.nrTiles)) →
      ∃ B : Coord2 → Abs K, GStep E w p (fun r => ⟨M r, fun n => ⟨E.tile n, ss r n, se r n, fun _ => none⟩⟩) B ∧
        ∀ r ∈ E.G, (B r).mat = M' r ∧ ∀ n, ((B r).cur n).ax = E.tile n ∧ ((B r).cur n).f = (fun _ => none) ∧ 0 ≤ ((B r).cur n).s ∧
          (E.freeS n = false → ((B r).cur n).s = 0) ∧ (E.freeE n = false → ((B r).cur n).e = (E.crd n r).dist.nrTiles))
    {g : Glob (DSt K) (Blk K)} (hg : GIdle E M g) :
    ∃ g', Runs (fun r => if r ∈ E.G then p r else []) g g' ∧ GIdle E M' g' := by
  classical
  have hex : ∀ r, ∃ ss se : Nat → Int, r ∈ E.G → PInv E r w ⟨M r, fun n => ⟨E.tile n, ss n, se n, fun _ => none⟩⟩ (g.st r) ∧
      ∀ n, 0 ≤ ss n ∧ (E.freeS n = false → ss n = 0) ∧ (E.freeE n = false → se n = (E.crd n r).dist.nrTiles) := by
    intro r
    by_cases hr : r ∈ E.G
    · obtain ⟨ss, se, h1, h2⟩ := (hg.all r hr).start w
      exact ⟨ss, se, fun _ => ⟨h1, h2⟩⟩
    · exact ⟨fun _ => 0, fun _ => 0, fun h => absurd h hr⟩
  choose ss se hss using hex
  obtain ⟨B, hB, hB'⟩ := h ss se (fun r hr => (hss r hr).2)
  obtain ⟨g', r1, i1⟩ := hB g ⟨hg.clean, fun r hr => (hss r hr).1⟩
  refine ⟨g', r1, i1.clean, fun r hr => ?_⟩
  have := (i1.all r hr).stop (hB' r hr).2
  rwa [(hB' r hr).1] at this

end
end
end DLAF
